import Verif.Model.Learner
import Verif.Spec.Acquisition

/-!
# Specification for C153 and C154 (the same optimisation in other units), C156 to C158 (what a run learns from and what it maximises)
-/
namespace Verif.Spec
open Verif.Model

/-- A value in larger or smaller units, or counted from another zero; failed evaluations and infinities stay. -/
def inUnits (a b : ℝ) : Obs ℝ → Obs ℝ
  | .fin v => .fin (a * v + b)
  | o => o

/-- `-v`. -/
def negated : Obs ℝ → Obs ℝ
  | .fin v => .fin (-v)
  | .posInf => .negInf
  | .negInf => .posInf
  | .nan => .nan

/-- A recorded row in other units. -/
def recIn (T : ℝ → ℝ) (r : Rec Row ℝ) : Rec Row ℝ := { r with f := T r.f }

/-- The state of an optimiser in other units: the same points, labels and counters, the values changed. -/
def stateIn (T : ℝ → ℝ) (s : OptState Row ℝ) : OptState Row ℝ :=
  { s with data := s.data.map (List.map (recIn T)), histF := s.histF.map T, csv := s.csv.map (recIn T), stopFtarget := s.stopFtarget.map T }

/-- A run in other units: the same points in the same steps and the same end, the recorded values changed by `T` and the observed ones by `O`. -/
def runIn (T : ℝ → ℝ) (O : Obs ℝ → Obs ℝ) (o : FullOut) : FullOut where
  opt := stateIn T o.opt
  log := o.log.map (fun e => (e.1, e.2.1, O e.2.2))
  ending := match o.ending with
    | .stopped r => .stopped (recIn T r)
    | .raised => .raised
    | .running => .running

/-- The objective in other units, everything else the same. -/
def objectiveIn {G : Type*} (O : Obs ℝ → Obs ℝ) (L : Learner G) : Learner G := { L with objective := fun i x => O (L.objective i x) }

/-- The stopping target in other units. -/
def targetIn (T : ℝ → ℝ) (cfg : Cfg ℝ) : Cfg ℝ := { cfg with ftarget := cfg.ftarget.map T }

/-- Every set of values recorded in the course of the run has a standard deviation above `δ`. -/
def SpreadAbove (δ : ℝ) (cfg : Cfg ℝ) (u : RunSetup) (acq : AcqName × AcqPar) {G : Type*} (L : Learner G) : Prop :=
  ∀ k d, (learnRun cfg u acq L k 0 {} []).opt.data = some d → δ < Real.sqrt ((d.map (fun r => (r.f - (d.map Rec.f).sum / d.length) ^ 2)).sum / d.length)

/-- The evaluations that gave a number: the points with their values, in the order in which they were made. -/
def succeeded (log : List (ℕ × Row × Obs ℝ)) : List (Row × ℝ) :=
  log.filterMap (fun e => match e.2.2 with
    | .fin v => some (e.2.1, v)
    | _ => none)

/-- The mean of the values observed. -/
noncomputable def centre (log : List (ℕ × Row × Obs ℝ)) : ℝ := ((succeeded log).map Prod.snd).sum / (succeeded log).length

/-- The standard deviation of the values observed. -/
noncomputable def width (log : List (ℕ × Row × Obs ℝ)) : ℝ :=
  Real.sqrt ((((succeeded log).map (fun e => (e.2 - centre log) ^ 2)).sum) / (succeeded log).length)

open Classical in
/-- A value in units of the values observed: measured from their mean in multiples of their standard deviation.  If that is practically zero, the value itself. -/
noncomputable def inObservedUnits (log : List (ℕ × Row × Obs ℝ)) (v : ℝ) : ℝ :=
  if width log ≤ 1 / 10 ^ 8 then v else (v - centre log) / width log

/-- What a surrogate should be fitted to: every point evaluated so far with its own value. -/
noncomputable def observedData (log : List (ℕ × Row × Obs ℝ)) : List (Row × ℝ) := (succeeded log).map (fun e => (e.1, inObservedUnits log e.2))

/-- `b` is the best value observed so far, in units of the values observed. -/
def BestSoFar (minimize : Bool) (log : List (ℕ × Row × Obs ℝ)) (b : ℝ) : Prop :=
  b ∈ (observedData log).map Prod.snd ∧ ∀ v ∈ (observedData log).map Prod.snd, if minimize then b ≤ v else v ≤ b

open Classical in
/-- What evaluating the point `x` in step `i` is worth: by how much its value, distributed as the surrogate predicts from the data, is expected to improve on `best`.
A prediction with practically no uncertainty is worth nothing. -/
noncomputable def worth {G : Type*} (minimize : Bool) (L : Learner G) (i : ℕ) (log : List (ℕ × Row × Obs ℝ)) (best : ℝ) (x : Row) : ℝ :=
  let p := L.predict i (observedData log) x 0
  if Real.sqrt p.mse < eiThreshold (L.fit i (observedData log)).sigma2 then 0
  else expectedImprovement minimize best (predictive p.mean p.mse)

open Classical in
/-- The same for the moment-generating function of the improvement, with temperature `t`. -/
noncomputable def momentWorth {G : Type*} (minimize : Bool) (L : Learner G) (i : ℕ) (log : List (ℕ × Row × Obs ℝ)) (best t : ℝ) (x : Row) : ℝ :=
  let p := L.predict i (observedData log) x 0
  if Real.sqrt p.mse ≤ 1 / 10 ^ 8 then 0 else momentOfImprovement minimize best t (predictive p.mean p.mse)

/-- The search looks at the acquisition functions it is given. -/
def UsesCriteria {G : Type*} (L : Learner G) : Prop :=
  ∀ i cs k c x v, cs[k]? = some c → (c x 0).1 = some v → (L.search i cs).value k x = v

end Verif.Spec
