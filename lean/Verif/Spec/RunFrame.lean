import Verif.Model.FullRun
import Verif.Spec.Ask
import Verif.Spec.MiesFrame

/-! # Specification for C180: an optimisation described in other terms -/
namespace Verif.Spec
open Verif.Model

/-- One value for every variable, a number for every real variable. -/
def RowFor (ks : List Kind) (x : Row) : Prop :=
  x.length = ks.length ∧ ∀ (j : ℕ) (k : Kind), ks[j]? = some k → k.vtype = .real → ∃ a, x[j]? = some (.real a)

/-- Any two different points among `S` differ, in the old and in the new terms, by more than the tolerance of the duplicate check. -/
def ToldApart (cs : List Recode) (ks ks' : List Kind) (S : Set Row) : Prop :=
  ∀ x ∈ S, RowFor ks x ∧ ∀ y ∈ S, x ≠ y → Differs ks x y ∧ Differs ks' (recodeRow cs x) (recodeRow cs y)

/-- A record in the new terms. -/
noncomputable def recodeRec (cs : List Recode) (r : Rec Row ℝ) : Rec Row ℝ := { r with x := recodeRow cs r.x }

/-- The optimiser in the new terms: the points are written differently, everything else is the same. -/
noncomputable def recodeOpt (cs : List Recode) (s : OptState Row ℝ) : OptState Row ℝ :=
  { s with
    data := s.data.map (List.map (recodeRec cs))
    csv := s.csv.map (recodeRec cs) }

/-- How a run ends, in the new terms. -/
noncomputable def recodeEnd (cs : List Recode) : FullEnd → FullEnd
  | .stopped r => .stopped (recodeRec cs r)
  | .raised => .raised
  | .running => .running

/-- The outcome of a run in the new terms. -/
noncomputable def recodeOut (cs : List Recode) (o : FullOut) : FullOut where
  opt := recodeOpt cs o.opt
  log := o.log.map fun e => (e.1, recodeRow cs e.2.1, e.2.2)
  ending := recodeEnd cs o.ending

/-- In the world `w'` the acquisition search, the sampler, the surrogate and the objective do in the new terms what they do in `w` in the old ones;
all points are among `S`. -/
structure SameWorld {G : Type*} (cs : List Recode) (S : Set Row) (vars vars' : Vars) (w w' : StepWorld G) : Prop where
  searched : ∀ i, acquisitionBest w.env vars [] i ∈ S ∨ acquisitionBest w.env vars [] i = []
  sampled : ∀ k n, ∀ x ∈ designSample w.env vars [] k n, x ∈ S
  search : ∀ i, acquisitionBest w'.env vars' [] i = recodeRow cs (acquisitionBest w.env vars [] i)
  sample : ∀ k n, designSample w'.env vars' [] k n = (designSample w.env vars [] k n).map (recodeRow cs)
  objective : ∀ x ∈ S, w'.objective (recodeRow cs x) = w.objective x
  oracle : w'.oracle = w.oracle

/-- All values of the variable count as equal for `np.isclose`. -/
def Indistinct : Kind → Prop
  | .real v => v.precision = none ∧ ∀ a b : ℝ, v.lo ≤ a → a ≤ v.hi → v.lo ≤ b → b ≤ v.hi → |a - b| ≤ 1 / 10 ^ 8 + 1 / 10 ^ 5 * |b|
  | _ => False

end Verif.Spec
