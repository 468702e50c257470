import Verif.Model.Conditional
import Verif.Model.ConditionalTell
import Verif.Model.Optimizer

/-!
# A whole run of `ConditionalBO` (`bayes_optim/extension.py:211-306`, `bayes_optim/_base.py:121-136`)
-/
namespace Verif.Model

/-- What `run` is given: the number of sub-spaces and the batch size, budget, target and direction, the random choices of sub-spaces in each iteration (extension.py:244-247), the completed point
that sub-optimiser `k` proposes for position `j` of a batch (`none`: its `ask` raises), the objective (`none` for NaN or an infinity) and the success of training. -/
structure CondWorld (P : Type*) where
  nSub : ℕ
  nPoint : ℕ
  maxFEs : ℕ
  ftarget : Option ℚ
  minimize : Bool
  pick : ℕ → List ℕ
  propose : ℕ → CondRecords P → ℕ → ℕ → Option P
  objective : P → Option ℚ
  fit : ℕ → List (P × ℚ) → Bool

/-- The state: how many sub-spaces have had their first turn, the records, and all calls of the objective so far. -/
structure CondRunState (P : Type*) where
  nextInit : ℕ
  recs : CondRecords P
  evaluated : List (CondEval P)

/-- The state after the constructor. -/
def condRunStart (P : Type*) : CondRunState P := ⟨0, condStart P, []⟩

/-- How `run` ends. -/
inductive CondEnd (P : Type*) where
  | running
  | raised
  | returned (best : P × ℚ)
deriving DecidableEq

/-- _base.py:139-145 `xopt`: the first record with the best value. -/
def condXopt {P : Type*} (minimize : Bool) (d : List (P × ℚ)) : Option (P × ℚ) :=
  (condBest minimize d).bind fun v => d.find? fun r => r.2 = v

/-- _base.py:121-131 `check_stop`: `stop_dict` is empty before the run, and the run is left once it has an entry. -/
def condStop {P : Type*} (W : CondWorld P) (s : CondRecords P) : Bool :=
  decide (W.maxFEs ≤ s.evalCount) ||
    match W.ftarget, condXopt W.minimize s.data with
    | some t, some r => compare W.minimize r.2 t
    | _, _ => false

/-- extension.py:249-262: the sub-optimisers for the batch of iteration `i`. -/
def condChoice {P : Type*} (W : CondWorld P) (i : ℕ) (s : CondRunState P) : List ℕ :=
  CondBO.choose { nSub := W.nSub, varNames := [], fixedVars := [], nextInit := s.nextInit } W.nPoint (W.pick i)

/-- extension.py:263: the points of the batch; `none` if an `ask` raises. -/
def condBatch {P : Type*} (W : CondWorld P) (i : ℕ) (s : CondRunState P) : Option (List (CondEval P)) :=
  (condChoice W i s).zipIdx.mapM fun kj => (W.propose i s.recs kj.2 kj.1).map fun p => ⟨kj.1, p, W.objective p⟩

/-- base.py:252-256 `step`; `false`: it raised. -/
def condStep {P : Type*} (W : CondWorld P) (i : ℕ) (s : CondRunState P) : CondRunState P × Bool :=
  let next := min W.nSub (s.nextInit + W.nPoint)
  match condBatch W i s with
  | none => ({ s with nextInit := next }, false)
  | some es =>
    let r := condTell (W.fit i) W.minimize false s.recs es
    (⟨next, r.1, s.evaluated ++ es⟩, r.2)

/-- _base.py:133-136 `run`: the state at the end, the number of complete steps and how it ends. -/
def condRun {P : Type*} (W : CondWorld P) : ℕ → ℕ → CondRunState P → CondRunState P × ℕ × CondEnd P
  | 0, i, s => (s, i, .running)
  | fuel + 1, i, s =>
    if condStop W s.recs then
      match condXopt W.minimize s.recs.data with
      | some r => (s, i, .returned r)
      | none => (s, i, .raised)
    else
      let r := condStep W i s
      if r.2 then condRun W fuel (i + 1) r.1 else (r.1, i, .raised)

end Verif.Model
