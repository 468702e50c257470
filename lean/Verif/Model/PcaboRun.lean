import Verif.Model.PcaboTell

/-!
# A whole run of PCA-BO (`bayes_optim/_base.py:123-136`, `bayes_optim/base.py:252-256` with `bayes_optim/extension.py:150-175`)
-/
namespace Verif.Model

/-- What `run` is given: budget, target and direction, the points `ask` returns in each iteration, mapped back to the original space (extension.py:150-151; `none`: it raises), the
objective, and the success of PCA and Gaussian process. -/
structure PcaWorld (P : Type*) where
  maxFEs : ℕ
  ftarget : Option ℝ
  minimize : Bool
  propose : ℕ → PcaState P → Option (List P)
  objective : P → Obs ℝ
  fit : ℕ → Bool

/-- How `run` ends. -/
inductive PcaEnd (P : Type*) where
  | running
  | raised
  | returned (best : Rec P ℝ)

/-- _base.py:123-131 `check_stop` with extension.py:142-148: `stop_dict` is empty before the run, which is left once it has an entry. -/
noncomputable def pcaStop {P : Type*} (W : PcaWorld P) (s : PcaState P) : Bool :=
  decide (W.maxFEs ≤ s.evalCount) ||
    match W.ftarget, pcaXopt W.minimize s with
    | some t, some r => compare W.minimize r.f t
    | _, _ => false

/-- base.py:254-256: the arguments of `tell` in iteration `i`. -/
def pcaCallOf {P : Type*} (W : PcaWorld P) (i : ℕ) (X : List P) : PcaCall P := ⟨X, X.map W.objective, W.fit i⟩

/-- _base.py:133-136 `run`; `calls` are the calls of `tell` so far.  Returns the state, these calls and the ending. -/
noncomputable def pcaRun {P : Type*} (W : PcaWorld P) : ℕ → List (PcaCall P) → PcaState P → PcaState P × List (PcaCall P) × PcaEnd P
  | 0, calls, s => (s, calls, .running)
  | fuel + 1, calls, s =>
    if pcaStop W s then
      match pcaXopt W.minimize s with
      | some r => (s, calls, .returned r)
      | none => (s, calls, .raised)
    else
      match W.propose calls.length s with
      | none => (s, calls, .raised)
      | some X =>
        let a := pcaCallOf W calls.length X
        match pcaTell W.minimize false s a with
        | (s', .error _) => (s', calls ++ [a], .raised)
        | (s', .ok _) => pcaRun W fuel (calls ++ [a]) s'

end Verif.Model
