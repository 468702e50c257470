import Verif.Model.AskFull
import Verif.Model.Optimizer

/-!
# A whole optimisation: `run()` with `ask`, `evaluate` and `tell` (`_base.py:123-136`, `base.py:252-360`)

The models of `ask` (with its search and samplers), of `tell` and of the stopping test are put together.  The objective may be noisy: it is
a function per step.
-/
namespace Verif.Model

variable {G : Type*}

/-- The constructor arguments that `ask` uses: the variables, the class, `n_point` and `DoE_size`. -/
structure RunSetup where
  vars : Vars
  parallel : Bool
  nPoint : ℤ
  doeSize : ℤ

/-- What a step meets: the random outcomes and libraries, the objective (base.py:255) and the surrogate. -/
structure StepWorld (G : Type*) where
  env : AskEnv G
  objective : Row → Obs ℝ
  oracle : TellOracle := {}

/-- What `ask` reads from the optimiser (base.py:272, bayes_opt.py:36): during `run` the model is fitted as soon as a `tell` has returned, which is
when `data` exists. -/
def askStateOf (u : RunSetup) (s : OptState Row ℝ) : AskState :=
  { vars := u.vars, data := (s.data.getD []).map Rec.x, fitted := s.data.isSome, parallel := u.parallel, nPoint := u.nPoint, doeSize := u.doeSize }

/-- How `run` ends. -/
inductive FullEnd where
  | stopped (best : Rec Row ℝ)
  | raised
  | running

/-- The state of the optimiser, the calls of the objective so far (step, point, value; a ghost variable) and the end. -/
structure FullOut where
  opt : OptState Row ℝ
  log : List (ℕ × Row × Obs ℝ)
  ending : FullEnd

/-- _base.py:133-136 `run` with base.py:252-256 `step`; `fuel` bounds the number of stopping tests, `i` counts the steps. -/
noncomputable def fullRun (cfg : Cfg ℝ) (u : RunSetup) (w : ℕ → StepWorld G) : ℕ → ℕ → OptState Row ℝ → List (ℕ × Row × Obs ℝ) → FullOut
  | 0, _, s, log => ⟨s, log, .running⟩
  | fuel + 1, i, s, log =>
    match checkStop cfg s with
    | (s1, .error _) => ⟨s1, log, .raised⟩
    | (s1, .ok true) =>
      match xopt cfg s1 with
      | .ok (some r) => ⟨s1, log, .stopped r⟩
      | _ => ⟨s1, log, .raised⟩
    | (s1, .ok false) =>
      match askFull (w i).env (askStateOf u s1) none none with
      | .error _ => ⟨s1, log, .raised⟩
      | .ok X =>
        match tell cfg s1 { X := X, vals := X.map (w i).objective, oracle := (w i).oracle } with
        | (s2, .error _) => ⟨s2, log ++ X.map (fun x => (i, x, (w i).objective x)), .raised⟩
        | (s2, .ok _) => fullRun cfg u w fuel (i + 1) s2 (log ++ X.map (fun x => (i, x, (w i).objective x)))

end Verif.Model
