import Verif.Model.Learner
import Verif.Model.Annealing

/-!
# A whole optimisation by `AnnealingBO` (`bayes_opt.py:118-143`, `base.py:252-360, 477-478`)
-/
namespace Verif.Model

variable {G : Type*}

/-- _base.py:133-136 `run` of an `AnnealingBO` with MGFI, as `learnRun`, together with the temperature kept in `_acquisition_par["t"]`.  The callback of bayes_opt.py:140-141
is called at the end of every search for the maximum of the acquisition function (base.py:477-478), so not for the initial design.  When `run` is left by an
exception, the temperature returned is that before the step. -/
noncomputable def annealedRun (cfg : Cfg ℝ) (u : RunSetup) (a : Anneal) (L : Learner G) :
    ℕ → ℕ → OptState Row ℝ → ℝ → List (ℕ × Row × Obs ℝ) → FullOut × ℝ
  | 0, _, s, t, log => (⟨s, log, .running⟩, t)
  | fuel + 1, i, s, t, log =>
    match checkStop cfg s with
    | (s1, .error _) => (⟨s1, log, .raised⟩, t)
    | (s1, .ok true) =>
      match xopt cfg s1 with
      | .ok (some r) => (⟨s1, log, .stopped r⟩, t)
      | _ => (⟨s1, log, .raised⟩, t)
    | (s1, .ok false) =>
      match proposals cfg u (.MGFI, { t := some t }) L i s1 with
      | none => (⟨s1, log, .raised⟩, t)
      | some X =>
        match tell cfg s1 { X := X, vals := X.map (L.objective i), oracle := oracleOf cfg L i s1 X } with
        | (s2, .error _) => (⟨s2, log ++ X.map (fun x => (i, x, L.objective i x)), .raised⟩, t)
        | (s2, .ok _) => annealedRun cfg u a L fuel (i + 1) s2 (if s1.data.isSome then annealStep a s1.iterCount t else t)
            (log ++ X.map (fun x => (i, x, L.objective i x)))

end Verif.Model
