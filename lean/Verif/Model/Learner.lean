import Verif.Model.FullRun
import Verif.Model.Acquisition

/-!
# A whole optimisation in which the surrogate learns from what was observed (`base.py:252-360, 423-494`, `bayes_opt.py:18-25, 100-106`)

`Model/FullRun.lean` takes the outcome of the acquisition search of every step as given.  Here that outcome depends on the observations in the way
the code prescribes: the values are standardised, the surrogate is fitted to them, the acquisition functions are built from the surrogate, and
the search sees the acquisition functions only.
-/
namespace Verif.Model

variable {G : Type*}

/-- What the search sees of an acquisition function: at a point and for a coordinate, the value and that coordinate of the gradient. -/
abbrev Criterion := Row → ℕ → Option ℝ × Option ℝ

/-- What surrounds the optimiser in step `i`: the surrogate's attributes and predictions after a fit (base.py:441, acquisition_fun.py:61, 77), whether fitting works,
the numbers drawn for a batch (bayes_opt.py:82-94), the search for given acquisition functions together with the sampler, whether the constraints can be
evaluated (base.py:350), and the objective. -/
structure Learner (G : Type*) where
  fit : ℕ → List (Row × ℝ) → AcqModel
  predict : ℕ → List (Row × ℝ) → Row → ℕ → AcqPred
  fitOk : ℕ → List (Row × ℝ) → Bool := fun _ _ => true
  normals : ℕ → List ℝ
  search : ℕ → List Criterion → AskEnv G
  constraintOk : ℕ → Row → Bool := fun _ _ => true
  objective : ℕ → Row → Obs ℝ

/-- base.py:437, 441: what the surrogate is fitted to. -/
noncomputable def trainingSet (d : List (Rec Row ℝ)) : List (Row × ℝ) := (d.map Rec.x).zip (standardised (d.map Rec.f))

/-- base.py:466-473, bayes_opt.py:100-106, 18-25: the acquisition functions of one `ask`, for the class `acq.1` and the parameters `acq.2`. -/
noncomputable def criteriaOf (cfg : Cfg ℝ) (u : RunSetup) (acq : AcqName × AcqPar) (L : Learner G) (i : ℕ) (d : List (Rec Row ℝ)) :
    Except AcqErr (List Criterion) :=
  let t := trainingSet d
  let mdl := L.fit i t
  let o := optOf acq.1 acq.2 cfg.minimize (d.map Rec.f) mdl
  (if 1 < u.nPoint then batchCreate o (L.normals i) else (singleCreate o).map (fun a => [a])).map
    (fun l => l.map (fun a x j => (acqValue a mdl (L.predict i t x j), acqDx a mdl (L.predict i t x j))))

/-- base.py:258-307: the points of a step; `none` is an exception. -/
noncomputable def proposals (cfg : Cfg ℝ) (u : RunSetup) (acq : AcqName × AcqPar) (L : Learner G) (i : ℕ) (s : OptState Row ℝ) : Option (List Row) :=
  match s.data with
  | none => (askFull (L.search i []) (askStateOf u s) none none).toOption
  | some d =>
    match criteriaOf cfg u acq L i d with
    | .error _ => none
    | .ok cs => (askFull (L.search i cs) (askStateOf u s) none none).toOption

/-- base.py:331-340: the data after the points `X` with the values `vals`. -/
def extended (cfg : Cfg ℝ) (s : OptState Row ℝ) (X : List Row) (vals : List (Obs ℝ)) : List (Rec Row ℝ) :=
  s.data.getD [] ++ postEvalCheck (if cfg.evalDict then 0 else 1) ((X.zip vals).zip (defaultIndex X.length))

/-- base.py:441-445, 349-351. -/
noncomputable def oracleOf (cfg : Cfg ℝ) (L : Learner G) (i : ℕ) (s : OptState Row ℝ) (X : List Row) : TellOracle :=
  let d := extended cfg s X (X.map (L.objective i))
  { fitOk := L.fitOk i (trainingSet d), constraintOk := ((incumbent cfg.minimize d).map (fun r => L.constraintOk i r.x)).getD true }

/-- _base.py:133-136 `run`, as `fullRun`. -/
noncomputable def learnRun (cfg : Cfg ℝ) (u : RunSetup) (acq : AcqName × AcqPar) (L : Learner G) :
    ℕ → ℕ → OptState Row ℝ → List (ℕ × Row × Obs ℝ) → FullOut
  | 0, _, s, log => ⟨s, log, .running⟩
  | fuel + 1, i, s, log =>
    match checkStop cfg s with
    | (s1, .error _) => ⟨s1, log, .raised⟩
    | (s1, .ok true) =>
      match xopt cfg s1 with
      | .ok (some r) => ⟨s1, log, .stopped r⟩
      | _ => ⟨s1, log, .raised⟩
    | (s1, .ok false) =>
      match proposals cfg u acq L i s1 with
      | none => ⟨s1, log, .raised⟩
      | some X =>
        match tell cfg s1 { X := X, vals := X.map (L.objective i), oracle := oracleOf cfg L i s1 X } with
        | (s2, .error _) => ⟨s2, log ++ X.map (fun x => (i, x, L.objective i x)), .raised⟩
        | (s2, .ok _) => learnRun cfg u acq L fuel (i + 1) s2 (log ++ X.map (fun x => (i, x, L.objective i x)))

end Verif.Model
