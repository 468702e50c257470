import Verif.Model.Learner
import Verif.Model.Annealing

/-!
# Several optimisers in one program (`bayes_optim/base.py:104-124, 252-360, 423-494`, `bayes_opt.py:18-25, 58-143`)

An optimiser keeps references to two objects that may outlive it and that others may know: the dictionary `acquisition_par` (base.py:112) and the surrogate `model`
(base.py:115).  Dictionaries and surrogates therefore form stores.  `BO`, `ParallelBO` and `AnnealingBO` are modelled; the optimisers are called by hand with
`ask()` and `tell(...)`.  Not modelled: changes that the user makes to a dictionary, and the generator of numpy, whose numbers are given with every call.
-/
namespace Verif.Model

variable {G : Type*}

/-- A dictionary: the default argument of `ParallelBO.__init__`, which is evaluated once (bayes_opt.py:70), a dictionary of the user, or the `{}` which the constructor of
the optimiser with a given name made (base.py:112). -/
inductive ParRef where
  | default
  | user (k : ℕ)
  | own (name : ℕ)
  deriving DecidableEq

/-- The class; for `AnnealingBO` with `t0` and the schedule as computed by `annealInit`, `none` if that raises (bayes_opt.py:119-138). -/
inductive BoClass where
  | sequential
  | parallel
  | annealing (t0 : ℝ) (schedule : Option Anneal)

/-- Is it one of the batch classes? -/
def BoClass.batch : BoClass → Bool
  | .sequential => false
  | _ => true

/-- The arguments of a constructor: the space and the sizes, `acquisition_fun`, `acquisition_par` (`none`: not given) and `model`. -/
structure BoArgs where
  cls : BoClass
  cfg : Cfg ℝ
  vars : Vars
  nPoint : ℤ
  doeSize : ℤ
  fn : AcqName
  par : Option ℕ
  model : ℕ

/-- A fitted surrogate: its attributes and its predictions. -/
structure Fitted where
  attrs : AcqModel
  predict : Row → ℕ → AcqPred

/-- An optimiser object; `range` is `self.fmin`, `self.fmax` once they exist (base.py:438). -/
structure BoObj where
  cfg : Cfg ℝ
  setup : RunSetup
  fn : AcqName
  par : ParRef
  model : ℕ
  anneal : Option Anneal
  st : OptState Row ℝ := {}
  range : Option (ℝ × ℝ) := none

/-- The program state: the dictionaries, the surrogates (`none`: not fitted) and the optimisers by name. -/
structure BoWorld where
  pars : ParRef → AcqPar
  models : ℕ → Option Fitted
  objs : ℕ → Option BoObj

/-- The truth value of a dictionary, negated. -/
def AcqPar.isEmpty (p : AcqPar) : Bool := p.plugin.isNone && p.t.isNone && p.alpha.isNone && p.epsilon.isNone

/-- base.py:112 with the default arguments base.py:43 and bayes_opt.py:70: the dictionary that is kept. -/
def parRefOf (w : BoWorld) (name : ℕ) (a : BoArgs) : ParRef :=
  match a.par with
  | some k => if (w.pars (.user k)).isEmpty then .own name else .user k
  | none => if a.cls.batch then .default else .own name

/-- bayes_opt.py:78-98 and 124: what the constructor leaves in the dictionary `p`; `none` is an exception before it is changed. -/
noncomputable def initialPar (a : BoArgs) (p : AcqPar) (mdl : AcqModel) : Option AcqPar :=
  match a.cls with
  | .sequential => some p
  | .parallel => if 1 < max 1 a.nPoint then (parallelInit a.fn (some p) true mdl).toOption else none
  | .annealing t0 _ => if 1 < max 1 a.nPoint then (parallelInit a.fn (some p) true mdl).toOption.map (fun q => { q with t := some t0 }) else none

/-- Does the constructor raise after it has changed the dictionary (bayes_opt.py:127-138)? -/
def BoClass.failsLate : BoClass → Bool
  | .annealing _ none => true
  | _ => false

/-- The callback of the class. -/
def BoClass.callback : BoClass → Option Anneal
  | .annealing _ s => s
  | _ => none

/-- base.py:104-124, bayes_opt.py:66-98, 119-143: the constructors, and the assignment of the result to a variable called `name`.  The flag says whether the constructor returned. -/
noncomputable def boMake (w : BoWorld) (name : ℕ) (a : BoArgs) : BoWorld × Bool :=
  let ref := parRefOf w name a
  let p := if ref = .own name then emptyPar else w.pars ref
  match initialPar a p (((w.models a.model).map Fitted.attrs).getD {}) with
  | none => (w, false)
  | some q =>
    if a.cls.failsLate then ({ w with pars := if ref = .own name then w.pars else Function.update w.pars ref q }, false)
    else
      ({ w with
          pars := Function.update w.pars ref q
          objs := Function.update w.objs name (some
            { cfg := a.cfg, setup := { vars := a.vars, parallel := a.cls.batch, nPoint := max 1 a.nPoint, doeSize := a.doeSize }, fn := a.fn, par := ref,
              model := a.model, anneal := a.cls.callback }) }, true)

/-- base.py:466-473, bayes_opt.py:100-106, 18-25: the acquisition functions of one `ask`, built from the dictionary `p` and the surrogate `m`; `none` is an exception.
`self.fmin` is read only if the class has a plugin and the dictionary has none (bayes_opt.py:21-23); without it, AttributeError. -/
noncomputable def boCriteria (o : BoObj) (p : AcqPar) (m : Fitted) (normals : List ℝ) : Option (List Criterion) :=
  let q := if 1 < o.setup.nPoint then p else emptyPar
  if hasPlugin o.fn && q.plugin.isNone && o.range.isNone then none
  else
    let r := o.range.getD (0, 0)
    let opt : AcqOpt := { fn := o.fn, acqPar := p, minimize := o.cfg.minimize, fmin := r.1, fmax := r.2, mdl := m.attrs }
    ((if 1 < o.setup.nPoint then batchCreate opt normals else (singleCreate opt).map (fun a => [a])).toOption).map
      (fun l => l.map (fun a x j => (acqValue a m.attrs (m.predict x j), acqDx a m.attrs (m.predict x j))))

/-- base.py:477-478 with bayes_opt.py:140-141. -/
noncomputable def cooledPar (o : BoObj) (p : AcqPar) : AcqPar :=
  match o.anneal with
  | none => p
  | some a => { p with t := p.t.map (annealStep a o.st.iterCount) }

/-- What `ask` reads from the optimiser (base.py:272, bayes_opt.py:36): whether there is an initial design to make depends on the surrogate. -/
def boAskState (w : BoWorld) (o : BoObj) : AskState := { askStateOf o.setup o.st with fitted := (w.models o.model).isSome }

/-- base.py:258-307 `ask()`: the points, `none` is an exception. -/
noncomputable def boAsk (w : BoWorld) (o : BoObj) (normals : List ℝ) (search : List Criterion → AskEnv G) : BoWorld × Option (List Row) :=
  match w.models o.model with
  | none => (w, (askFull (search []) (boAskState w o) none none).toOption)
  | some m =>
    match boCriteria o (w.pars o.par) m normals with
    | none => (w, none)
    | some cs =>
      ({ w with pars := Function.update w.pars o.par (cooledPar o (w.pars o.par)) }, (askFull (search cs) (boAskState w o) none none).toOption)

/-- The data that `update_model` fits the surrogate to (base.py:341, 423-441), if `tell` gets there. -/
noncomputable def dataToFit (cfg : Cfg ℝ) (s : OptState Row ℝ) (a : TellArgs Row ℝ) : Option (List (Rec Row ℝ)) :=
  match tell cfg s { a with oracle := { a.oracle with fitOk := false } } with
  | (s', .error .modelFailed) => s'.data
  | _ => none

/-- base.py:310-360 `tell`; `fit` gives the state of the surrogate after `model.fit`, from the state before and the training set, and whether it returned (line 441). -/
noncomputable def boTell (w : BoWorld) (name : ℕ) (o : BoObj) (a : TellArgs Row ℝ) (fit : Option Fitted → List (Row × ℝ) → Option Fitted × Bool) :
    BoWorld × Except TellErr Unit :=
  match dataToFit o.cfg o.st a with
  | none =>
    let r := tell o.cfg o.st a
    ({ w with objs := Function.update w.objs name (some { o with st := r.1 }) }, r.2)
  | some d =>
    let f := fit (w.models o.model) (trainingSet d)
    let r := tell o.cfg o.st { a with oracle := { a.oracle with fitOk := f.2 } }
    let y := standardised (d.map Rec.f)
    ({ w with
        models := Function.update w.models o.model f.1
        objs := Function.update w.objs name (some { o with st := r.1, range := some (npMin y, npMax y) }) }, r.2)

/-- A call, with the random numbers and the library behaviour it meets. -/
inductive BoCall (G : Type*) where
  | make (a : BoArgs)
  | ask (normals : List ℝ) (search : List Criterion → AskEnv G)
  | tell (a : TellArgs Row ℝ) (fit : Option Fitted → List (Row × ℝ) → Option Fitted × Bool)

/-- What the caller sees. -/
inductive BoResult where
  | made (ok : Bool)
  | points (X : Option (List Row))
  | told (r : Except TellErr Unit)
  | noObject

/-- One call for the optimiser called `name`. -/
noncomputable def boCall (w : BoWorld) (name : ℕ) (c : BoCall G) : BoWorld × BoResult :=
  match c with
  | .make a => ((boMake w name a).1, .made (boMake w name a).2)
  | .ask z search =>
    match w.objs name with
    | none => (w, .noObject)
    | some o => ((boAsk w o z search).1, .points (boAsk w o z search).2)
  | .tell a fit =>
    match w.objs name with
    | none => (w, .noObject)
    | some o => ((boTell w name o a fit).1, .told (boTell w name o a fit).2)

/-- A program: calls for optimisers by name, in any order; exceptions are caught and the program goes on. -/
noncomputable def boProgram (w : BoWorld) : List (ℕ × BoCall G) → BoWorld × List (ℕ × BoResult)
  | [] => (w, [])
  | c :: h =>
    let r := boCall w c.1 c.2
    let rest := boProgram r.1 h
    (rest.1, (c.1, r.2) :: rest.2)

end Verif.Model
