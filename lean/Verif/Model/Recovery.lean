import Verif.Model.Optimizer

/-!
# The surrogate across calls of `tell` that raise

`tell` trains the surrogate in the middle (base.py:341, 441-442).  A caller who catches its exceptions goes on with whatever the surrogate then is.  Here the state of the
surrogate is followed through the three classes of bayes_optim/surrogate: `RandomForest` (random_forest.py:111-117), the scikit-learn wrapper (gaussian_process/__init__.py:110-146)
and the package's own Gaussian process (gpr.py:354-417).
-/
namespace Verif.Model

/-- The class of the surrogate. -/
inductive SurrogateClass where
  | forest
  | sklearnGp
  | ownGp
deriving DecidableEq

/-- What `predict` answers from: nothing (it raises), one complete training on the data `d`, or what an interrupted training has left. -/
inductive Knowledge (D : Type*) where
  | nothing
  | trained (d : D)
  | torn

/-- The flag `is_fitted` and the learned attributes. -/
structure Surrogate (D : Type*) where
  fitted : Bool
  knows : Knowledge D

/-- random_forest.py:93, gaussian_process/__init__.py:48, gpr.py:234: the surrogate after construction. -/
def Surrogate.fresh (D : Type*) : Surrogate D := ⟨false, .nothing⟩

/-- How base.py:441-445 goes: the first checks of `fit` raise (random_forest.py:114, gaussian_process/__init__.py:125-126, gpr.py:374 in `check_X_y`), the training raises later, `predict` or the
logged scores raise after it, or everything works. -/
inductive FitOutcome where
  | checkFails
  | trainFails
  | predictFails
  | done
deriving DecidableEq

/-- `fit` on the data `d`.  The forest sets `is_fitted` before it trains (random_forest.py:116-117); scikit-learn checks the data before it discards the old trees, and a failure is taken to be one of
these checks.  The wrapper empties `_gprs` before it trains (gaussian_process/__init__.py:127); the package's own process has replaced `X` and `y` before it optimises (gpr.py:374). -/
def Surrogate.fit {D : Type*} (c : SurrogateClass) (m : Surrogate D) (d : D) : FitOutcome → Surrogate D
  | .checkFails => m
  | .trainFails => match c with
    | .forest => ⟨true, m.knows⟩
    | .sklearnGp => ⟨m.fitted, .torn⟩
    | .ownGp => ⟨m.fitted, .torn⟩
  | .predictFails => ⟨true, .trained d⟩
  | .done => ⟨true, .trained d⟩

variable {P K : Type*} [Field K] [LinearOrder K] [IsStrictOrderedRing K]

/-- The training data: the recorded points with their values (base.py:426-427). -/
def recorded (s : OptState P K) : List (P × K) := (s.data.getD []).map (fun r => (r.x, r.f))

/-- Whether a call with this result has reached base.py:441. -/
def reachesTraining : Except TellErr Unit → Bool
  | .ok _ => true
  | .error .modelFailed => true
  | .error .constraintFailed => true
  | .error _ => false

/-- base.py:310-360 `tell` with the surrogate. -/
def tellSurrogate (cfg : Cfg K) (c : SurrogateClass) (w : OptState P K × Surrogate (List (P × K))) (a : TellArgs P K) (o : FitOutcome) :
    (OptState P K × Surrogate (List (P × K))) × Bool :=
  let r := tell cfg w.1 { a with oracle := { a.oracle with fitOk := decide (o = .done) } }
  let m := if reachesTraining r.2 then w.2.fit c (recorded r.1) o else w.2
  ((r.1, m), match r.2 with | .ok _ => true | .error _ => false)

/-- A history of calls of `tell`; the caller catches the exceptions. -/
def tellAll (cfg : Cfg K) (c : SurrogateClass) (h : List (TellArgs P K × FitOutcome)) : OptState P K × Surrogate (List (P × K)) :=
  h.foldl (fun w a => (tellSurrogate cfg c w a.1 a.2).1) ({}, Surrogate.fresh _)

/-- Where the proposals of `ask` come from. -/
inductive AskSource (D : Type*) where
  | design                    -- base.py:287-290
  | search (d : D)            -- base.py:279, with the surrogate trained on `d`
  | mixture                   -- base.py:279, with the remains of an interrupted training
  | raises                    -- base.py:279, `predict` raises NotFittedError (random_forest.py:134)
deriving DecidableEq

/-- base.py:277-290. -/
def nextSource {D : Type*} (m : Surrogate D) : AskSource D :=
  if m.fitted then
    match m.knows with
    | .nothing => .raises
    | .trained d => .search d
    | .torn => .mixture
  else .design

end Verif.Model
