import Verif.Model.Optimizer

/-!
# Evaluation of the proposed points (`bayes_optim/_base.py:110-121` `evaluate`, `bayes_optim/base.py:252-256` `step`)

The objective maps a point to a value or raises (`none`).  joblib's `Parallel` is modelled by the order in which its tasks finish: each result is stored in the slot of
its task, the first failed task raises, and the slots are returned in the order of submission.  Functions with memory are outside the model.
-/
namespace Verif.Model

variable {P V : Type*}

/-- A task has finished: its result is stored in its slot. -/
def finishTask (f : P → Option V) (X : List P) (slots : Option (List (Option V))) (i : ℕ) : Option (List (Option V)) :=
  slots.bind (fun l => (X[i]?.bind f).map (fun v => l.set i (some v)))

/-- _base.py:117 `Parallel(n_jobs=self.n_job)(delayed(self.obj_fun)(x) for x in X)`, the tasks finishing in the order `order`. -/
def parallelEval (f : P → Option V) (X : List P) (order : List ℕ) : Option (List V) :=
  (order.foldl (finishTask f X) (some (List.replicate X.length none))).bind (fun l => l.mapM id)

/-- _base.py:113-120 `evaluate` with `obj_fun` (lines 116-119). -/
def evaluatePoints (f : P → Option V) (jobs : ℕ) (order : List ℕ) (X : List P) : Option (List V) :=
  if 1 < jobs then parallelEval f X order else X.mapM f

/-- One iteration: the proposed points, the order in which their evaluations finish, and the outcome of the surrogate. -/
structure EvalStep (P : Type*) where
  X : List P
  order : List ℕ
  oracle : TellOracle := {}

variable {K : Type*} [Field K] [LinearOrder K] [IsStrictOrderedRing K]

/-- base.py:252-256 `step` after `ask`; an exception of the objective leaves the state as it is. -/
def evalTell (cfg : Cfg K) (f : P → Option (Obs K)) (jobs : ℕ) (s : OptState P K) (e : EvalStep P) : OptState P K :=
  match evaluatePoints f jobs e.order e.X with
  | none => s
  | some vals => (tell cfg s { X := e.X, vals := vals, oracle := e.oracle }).1

/-- A sequence of iterations; the caller catches exceptions and goes on. -/
def evalSteps (cfg : Cfg K) (f : P → Option (Obs K)) (jobs : ℕ) (steps : List (EvalStep P)) : OptState P K :=
  steps.foldl (evalTell cfg f jobs) {}

end Verif.Model
