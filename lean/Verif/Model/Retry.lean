import Verif.Model.Optimizer

/-!
# A program that goes on after failures (`bayes_optim/_base.py:110-136`, `bayes_optim/base.py:252-256`)

The program is `while not opt.check_stop(): try: opt.step() except Exception: pass`.  The objective is called point by point (`n_job = 1`,
_base.py:119) and may raise at some calls and not at others.
-/
namespace Verif.Model

variable {P K : Type*} [Field K] [LinearOrder K] [IsStrictOrderedRing K]

/-- One call of `step`: the points proposed by `ask`, each with what the objective does there (`none`: it raises), and the outcome of the
surrogate.  An empty list models AskEmptyError (base.py:295). -/
structure Attempt (P K : Type*) where
  evals : List (P × Option (Obs K))
  oracle : TellOracle := {}

/-- _base.py:119: the number of times the objective is called; the first exception ends the evaluation. -/
def attemptCalls : List (P × Option (Obs K)) → ℕ
  | [] => 0
  | (_, none) :: _ => 1
  | (_, some _) :: rest => attemptCalls rest + 1

/-- base.py:252-256 `step`: an exception of `ask` or of the objective comes before `tell`; the state after an exception of `tell` is the one `tell`
leaves behind. -/
def attemptStep (cfg : Cfg K) (s : OptState P K) (e : Attempt P K) : OptState P K :=
  match e.evals.mapM Prod.snd with
  | none => s
  | some vals => (tell cfg s { X := e.evals.map Prod.fst, vals := vals, oracle := e.oracle }).1

/-- How the program stands. -/
inductive RetryEnd where
  | stopped  -- `check_stop` returned True
  | raised   -- `check_stop` raised, outside of the `try`
  | running
deriving DecidableEq

/-- The program, with the number of calls of the objective so far.  `running`: there are no further attempts in the list. -/
def retryLoop (cfg : Cfg K) : List (Attempt P K) → OptState P K → ℕ → OptState P K × ℕ × RetryEnd
  | es, s, calls =>
    match checkStop cfg s with
    | (s', .error _) => (s', calls, .raised)
    | (s', .ok true) => (s', calls, .stopped)
    | (s', .ok false) =>
      match es with
      | [] => (s', calls, .running)
      | e :: es => retryLoop cfg es (attemptStep cfg s' e) (calls + attemptCalls e.evals)

end Verif.Model
