import Verif.Model.Ask
import Verif.Model.Optimizer

/-!
# Several workers that share one optimiser

The ask-and-tell interface (base.py:258-360) lets a program evaluate points in several workers: each worker takes points with `ask`, evaluates them while the
others go on, and hands the values to `tell`.  The calls of the optimiser come one after another in any order.  Simplification: a call is not interrupted by
another one (the code has no locks; the program has to use one).
-/
namespace Verif.Model

variable {P K : Type*} [Field K] [LinearOrder K] [IsStrictOrderedRing K]

/-- The optimiser and the points each worker is evaluating. -/
structure Workers (W : ℕ) (P K : Type*) where
  opt : OptState P K := {}
  inHand : Fin W → Option (List P) := fun _ => none

/-- What a worker does. -/
inductive WorkerEvent (W : ℕ) (P K : Type*) where
  | take (w : Fin W) (X : List P)                                        -- `check_stop()` is false and `ask()` returns `X`
  | rest (w : Fin W)                                                     -- `check_stop()` is called, no points are taken
  | deliver (w : Fin W) (X : List P) (vals : List (Obs K)) (o : TellOracle) -- `tell(X, vals)`, exceptions are caught
  | die (w : Fin W) (X : List P)                                         -- the worker is lost with its points, another one takes its place

/-- One event.  `asks s X`: in state `s` the call `ask()` may return `X` (base.py:258-307).  A worker calls `check_stop` (_base.py:123-131) before `ask`, as `run`
does, and `tell` (base.py:310-360) with one value for each of its points. -/
inductive WorkerStep {W : ℕ} (cfg : Cfg K) (asks : OptState P K → List P → Prop) : Workers W P K → WorkerEvent W P K → Workers W P K → Prop
  | take {s s' w X} : s.inHand w = none → checkStop cfg s.opt = (s', .ok false) → asks s' X → X ≠ [] →
      WorkerStep cfg asks s (.take w X) ⟨s', Function.update s.inHand w (some X)⟩
  | rest {s w} : s.inHand w = none → WorkerStep cfg asks s (.rest w) ⟨(checkStop cfg s.opt).1, s.inHand⟩
  | deliver {s w X vals o} : s.inHand w = some X → vals.length = X.length →
      WorkerStep cfg asks s (.deliver w X vals o) ⟨(tell cfg s.opt { X := X, vals := vals, oracle := o }).1, Function.update s.inHand w none⟩
  | die {s w X} : s.inHand w = some X → WorkerStep cfg asks s (.die w X) ⟨s.opt, Function.update s.inHand w none⟩

/-- The events `es` lead from a new optimiser to `s`. -/
inductive WorkerRun {W : ℕ} (cfg : Cfg K) (asks : OptState P K → List P → Prop) : List (WorkerEvent W P K) → Workers W P K → Prop
  | start : WorkerRun cfg asks [] {}
  | step {es s e s'} : WorkerRun cfg asks es s → WorkerStep cfg asks s e s' → WorkerRun cfg asks (es ++ [e]) s'

/-- base.py:258-307 `ask()` of the class `BO` or `ParallelBO` for whatever the search and the samplers return; the recorded points are all it knows (bayes_opt.py:36). -/
def boAsks (vars : Vars) (s : OptState Row K) (X : List Row) : Prop :=
  ∃ (st : AskState) (best : ℕ → Row) (sample : ℕ → ℤ → List Row), st.vars = vars ∧ st.data = (s.data.getD []).map Rec.x ∧ ask st none none best sample = .ok X

end Verif.Model
