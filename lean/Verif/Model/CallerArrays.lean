import Verif.Model.Recommend

/-!
# The lists and arrays of the caller (`bayes_optim/_base.py:110-121`, `bayes_optim/base.py:252-256`, `310-340`)

Part 1: an objective that changes the list it is called with.  Part 2: arrays given to `tell` that the caller uses again afterwards.
-/
namespace Verif.Model
variable {P K : Type*} [Field K] [LinearOrder K] [IsStrictOrderedRing K]

/-- _base.py:110-121 `evaluate`, without `parallel_obj_fun`.  `f x` is the value of the objective and what its argument is after the call.  The result is the list of
values and the list of points as the caller of `evaluate` sees it: with one job the objective gets the points themselves (line 119), with several joblib's
worker processes get copies (line 117). -/
def evaluateArgs (nJob : ℕ) (f : P → Obs K × P) (X : List P) : List (Obs K) × List P :=
  if 1 < nJob then (X.map fun x => (f x).1, X) else (X.map fun x => (f x).1, X.map fun x => (f x).2)

/-- base.py:252-256 `step` after `ask` returned `X`: the list that was evaluated is told. -/
def stepArgs (cfg : Cfg K) (nJob : ℕ) (f : P → Obs K × P) (oracle : TellOracle) (s : OptState P K) (X : List P) : OptState P K × Except TellErr Unit :=
  tell cfg s { X := (evaluateArgs nJob f X).2, vals := (evaluateArgs nJob f X).1, oracle := oracle }

/-- What a program does.  `tell objArr a`: the points are given as a numpy array of objects (a `Solution`, for instance) if `objArr`, otherwise as lists or
an array of numbers.  `overwrite c X`: the caller writes `X` into the points of its `c`-th call of `tell`. -/
inductive CallerOp (P K : Type*) where
  | tell (objArr : Bool) (a : TellArgs P K)
  | checkStop
  | overwrite (c : ℕ) (X : List P)

/-- The optimiser, the number of calls of `tell`, and the call whose array is the table `data`. -/
structure CallerState (P K : Type*) where
  opt : OptState P K := {}
  calls : ℕ := 0
  shared : Option ℕ := none

/-- base.py:414: does `post_eval_check` return its argument itself? -/
def allFin (a : TellArgs P K) : Bool := (a.X.zip a.vals).all fun p => match p.2 with | .fin _ => true | _ => false

/-- One action.  solution.py:80 `np.asarray(x, dtype="object")` copies unless `x` is an array of objects; base.py:340: the first table is the array itself if
`post_eval_check` removed nothing, later ones are new (solution.py:144-163). -/
def callerOp (cfg : Cfg K) (p : CallerState P K) : CallerOp P K → CallerState P K
  | .tell objArr a =>
    { opt := (tell cfg p.opt a).1, calls := p.calls + 1,
      shared := if replacesTable p.opt a then (if p.opt.data.isNone && objArr && allFin a then some p.calls else none) else p.shared }
  | .checkStop => { p with opt := (checkStop cfg p.opt).1 }
  | .overwrite c X =>
    if p.shared = some c then
      { p with opt := { p.opt with data := p.opt.data.map fun d => if d.length = X.length then List.zipWith (fun r x => { r with x := x }) d X else d } }
    else p

/-- A program. -/
def callerRun (cfg : Cfg K) (ops : List (CallerOp P K)) : CallerState P K := ops.foldl (callerOp cfg) {}

end Verif.Model
