import Mathlib.Algebra.Order.Field.Basic
import Mathlib.Algebra.BigOperators.Group.List.Basic

/-!
# Model of the ask-evaluate-tell state machine

`bayes_optim/_base.py` (`BaseOptimizer`) and `bayes_optim/base.py` (`BaseBO.tell`, `update_model`,
`post_eval_check`, `warm_data`).  A decision point is an element of an arbitrary type `P`; objective values
are `Obs K` over an ordered field `K`.  Logging is not modelled.  The single-objective case `n_obj = 1`.
-/
namespace Verif.Model

/-- An objective value as a float: finite, NaN or infinite (base.py:414). -/
inductive Obs (K : Type*) where
  | fin (v : K)
  | nan
  | posInf
  | negInf

/-- One row of `opt.data` (solution.py:133-136): point, fitness, evaluation counter, label. -/
structure Rec (P K : Type*) where
  x : P
  f : K
  nEval : ℕ
  index : String

/-- The exceptions `tell` can raise, with the place they come from. -/
inductive TellErr where
  | emptyInput       -- solution.py:74, `x[0]` on an empty list
  | badIndex         -- solution.py:113
  | shortValues      -- base.py:332, IndexError when `func_vals` is too short
  | noRows           -- base.py:340 -> solution.py:74, concatenating two empty tables
  | emptyData        -- base.py:438, `np.min` of an empty array
  | flatFitness      -- base.py:435
  | modelFailed      -- base.py:441-445, exception from the surrogate model
  | constraintFailed -- base.py:350, exception from the user's constraint functions
deriving DecidableEq, Repr

/-- The constructor arguments that matter here: `minimize` (_base.py:43), `max_FEs` after _base.py:45
(`none` is infinity), `ftarget` (_base.py:42), the `eval_type` (base.py:178, 188) and whether a
`data_file` was given (base.py:343). -/
structure Cfg (K : Type*) where
  minimize : Bool
  maxFEs : Option ℤ
  ftarget : Option K
  evalDict : Bool := false
  dataFile : Bool := false

/-- _base.py:45: `int(max_FEs) if max_FEs else np.inf`. -/
def initMaxFEs : Option ℤ → Option ℤ
  | none => none
  | some n => if n = 0 then none else some n

/-- The fields of the optimiser that ask/tell/check_stop read and write (_base.py:48-51, base.py:340, 344).
`data = none` means the attribute does not exist yet; `csv` is the content appended to `data_file`. -/
structure OptState (P K : Type*) where
  evalCount : ℕ := 0
  iterCount : ℕ := 0
  data : Option (List (Rec P K)) := none
  histF : List K := []
  csv : List (Rec P K) := []
  stopMaxFEs : Option ℕ := none
  stopFtarget : Option K := none

/-- What the environment decides during one `tell`: whether fitting/predicting with the surrogate succeeds
(base.py:441-445) and whether evaluating the constraints at the incumbent succeeds (base.py:349-351). -/
structure TellOracle where
  fitOk : Bool := true
  constraintOk : Bool := true

/-- Arguments of one `tell` call. -/
structure TellArgs (P K : Type*) where
  X : List P
  vals : List (Obs K)
  index : Option (List String) := none
  warm : Bool := false
  oracle : TellOracle := {}

variable {P K : Type*} [Field K] [LinearOrder K] [IsStrictOrderedRing K]

/-- base.py:331-335: the loop over the told points.  Returns the updated `eval_count` and, unless
`func_vals[i]` raised IndexError, the points paired with their values. -/
def observe (warm : Bool) : List P → List (Obs K) → ℕ → ℕ × Option (List (P × Obs K))
  | [], _, c => (c, some [])
  | _ :: _, [], c => (c, none)
  | x :: xs, v :: vs, c =>
    let r := observe warm xs vs (if warm then c else c + 1)
    (r.1, r.2.map ((x, v) :: ·))

/-- base.py:413-421 `post_eval_check`: rows with NaN or infinite fitness are removed.  `n0` is the initial
`n_eval` given by `_to_geno` (base.py:180 for lists: 1; solution.py:27 for dicts: 0), incremented in
base.py:333. -/
def postEvalCheck (n0 : ℕ) : List ((P × Obs K) × String) → List (Rec P K)
  | [] => []
  | ((x, .fin v), i) :: rest => { x := x, f := v, nEval := n0 + 1, index := i } :: postEvalCheck n0 rest
  | ((_, _), _) :: rest => postEvalCheck n0 rest

/-- solution.py:109-110: default labels `"0", "1", ...`. -/
def defaultIndex (n : ℕ) : List String := (List.range n).map toString

/-- solution.py:109-112: the given labels, or the default ones. -/
def labels (a : TellArgs P K) : List String :=
  match a.index with
  | some l => l
  | none => defaultIndex a.X.length

/-- `np.mean`. -/
def mean (fs : List K) : K := fs.sum / (fs.length : K)

/-- `np.std(fs) ** 2`. -/
def variance (fs : List K) : K := mean (fs.map (fun f => (f - mean fs) ^ 2))

/-- base.py:433-434: `len(fitness) > 5 and np.isclose(np.std(fitness), 0)`; `isclose(s, 0)` is
`s <= 1e-8`, i.e. the variance is at most `1e-16`. -/
def isFlat (fs : List K) : Bool := decide (5 < fs.length) && decide (variance fs ≤ 1 / 10 ^ 16)

/-- _base.py:174-175 `_get_best`; `none` is the ValueError of `np.min`/`np.max` on an empty array. -/
def getBest (minimize : Bool) : List K → Option K
  | [] => none
  | f :: fs => some (fs.foldl (if minimize then min else max) f)

/-- _base.py:142-143: the first row whose fitness equals the best value. -/
def incumbent (minimize : Bool) (d : List (Rec P K)) : Option (Rec P K) :=
  match getBest minimize (d.map Rec.f) with
  | none => none
  | some b => d.find? (fun r => decide (r.f = b))

/-- _base.py:138-144 the property `xopt`: `.ok none` when there is no data, ValueError on empty data. -/
def xopt (cfg : Cfg K) (s : OptState P K) : Except TellErr (Option (Rec P K)) :=
  match s.data with
  | none => .ok none
  | some d => match incumbent cfg.minimize d with
    | none => .error .emptyData
    | some r => .ok (some r)

/-- base.py:340-360: the part of `tell` after the data have been extended to `d`. -/
def tellRest (cfg : Cfg K) (s : OptState P K) (d kept : List (Rec P K)) (a : TellArgs P K) :
    OptState P K × Except TellErr Unit :=
  let s1 := { s with data := some d }
  -- base.py:341, 423-446 update_model
  if d.isEmpty then (s1, .error .emptyData)
  else if isFlat (d.map Rec.f) then (s1, .error .flatFitness)
  else if ! a.oracle.fitOk then (s1, .error .modelFailed)
  else
    -- base.py:343-344
    let s2 := if cfg.dataFile then { s1 with csv := s1.csv ++ kept } else s1
    -- base.py:346
    match incumbent cfg.minimize d with
    | none => (s2, .error .emptyData)
    | some r =>
      if ! a.oracle.constraintOk then (s2, .error .constraintFailed)
      else if a.warm then (s2, .ok ())
      else ({ s2 with iterCount := s2.iterCount + 1, histF := s2.histF ++ [r.f] }, .ok ())

/-- base.py:310-360 `BaseBO.tell`. -/
def tell (cfg : Cfg K) (s : OptState P K) (a : TellArgs P K) : OptState P K × Except TellErr Unit :=
  -- base.py:329: building the Solution
  if a.X.isEmpty then (s, .error .emptyInput)
  else if (a.index.map List.length).any (· != a.X.length) then (s, .error .badIndex)
  else
    match observe a.warm a.X a.vals s.evalCount with
    | (c, none) => ({ s with evalCount := c }, .error .shortValues)
    | (c, some pairs) =>
      let s0 := { s with evalCount := c }
      let kept := postEvalCheck (if cfg.evalDict then 0 else 1) (pairs.zip (labels a))
      match s.data with
      | none => tellRest cfg s0 kept kept a
      | some d => if (d ++ kept).isEmpty then (s0, .error .noRows) else tellRest cfg s0 (d ++ kept) kept a

/-- _base.py:177-179 `_compare`, verbatim: the second branch also tests `f1 < f2`. -/
def compare (minimize : Bool) (f1 f2 : K) : Bool :=
  if minimize then decide (f1 < f2) else decide (f2 > f1)

/-- _base.py:124-125. -/
def checkBudget (cfg : Cfg K) (s : OptState P K) : OptState P K :=
  match cfg.maxFEs with
  | some m => if (s.evalCount : ℤ) ≥ m then { s with stopMaxFEs := some s.evalCount } else s
  | none => s

/-- _base.py:131: `bool(self.stop_dict)`. -/
def stopFlag (s : OptState P K) : Bool := s.stopMaxFEs.isSome || s.stopFtarget.isSome

/-- _base.py:123-131 `check_stop`. -/
def checkStop (cfg : Cfg K) (s : OptState P K) : OptState P K × Except TellErr Bool :=
  let s1 := checkBudget cfg s
  match cfg.ftarget with
  | none => (s1, .ok (stopFlag s1))
  | some t => match xopt cfg s1 with
    | .error e => (s1, .error e)
    | .ok none => (s1, .ok (stopFlag s1))
    | .ok (some r) =>
      let s2 := if compare cfg.minimize r.f t then { s1 with stopFtarget := some r.f } else s1
      (s2, .ok (stopFlag s2))

/-- A user-visible operation. -/
inductive Op (P K : Type*) where
  | tell (a : TellArgs P K)
  | checkStop

/-- Did the operation return normally? -/
def applyOp (cfg : Cfg K) (s : OptState P K) : Op P K → OptState P K × Bool
  | .tell a => match tell cfg s a with
    | (s', .ok _) => (s', true)
    | (s', .error _) => (s', false)
  | .checkStop => match checkStop cfg s with
    | (s', .ok _) => (s', true)
    | (s', .error _) => (s', false)

/-- The state after a history of calls (the caller catches exceptions and goes on). -/
def execute (cfg : Cfg K) (ops : List (Op P K)) : OptState P K :=
  ops.foldl (fun s o => (applyOp cfg s o).1) {}

/-! ### run -/

/-- What happens in iteration `i` of `run`: the batch returned by `ask` (`[]` models AskEmptyError, base.py:295)
and the list returned by `evaluate`, plus the outcome of the surrogate. -/
structure StepIn (P K : Type*) where
  batch : List P
  vals : List (Obs K)
  oracle : TellOracle := {}

/-- How `run` ends. -/
inductive RunResult (P K : Type*) where
  | running (s : OptState P K)                      -- fuel exhausted: still looping
  | raised (steps : ℕ) (s : OptState P K)           -- an exception left the loop
  | returned (steps : ℕ) (s : OptState P K) (best : Rec P K)

/-- base.py:252-256 `step` followed by _base.py:133-136 `run`; `i` counts completed steps, `fuel` bounds the
number of loop tests. -/
def run (cfg : Cfg K) (inp : ℕ → StepIn P K) : ℕ → ℕ → OptState P K → RunResult P K
  | 0, _, s => .running s
  | fuel + 1, i, s =>
    match checkStop cfg s with
    | (s', .error _) => .raised i s'
    | (s', .ok true) =>
      -- _base.py:136: `self.xopt.fitness` fails when there is no data
      match xopt cfg s' with
      | .ok (some r) => .returned i s' r
      | _ => .raised i s'
    | (s', .ok false) =>
      if (inp i).batch.isEmpty then .raised i s'
      else match tell cfg s' { X := (inp i).batch, vals := (inp i).vals, oracle := (inp i).oracle } with
        | (s'', .error _) => .raised i s''
        | (s'', .ok _) => run cfg inp fuel (i + 1) s''

/-! ### warm start -/

/-- A coordinate value with its Python type. -/
inductive PyVal (K : Type*) where
  | float (v : K)
  | int (v : ℤ)
  | str (v : String)
  | bool (v : Bool)

/-- Kind of a coordinate: in `real_id`, `integer_id` or `categorical_id` (which includes Bool variables). -/
inductive CoordKind where
  | real | integer | categorical
deriving DecidableEq

/-- base.py:171-173: the type assertions (`isinstance(True, int)` holds in Python). -/
def warmTypeOk : CoordKind → PyVal K → Bool
  | .real, .float _ => true
  | .integer, .int _ => true
  | .integer, .bool _ => true
  | .categorical, .str _ => true
  | _, _ => false

/-- What the user passed as `X`: a list of points, or a `Solution` table. -/
inductive WarmInput where
  | list | solution
deriving DecidableEq

/-- base.py:155-175, the `warm_data` setter.  Result: new state and whether it returned normally.
`kinds` are the coordinate kinds of the space.  With a `Solution` argument line 165 asserts an array of
comparisons, which raises for more than one variable.  With `eval_type="dict"` line 175 passes a `Solution`
to `Solution.from_dict`, which only handles dicts and lists (solution.py:275-282) and raises. -/
def setWarmData (cfg : Cfg K) (kinds : List CoordKind) (s : OptState (List (PyVal K)) K)
    (kind : WarmInput) (X : List (List (PyVal K))) (y : List (Obs K)) (o : TellOracle := {}) :
    OptState (List (PyVal K)) K × Bool :=
  if s.iterCount ≠ 0 then (s, false)
  else if X.length ≠ y.length then (s, false)
  else if kind = .solution && decide (kinds.length ≠ 1) then (s, false)
  else if X.isEmpty then (s, false)
  else if ! (X.all (fun row => (kinds.zip row).all (fun p => warmTypeOk p.1 p.2))) then (s, false)
  else if cfg.evalDict then (s, false)
  else match tell cfg s { X := X, vals := y, warm := true, oracle := o } with
    | (s', .ok _) => (s', true)
    | (s', .error _) => (s', false)

end Verif.Model
