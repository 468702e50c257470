import Mathlib.Data.Rat.Floor

/-!
# Model of prediction in batches

`GaussianProcess.predict` with `batch_size` (bayes_optim/surrogate/gaussian_process/gpr.py).  The prediction without
`batch_size` is an argument: it turns a list of points into one row of `n_targets` numbers per point.
-/
namespace Verif.Model

/-- What a user may pass as `batch_size`: a Python int, or something else (`type(batch_size) is not int`; a numpy
integer and a bool are something else). -/
inductive BatchArg where
  | absent
  | int (z : ℤ)
  | other

/-- How the call fails: gpr.py:516, `range` of a float (line 520, 529), or an assignment of an array that does not
fit (line 523, 532). -/
inductive BatchErr where
  | badSize
  | rangeOfFloat
  | shape
deriving DecidableEq

/-- What the call returns: a table (gpr.py:493, 511) or a vector (gpr.py:535). -/
inductive Predicted (K : Type*) where
  | table (rows : List (List K))
  | vector (y : List K)

/-- gpr.py:529 `range(max(1, n_eval / batch_size))`: `/` gives a float, and `max` the first of the largest arguments,
so the result is the int 1 unless the quotient is above 1. -/
def batchCount (n b : ℕ) : Except BatchErr ℕ :=
  if 1 < (n : ℚ) / b then .error .rangeOfFloat else .ok 1

/-- A Python slice `l[from:to]` with non-negative ends. -/
def slice {α : Type*} (l : List α) (a b : ℕ) : List α := (l.take b).drop a

/-- `y[a:b] = rows` for a vector `y` and a table of width `w`: numpy drops leading axes of length 1 and then
broadcasts. -/
def assignSlice {K : Type*} (y : List K) (a b w : ℕ) (rows : List (List K)) : Except BatchErr (List K) :=
  let m := (slice y a b).length
  match rows with
  | [row] =>
    if w = m then .ok (y.take a ++ row ++ y.drop (a + m))
    else match w, row with
      | 1, [x] => .ok (y.take a ++ List.replicate m x ++ y.drop (a + m))
      | _, _ => .error .shape
  | _ => .error .shape

/-- gpr.py:530-534: one pass of the loop. -/
def batchStep {X K : Type*} (predict : List X → List (List K)) (w b : ℕ) (xs : List X) (y : List K) (k : ℕ) :
    Except BatchErr (List K) :=
  let start := k * b
  let stop := min ((k + 1) * b + 1) (xs.length + 1)
  assignSlice y start stop w (predict (slice xs start stop))

/-- gpr.py:477-535 after the checks of the input.  With `eval_MSE` the same loop fills a second vector in the same
way (lines 518-526): it fails in the same cases. -/
def predictWith {X K : Type*} [Zero K] (predict : List X → List (List K)) (w : ℕ) (batch : BatchArg) (xs : List X) :
    Except BatchErr (Predicted K) :=
  match batch with
  | .absent => .ok (.table (predict xs))
  | .other => .error .badSize
  | .int z =>
    if z ≤ 0 then .error .badSize
    else match batchCount xs.length z.toNat with
      | .error e => .error e
      | .ok c => ((List.range c).foldlM (batchStep predict w z.toNat xs) (List.replicate xs.length 0)).map .vector

end Verif.Model
