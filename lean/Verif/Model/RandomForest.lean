import Mathlib.Algebra.Order.Field.Basic
import Mathlib.Algebra.BigOperators.Group.List.Basic

/-!
# Model of the random forest (`bayes_optim/surrogate/random_forest.py:19-155`)

`α` is the type of the entries of a sample (objects), `toFloat` the conversion of one entry to a number (`none` is ValueError).
The trees are arbitrary functions.  One output is modelled (`n_outputs_ = 1`); several outputs are treated alike.
The conversion to 32-bit numbers inside scikit-learn is not modelled.
-/
namespace Verif.Model

variable {α K : Type*} [DecidableEq α]

/-- Lines 97-100: `sorted(levels.items())`, the keys being distinct. -/
abbrev RfLevels (α : Type*) := List (ℕ × List α)

/-- Line 108: the columns left by `np.delete`, converted to numbers. -/
def rfNumeric (toFloat : α → Option K) (keys : List ℕ) (row : List α) : Option (List K) :=
  ((List.range row.length).filter (fun i => decide (i ∉ keys))).mapM (fun i => row[i]?.bind toFloat)

/-- Line 107 for one variable: scikit-learn's one-hot code with given categories; `none` is IndexError (no such column) or
ValueError (unknown level).  The categories of a variable are taken to be distinct. -/
def rfOneHot [Zero K] [One K] (row : List α) (kl : ℕ × List α) : Option (List K) :=
  row[kl.1]?.bind (fun a => if a ∈ kl.2 then some (kl.2.map (fun l => if l = a then 1 else 0)) else none)

/-- Lines 104-109 `_check_X` for one row.  Without levels the row is passed on, and scikit-learn converts it. -/
def rfEncode [Zero K] [One K] (toFloat : α → Option K) (levels : RfLevels α) (row : List α) : Option (List K) :=
  if levels = [] then row.mapM toFloat
  else (levels.mapM (rfOneHot row)).bind (fun cat =>
    (rfNumeric toFloat (levels.map Prod.fst) row).map (fun num => num ++ cat.flatten))

/-- Line 60: thread `i` writes its prediction to its place; a place outside of the array is IndexError. -/
def rfSave (pred : ℕ → K) (out : Option (List K)) (i : ℕ) : Option (List K) :=
  out.bind (fun o => if i < o.length then some (o.set i (pred i)) else none)

/-- Lines 141-149: an array of `nEst` zeros (`self.n_estimators`), then the threads in the order `order`, one for each tree. -/
def rfCollect [Zero K] (nEst : ℕ) (pred : ℕ → K) (order : List ℕ) : Option (List K) :=
  order.foldl (rfSave pred) (some (List.replicate nEst 0))

/-- Line 150 `np.mean` (of at least one number). -/
def rfMean [Field K] (ys : List K) : K := ys.sum / (ys.length : K)

/-- Line 154: `np.std(…, ddof=1) ** 2`; `none` is NaN (division of zero by zero for one tree).  The square root is not taken and
squared again. -/
def rfMSE [Field K] (ys : List K) : Option K :=
  if ys.length = 1 then none
  else some ((ys.map (fun y => (y - rfMean ys) ^ 2)).sum / ((ys.length : K) - 1))

/-- Lines 119-155 `predict` for one row; `trees` is `estimators_`. -/
def rfPredict [Field K] (toFloat : α → Option K) (levels : RfLevels α) (nEst : ℕ) (trees : List (List K → K))
    (order : List ℕ) (row : List α) : Option (K × Option K) :=
  (rfEncode toFloat levels row).bind (fun x =>
    (rfCollect nEst (fun i => (trees[i]?.map (fun t => t x)).getD 0) order).map (fun ys => (rfMean ys, rfMSE ys)))

/-- The `aggregation` argument that passes the assertion in line 27. -/
inductive AggKind where
  | ws
  | tchebycheff
  deriving DecidableEq

/-- How `SurrogateAggregation.predict` fails: shapes do not fit (line 41), or the result was never assigned (line 49). -/
inductive AggErr where
  | shape
  | unbound
  deriving DecidableEq

/-- Lines 32-49 at one point; `preds` are mean and MSE of each surrogate there. -/
def aggPredict [Field K] (kind : AggKind) (weights : List K) (preds : List (K × K)) : Except AggErr (K × K) :=
  match kind with
  | .ws =>
    if weights.length = preds.length then
      .ok ((List.zipWith (fun w p => w * p.1) weights preds).sum, (List.zipWith (fun w p => w ^ 2 * p.2) weights preds).sum)
    else .error .shape
  | .tchebycheff => .error .unbound

end Verif.Model
