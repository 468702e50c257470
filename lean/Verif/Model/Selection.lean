import Mathlib.Algebra.Order.Field.Basic
import Mathlib.Algebra.BigOperators.Group.List.Basic
import Mathlib.Order.Lattice

/-!
# Model of `proportional_selection` (`bayes_optim/utils/utils.py:78-104`)

Numbers are elements of an ordered field (no rounding, no NaN in the input).
-/
namespace Verif.Model

variable {K : Type*} [Field K] [LinearOrder K] [IsStrictOrderedRing K]

/-- How the call fails: `np.min` of an empty array (lines 80, 87), an empty result of `np.nonzero` (line 82), or the
assertion in line 92. -/
inductive SelErr where
  | value
  | index
  | assertion
  deriving DecidableEq

/-- `np.min`. -/
def minimumOf : List K → Option K
  | [] => none
  | [x] => some x
  | x :: l => (minimumOf l).map (fun m => min x m)

/-- Lines 81-82: the first position where the cumulative sum reaches `u`; `acc` is the sum so far. -/
def firstReach (u acc : K) : List K → Option ℕ
  | [] => none
  | w :: l => if u ≤ acc + w then some 0 else (firstReach u (acc + w) l).map (· + 1)

/-- Lines 79-82 `select`, `u` being the random number.  If the denominator is zero all weights are NaN (`0 / 0`), no
comparison is true, and `[0][0]` raises IndexError. -/
def selectOne (perf : List K) (u : K) : Except SelErr ℕ :=
  match minimumOf perf with
  | none => .error .value
  | some m =>
    let d := perf.sum - m * (perf.length : K)
    if d = 0 then .error .index
    else match firstReach u 0 (perf.map (fun p => (p - m) / d)) with
      | none => .error .index
      | some i => .ok i

/-- Lines 84-87. -/
def selectionWeights (minimize : Bool) (perf : List K) : Except SelErr (List K) :=
  if minimize then
    match minimumOf (perf.map (fun p => -p)) with
    | none => .error .value
    | some m => .ok (perf.map (fun p => -p - m))
  else .ok perf

/-- Lines 96-103: the loop without replacement; `perf` and `idx` are the remaining performances and their positions. -/
def selectDistinct : List K → List K → List ℕ → Except SelErr (List ℕ)
  | [], _, _ => .ok []
  | u :: us, perf, idx =>
    if perf.length = 1 then
      match idx with
      | [] => .error .index
      | k :: _ => (selectDistinct us perf idx).map (fun r => k :: r)
    else match selectOne perf u with
      | .error e => .error e
      | .ok i =>
        match idx[i]? with
        | none => .error .index
        | some k => (selectDistinct us (perf.eraseIdx i) (idx.eraseIdx i)).map (fun r => k :: r)

/-- Lines 78-104; `us` are the random numbers, one for each of the `N` selections. -/
def proportionalSelection (minimize replacement : Bool) (perf : List K) (us : List K) : Except SelErr (List ℕ) :=
  (selectionWeights minimize perf).bind (fun q =>
    if replacement then us.mapM (selectOne q)
    else if us.length ≤ q.length then selectDistinct us q (List.range q.length)
    else .error .assertion)

end Verif.Model
