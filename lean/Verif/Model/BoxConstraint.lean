import Mathlib.Algebra.Order.Floor.Ring
import Mathlib.Algebra.Order.Field.Basic

/-!
# Model of the reflection repair

`bayes_optim/utils/utils.py:108-146` (`handle_box_constraint`) and the identical formula in
`bayes_optim/surrogate/gaussian_process/boundary_handling.py:12-41` (`boundary_handling`).
Numbers are elements of an ordered field with a floor function; rounding errors are not modelled.
-/
namespace Verif.Model

variable {K : Type*} [Field K] [LinearOrder K] [IsStrictOrderedRing K] [FloorRing K]

/-- A bound: a finite number, or one that `np.isfinite` rejects (utils.py:128-129). -/
inductive Bound (K : Type*) where
  | fin (v : K)
  | nonfinite

/-- utils.py:136-142 for one entry: normalise, fold even/odd periods, scale back.  Only called with
`ub ≠ lb` (see `repairEntry`). -/
def reflect (lb ub x : K) : K :=
  let y := (x - lb) / (ub - lb)
  let yprime := if ⌊y⌋ % 2 = 0 then |y - (⌊y⌋ : K)| else 1 - |y - (⌊y⌋ : K)|
  lb + (ub - lb) * yprime

/-- utils.py:128-142 for one entry; `none` stands for NaN, which `0/0` and `c/0` produce in line 136 and
which then survives lines 137-142 (`mod(inf, 2)` is NaN, `inf - inf` is NaN). -/
def repairEntry (lb ub : Bound K) (x : K) : Option K :=
  match lb, ub with
  | .fin l, .fin u => if u = l then none else some (reflect l u x)
  | _, _ => some x

/-- utils.py:108-146 for a two-dimensional `x` with `r` rows and `c` columns and `k` bounds.  Rows are
matched with bounds if there are `k` of them (line 123), otherwise the array is transposed and the columns
are; if neither fits, the boolean mask of line 136 raises IndexError. -/
def handleBox {r c k : ℕ} (lb ub : Fin k → Bound K) (x : Fin r → Fin c → K) :
    Except String (Fin r → Fin c → Option K) :=
  if h : r = k then
    .ok (fun i j => repairEntry (lb (Fin.cast h i)) (ub (Fin.cast h i)) (x i j))
  else if h : c = k then
    .ok (fun i j => repairEntry (lb (Fin.cast h j)) (ub (Fin.cast h j)) (x i j))
  else .error "IndexError"

/-- utils.py:118, 146: a one-dimensional `x` becomes a single row and is flattened again. -/
def handleBox1 {c k : ℕ} (lb ub : Fin k → Bound K) (x : Fin c → K) :
    Except String (Fin c → Option K) :=
  match handleBox lb ub (fun (_ : Fin 1) => x) with
  | .ok y => .ok (y 0)
  | .error e => .error e

/-- boundary_handling.py:12-41: rows are always the coordinates; the result is written into the argument,
so the returned array is also the caller's array after the call. -/
def boundaryHandling {k c : ℕ} (lb ub : Fin k → Bound K) (x : Fin k → Fin c → K) :
    Fin k → Fin c → Option K :=
  fun i j => repairEntry (lb i) (ub i) (x i j)

end Verif.Model
