import Mathlib.Data.Fintype.Basic
import Mathlib.Data.List.Basic
import Mathlib.Order.Basic

/-!
# Model of the Pareto-front routines

`bayes_optim/utils/utils.py` and `bayes_optim/utils/multi_objective/pareto.py`.
Objective values are elements of an arbitrary linear order `K` (floats without NaN); an objective
vector is `Fin m → K`, so every row has the same number of columns, as in a 2-D numpy array.
-/
namespace Verif.Model

variable {m : ℕ} {K : Type*} [LinearOrder K]

/-- numpy boolean-mask selection `arr[mask]` (used in utils.py:39-40). -/
def compress {α : Type*} : List α → List Bool → List α
  | a :: as, b :: bs => if b then a :: compress as bs else compress as bs
  | _, _ => []

/-- utils.py:37, one row of `np.any(fitness < fitness[next_point_index], axis=1)`. -/
def anyLess (q p : Fin m → K) : Bool := decide (∃ k, q k < p k)

/-- utils.py:37-38: the mask of one pass, with `mask[next_point_index] = True`. -/
def effMask (arr : List (ℕ × (Fin m → K))) (cur : ℕ) (p : Fin m → K) : List Bool :=
  arr.mapIdx (fun i q => i == cur || anyLess q.2 p)

/-- utils.py:36-41: the `while` loop. The arrays `is_efficient` and `fitness` are filtered with the same
mask, so they are kept as one list of (index, vector) pairs.  `fuel` bounds the number of passes; the
caller supplies `len(fitness)`, which `Proofs/Pareto.lean` shows to be enough for the loop condition
`next_point_index < len(fitness)` to become false. -/
def effLoop : ℕ → List (ℕ × (Fin m → K)) → ℕ → List (ℕ × (Fin m → K))
  | 0, arr, _ => arr
  | fuel + 1, arr, cur =>
    match arr[cur]? with
    | none => arr
    | some p =>
      let mask := effMask arr cur p.2
      effLoop fuel (compress arr mask) ((mask.take cur).count true + 1)

/-- utils.py:16-47 with `return_mask=False`: the indices kept. -/
def isParetoEfficientIdx (F : List (Fin m → K)) : List ℕ :=
  (effLoop F.length (F.mapIdx (fun i v => (i, v))) 0).map Prod.fst

/-- utils.py:43-46: `return_mask=True`. -/
def isParetoEfficientMask (F : List (Fin m → K)) : List Bool :=
  let idx := isParetoEfficientIdx F
  (List.range F.length).map (fun i => decide (i ∈ idx))

/-- pareto.py:100, the entry `dominates[i, j]`: row `j` (`Y1`) dominates row `i` (`Y2`). -/
def dominatesRow (yj yi : Fin m → K) : Bool :=
  decide (∀ k, yj k ≥ yi k) && decide (∃ k, yj k > yi k)

/-- pareto.py:101, `nd_mask[i]`. -/
def ndMask (Y : List (Fin m → K)) : List Bool :=
  Y.map (fun yi => ! Y.any (fun yj => dominatesRow yj yi))

/-- pareto.py:105, `indices[i]`: position of the first row equal to row `i` (`argmax` of a 0/1 row). -/
def firstEqual (Y : List (Fin m → K)) (yi : Fin m → K) : ℕ :=
  Y.findIdx (fun yj => decide (∀ k, yj k = yi k))

/-- pareto.py:82-109 `is_non_dominated` for an `n × m` tensor (batch dimensions are not modelled). -/
def isNonDominated (Y : List (Fin m → K)) (deduplicate : Bool := true) : List Bool :=
  if deduplicate then
    let indices := Y.map (firstEqual Y)
    let keep := (List.range Y.length).map (fun i => decide (i ∈ indices))
    List.zipWith (· && ·) (ndMask Y) keep
  else ndMask Y

/-- pareto.py:28-32: the sweep over the second coordinates `y2` in sorted order, collecting positions.
`nd` is the list `ND` of positions kept so far, `i` the loop counter; `any(v <= y2[ND])` compares with
the coordinates at the kept positions. -/
def sweep2d (y2 : List K) : ℕ → List K → List ℕ → List ℕ
  | _, [], nd => nd
  | i, v :: rest, nd =>
    if (! (nd.any (fun k => (y2[k]?).any (fun w => decide (v ≤ w))))) || nd.isEmpty
    then sweep2d y2 (i + 1) rest (nd ++ [i])
    else sweep2d y2 (i + 1) rest nd

/-- pareto.py:26-33 of `non_dominated_set_2d`, after the sign flip of line 24 (so `y` is maximised), for a
given result `order` of `np.argsort(y[:, 0])[::-1]` (line 26).  numpy's default sort is not stable, so
`order` is a parameter; the theorems quantify over every admissible one. -/
def ndSet2dCore (y : List (K × K)) (order : List ℕ) : List ℕ :=
  let y2 := order.filterMap (fun i => (y[i]?).map Prod.snd)
  (sweep2d y2 0 y2 []).filterMap (fun k => order[k]?)

/-- pareto.py:24: `y *= (-1) ** minimize` for one boolean flag. -/
def signFlip2d [Neg K] (minimize : Bool) (y : List (K × K)) : List (K × K) :=
  if minimize then y.map (fun p => (-p.1, -p.2)) else y

/-- pareto.py:9-33 `non_dominated_set_2d` for one boolean flag `minimize`; `argsortDesc` stands for
`np.argsort(·)[::-1]` (line 26).  Returns the selected indices and the content of the caller's array
after the call: `np.asarray` does not copy an ndarray, so line 24 writes into the argument. -/
def nonDominatedSet2d [Neg K] (argsortDesc : List K → List ℕ) (minimize : Bool) (y : List (K × K)) :
    List ℕ × List (K × K) :=
  let y' := signFlip2d minimize y
  (ndSet2dCore y' (argsortDesc (y'.map Prod.fst)), y')

/-! ### fast_non_dominated_sort -/

/-- pareto.py:53, `all(p <= q) and not all(p == q)`. -/
def fndsDom (p q : Fin m → K) : Bool := decide (∀ k, p k ≤ q k) && ! decide (∀ k, p k = q k)

/-- pareto.py:44-58: `dominated_set[i]`. -/
def fndsDominatedSet (F : List (Fin m → K)) (i : ℕ) (p : Fin m → K) : List ℕ :=
  (List.range F.length).filter (fun j =>
    match F[j]? with | some q => decide (i ≠ j) && fndsDom p q | none => false)

/-- pareto.py:45-59: `n_domination[i]` (the `elif` branch: not `p` dominating `q`, and `q` dominating `p`). -/
def fndsCount (F : List (Fin m → K)) (i : ℕ) (p : Fin m → K) : ℕ :=
  ((List.range F.length).filter (fun j =>
    match F[j]? with
    | some q => decide (i ≠ j) && (! fndsDom p q && fndsDom q p)
    | none => false)).length

/-- pareto.py:62 and 71: `np.nonzero(n_domination == 0)[0].tolist()`. -/
def zeros (n : ℕ) (cnt : ℕ → ℤ) : List ℕ := (List.range n).filter (fun i => decide (cnt i = 0))

/-- pareto.py:63 and 72: `n_domination[n_domination == 0] = -1`. -/
def retire (cnt : ℕ → ℤ) : ℕ → ℤ := fun i => if cnt i = 0 then -1 else cnt i

/-- pareto.py:67-69: `for p in fronts[i]: n_domination[dominated_set[p]] -= 1`.  The index lists
`dominated_set[p]` have no repetitions, so fancy-index `-=` subtracts exactly one at each position. -/
def relax (dom : ℕ → List ℕ) (front : List ℕ) (cnt : ℕ → ℤ) : ℕ → ℤ :=
  front.foldl (fun c p => fun i => if i ∈ dom p then c i - 1 else c i) cnt

/-- pareto.py:66-77: the loop producing the fronts after the first one.  `fuel` bounds the number of
rounds by the number of points. -/
def fndsLoop (n : ℕ) (dom : ℕ → List ℕ) : ℕ → List ℕ → (ℕ → ℤ) → List (List ℕ)
  | 0, _, _ => []
  | fuel + 1, front, cnt =>
    let cnt' := relax dom front cnt
    let next := zeros n cnt'
    if next.length = 0 then [] else next :: fndsLoop n dom fuel next (retire cnt')

/-- pareto.py:36-79 `fast_non_dominated_sort` (the columns of the Python array are the list entries). -/
def fastNonDominatedSort (F : List (Fin m → K)) : List (List ℕ) :=
  let n := F.length
  let dom : ℕ → List ℕ := fun i => match F[i]? with | some p => fndsDominatedSet F i p | none => []
  let cnt : ℕ → ℤ := fun i => match F[i]? with | some p => (fndsCount F i p : ℤ) | none => 0
  let first := zeros n cnt
  first :: fndsLoop n dom (n + 1) first (retire cnt)

end Verif.Model
