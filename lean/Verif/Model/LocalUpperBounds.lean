import Mathlib.Data.Fintype.Basic
import Mathlib.Data.List.FinRange
import Mathlib.Order.Lattice
import Mathlib.Order.Basic

/-!
# Model of the local-upper-bound routines

`bayes_optim/utils/multi_objective/box_decompositions/utils.py`, lines 97-211.  The numbers are elements
of an arbitrary linear order `L` (floats without NaN, the infinities included).  The two tensors `U`
(`n × m`) and `Z` (`n × m × m`) always have the same first dimension and are always filtered and
concatenated in the same way, so they are kept as one list of entries.
-/
namespace Verif.Model

variable {m : ℕ} {L : Type*} [LinearOrder L]

/-- One row of the pair `(U, Z)`: the bound `U[i]` and its defining points `Z[i, j]`. -/
@[ext]
structure LubEntry (m : ℕ) (L : Type*) where
  u : Fin m → L
  Z : Fin m → Fin m → L

/-- utils.py:116, one row of `(U > z).all(dim=-1)`. -/
def LubEntry.hit (z : Fin m → L) (e : LubEntry m L) : Bool := decide (∀ k, e.u k > z k)

/-- utils.py:125-129, one entry of `add_z` for outcome `j`: `z[j]` is at least the largest `j`-th
coordinate of the defining points other than the `j`-th.  The maximum over an empty set of rows, which
torch refuses, arises only for `m = 1`; here the test is then true, and the theorems are about `m ≥ 2`. -/
def LubEntry.addable (z : Fin m → L) (j : Fin m) (e : LubEntry m L) : Bool :=
  decide (∀ k, k ≠ j → z j ≥ e.Z k j)

/-- utils.py:131-142: the new bound has `z[j]` in place `j`, the new defining points have `z` in place
`j`.  The selection `Z_ku[lt_zj]` (lines 136-140) keeps every row, because `add_z` holds. -/
def LubEntry.replace (z : Fin m → L) (j : Fin m) (e : LubEntry m L) : LubEntry m L where
  u := Function.update e.u j (z j)
  Z := Function.update e.Z j z

/-- utils.py:97-154 `compute_local_upper_bounds`. -/
def lubStep (S : List (LubEntry m L)) (z : Fin m → L) : List (LubEntry m L) :=
  if S.any (LubEntry.hit z) then
    let A := S.filter (LubEntry.hit z)
    S.filter (fun e => ! e.hit z) ++
      (List.finRange m).flatMap (fun j => (A.filter (LubEntry.addable z j)).map (LubEntry.replace z j))
  else S

/-- utils.py:190-211 `update_local_upper_bounds_incremental`. -/
def lubRun (zs : List (Fin m → L)) (S : List (LubEntry m L)) : List (LubEntry m L) :=
  zs.foldl lubStep S

/-- box_decomposition.py:291-305 and non_dominated.py:388-400: the first entry.  The bound is the
(minimisation) reference point `hi`; the `j`-th defining point is `lo` except for `hi[j]` in place `j`. -/
def lubInit (lo hi : Fin m → L) : LubEntry m L where
  u := hi
  Z := fun j k => if k = j then hi j else lo k

/-- A row of a `2 × num_cells × m` tensor of cell bounds. -/
@[ext]
structure Cell (m : ℕ) (L : Type*) where
  lo : Fin m → L
  hi : Fin m → L

/-- utils.py:181, `Z[u_idx, :j, j].max()` for `j ≥ 1` (the fold starts from row 0, which is among the
rows `:j`). -/
def maxBefore (Z : Fin (m + 1) → Fin (m + 1) → L) (j : Fin (m + 1)) : L :=
  ((List.finRange (m + 1)).filter (fun k => decide (k < j))).foldl (fun a k => max a (Z k j)) (Z 0 j)

/-- utils.py:176-182: the bounds made from one entry. -/
def LubEntry.cell (ref : Fin (m + 1) → L) (e : LubEntry (m + 1) L) : Cell (m + 1) L where
  lo := fun j => if j = 0 then e.Z 0 0 else maxBefore e.Z j
  hi := fun j => if j = 0 then ref 0 else e.u j

/-- utils.py:157-187 `get_partition_bounds`. -/
def partitionBounds (ref : Fin (m + 1) → L) (S : List (LubEntry (m + 1) L)) : List (Cell (m + 1) L) :=
  (S.map (LubEntry.cell ref)).filter (fun c => ! decide (∃ k, c.hi k ≤ c.lo k))

end Verif.Model
