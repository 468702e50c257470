import Verif.Model.Pareto
import Verif.Model.LocalUpperBounds
import Mathlib.Data.EReal.Operations
import Mathlib.Data.Real.Basic
import Mathlib.Algebra.BigOperators.Fin

/-!
# Model of the box decompositions

`bayes_optim/utils/multi_objective/box_decompositions/{box_decomposition,non_dominated,utils}.py`, without batch
dimensions.  Outcomes and reference points are real; cell bounds are extended reals, since the code uses `±inf`.
`argsort` stands for `torch.argsort`, whose treatment of equal values is not specified: the theorems hold for every
function that sorts.
-/
namespace Verif.Model

noncomputable section

variable {m : ℕ}

/-- Negation of every row (`-Y`). -/
def negRows (Y : List (Fin m → ℝ)) : List (Fin m → ℝ) := Y.map (fun y k => - y k)

/-- utils.py:34-77 `_pad_batch_pareto_frontier` without batch dimension, `is_pareto=False` and no feasibility mask:
the rows selected by the non-domination mask and by being better than the reference point. -/
def paretoFrontier (ref : Fin m → ℝ) (Y : List (Fin m → ℝ)) : List (Fin m → ℝ) :=
  compress Y (List.zipWith (· && ·) (isNonDominated Y) (Y.map (fun y => decide (∀ k, y k > ref k))))

/-- `rows[order]`. -/
def pickRows {α : Type*} (rows : List α) (order : List ℕ) : List α := order.filterMap (fun i => rows[i]?)

/-- box_decomposition.py:87-106: the new value of `_neg_pareto_Y` (`sort` says whether it is sorted). -/
def negParetoOf (argsort : List ℝ → List ℕ) (sort : Bool) (ref : Fin (m + 1) → ℝ) (negY : List (Fin (m + 1) → ℝ)) :
    List (Fin (m + 1) → ℝ) :=
  if negY.length = 0 then negY
  else
    let p := negRows (paretoFrontier ref (negRows negY))
    if sort then pickRows p (argsort (p.map (fun y => y 0))) else p

/-! ### FastNondominatedPartitioning -/

/-- A vector of reals as a vector of extended reals. -/
def toExt (v : Fin m → ℝ) : Fin m → EReal := fun k => (v k : EReal)

/-- A vector with two outcomes from its coordinates. -/
def pairVec (x y : EReal) : Fin (m + 2) → EReal := fun k => if k = 0 then x else y

/-- utils.py:214-279 `compute_non_dominated_hypercell_bounds_2d`.  `front0`, `front1` are the two columns of
`front` (lines 244-253). -/
def nonDominatedCells2d (ref : Fin (m + 2) → ℝ) (P : List (Fin (m + 2) → ℝ)) : List (Cell (m + 2) EReal) :=
  let xs : List EReal := P.map (fun p => (p 0 : EReal))
  let ys : List EReal := P.map (fun p => (p 1 : EReal))
  let front0 := [(ref 0 : EReal)] ++ xs ++ xs.drop (xs.length - 1)
  let front1 := ys.take 1 ++ ys ++ [(ref 1 : EReal)]
  let bottomLefts := List.zipWith (fun a b => pairVec a b) front0.dropLast front1.tail
  let topRightXs := (front0.drop 1).dropLast ++ [⊤]
  let topRights := topRightXs.map (fun x => pairVec x ⊤)
  List.zipWith (fun a b => ⟨a, b⟩) bottomLefts topRights

/-- utils.py:282-325 `compute_dominated_hypercell_bounds_2d`.  The end points added at lines 309-315 have swapped
coordinates, but only the first coordinate of `left_end` is ever used. -/
def dominatedCells2d (ref : Fin (m + 2) → ℝ) (P : List (Fin (m + 2) → ℝ)) : List (Cell (m + 2) ℝ) :=
  let xs := P.map (fun p => p 0)
  let ys := P.map (fun p => p 1)
  let front0 := [ref 0] ++ xs ++ ys.take 1
  let front1 := xs.take 1 ++ ys ++ [ref 1]
  let topRights := List.zipWith (fun a b => (fun k : Fin (m + 2) => if k = 0 then a else b))
    (front0.drop 1).dropLast (front1.drop 1).dropLast
  let bottomLefts := front0.dropLast.dropLast.map (fun a => (fun k : Fin (m + 2) => if k = 0 then a else ref 1))
  List.zipWith (fun a b => ⟨a, b⟩) bottomLefts topRights

/-- The buffers of a FastNondominatedPartitioning that has received outcomes. -/
structure FastState (m : ℕ) where
  /-- `_neg_Y` -/
  negY : List (Fin (m + 2) → ℝ)
  /-- `_neg_pareto_Y` -/
  negPareto : List (Fin (m + 2) → ℝ)
  /-- `_U` and `_Z` (meaningful once `_partition_space` has run) -/
  lub : List (LubEntry (m + 2) EReal)
  /-- `hypercell_bounds` -/
  cells : List (Cell (m + 2) EReal)

/-- non_dominated.py:378-411 `_get_partitioning`: the local upper bounds of the negated bounds `-_U`, with reference
point `inf` and ideal point `ref_point`. -/
def fastCells (ref : Fin (m + 2) → ℝ) (lub : List (LubEntry (m + 2) EReal)) : List (Cell (m + 2) EReal) :=
  let newRef : Fin (m + 2) → EReal := fun _ => ⊤
  partitionBounds newRef (lubRun (lub.map (fun e k => - e.u k)) [lubInit (toExt ref) newRef])

/-- box_decomposition.py:289-305: the first local upper bound, at the negated reference point, with the dummy
points. -/
def fastInit (ref : Fin (m + 2) → ℝ) : LubEntry (m + 2) EReal :=
  lubInit (fun _ => ⊥) (toExt (fun k => - ref k))

/-- box_decomposition.py:273-313, non_dominated.py:367-376, 413-422: `partition_space` (the bounds `_U`, `_Z` are
written only in the general case). -/
def fastPartition (ref : Fin (m + 2) → ℝ) (negPareto : List (Fin (m + 2) → ℝ)) (old : List (LubEntry (m + 2) EReal)) :
    List (LubEntry (m + 2) EReal) × List (Cell (m + 2) EReal) :=
  if negPareto.length = 0 then (old, [⟨toExt ref, fun _ => ⊤⟩])
  else if m + 2 = 2 then (old, nonDominatedCells2d ref (negRows negPareto).reverse)
  else
    let lub := lubRun (negPareto.map toExt) [fastInit ref]
    (lub, fastCells ref lub)

/-- box_decomposition.py:172-190 `reset`, with the new outcomes already appended: `old` is the state before, `none`
when there is none. -/
def fastReset (argsort : List ℝ → List ℕ) (ref : Fin (m + 2) → ℝ) (negY : List (Fin (m + 2) → ℝ))
    (old : Option (FastState m)) : FastState m :=
  let p := negParetoOf argsort (m + 2 = 2) ref negY
  match old with
  | none => let r := fastPartition ref p []; ⟨negY, p, r.1, r.2⟩
  | some s =>
    if p = s.negPareto then { s with negY := negY }
    else let r := fastPartition ref p s.lub; ⟨negY, p, r.1, r.2⟩

/-- box_decomposition.py:244-263: the incremental branch of `FastPartitioning.update`.  The slice
`pareto_mask[-Y.shape[-2]:]` is the whole mask when `Y` has no row, and `_neg_pareto_Y[-num_new_pareto:]` is never
asked for 0 rows. -/
def fastIncrement (ref : Fin (m + 2) → ℝ) (s : FastState m) (Y : List (Fin (m + 2) → ℝ)) : FastState m :=
  let better := Y.filter (fun y => decide (∀ k, y k > ref k))
  let all := s.negPareto ++ negRows better
  let mask := isNonDominated (negRows all)
  let numNew := (mask.drop (if better.length = 0 then 0 else mask.length - better.length)).count true
  let negPareto := compress all mask
  if numNew > 0 then
    let lub := lubRun ((negPareto.drop (negPareto.length - numNew)).map toExt) s.lub
    { s with negPareto := negPareto, lub := lub, cells := fastCells ref lub }
  else { s with negPareto := negPareto }

/-- box_decomposition.py:228-263 `FastPartitioning.update` (`none`: constructed without outcomes), and 47-49 the
constructor given outcomes, which is the same as updating an object without outcomes. -/
def fastUpdate (argsort : List ℝ → List ℕ) (ref : Fin (m + 2) → ℝ) (s : Option (FastState m))
    (Y : List (Fin (m + 2) → ℝ)) : FastState m :=
  match s with
  | none => fastReset argsort ref (negRows Y) none
  | some s =>
    let negY := s.negY ++ negRows Y
    if m + 2 = 2 ∨ s.negPareto.length = 0 then fastReset argsort ref negY (some s)
    else fastIncrement ref { s with negY := negY } Y

/-- Any sequence of calls. -/
def fastHistory (argsort : List ℝ → List ℕ) (ref : Fin (m + 2) → ℝ) (Ys : List (List (Fin (m + 2) → ℝ))) :
    Option (FastState m) :=
  Ys.foldl (fun s Y => some (fastUpdate argsort ref s Y)) none

/-- Column minimum (`.min(dim=-2)`). -/
def colMin (P : List (Fin (m + 1) → ℝ)) (k : Fin (m + 1)) : ℝ :=
  (P.map (fun y => y k)).foldl min ((P.map (fun y => y k)).headD 0)

/-- Column maximum (`.max(dim=-2)`). -/
def colMax (P : List (Fin (m + 1) → ℝ)) (k : Fin (m + 1)) : ℝ :=
  (P.map (fun y => y k)).foldl max ((P.map (fun y => y k)).headD 0)

/-- non_dominated.py:439: `torch.min(self.hypercell_bounds, ideal_point)`. -/
def clipCell (ideal : Fin m → ℝ) (c : Cell m EReal) : Cell m EReal :=
  ⟨fun k => min (c.lo k) (ideal k : EReal), fun k => min (c.hi k) (ideal k : EReal)⟩

/-- non_dominated.py:440-442, for one cell: the product of the side lengths, negative ones counted as 0.  The bounds
are read as real numbers; the theorems about this function include that they are finite. -/
def clampedVolume (c : Cell m EReal) : ℝ := ∏ k, max ((c.hi k).toReal - (c.lo k).toReal) 0

/-- non_dominated.py:424-443 `FastNondominatedPartitioning.compute_hypervolume`. -/
def fastHypervolume (ref : Fin (m + 2) → ℝ) (s : FastState m) : ℝ :=
  if s.negPareto.length = 0 then 0
  else
    let ideal : Fin (m + 2) → ℝ := fun k => colMax (negRows s.negPareto) k
    let total := ∏ k, max (ideal k - ref k) 0
    let nonDom := ((s.cells.map (clipCell ideal)).map clampedVolume).sum
    total - nonDom

/-! ### NondominatedPartitioning -/

/-- The buffers of a NondominatedPartitioning that has received outcomes.  `hypercells` holds row indices into the
augmented front. -/
structure BinState (m : ℕ) where
  negY : List (Fin (m + 1) → ℝ)
  negPareto : List (Fin (m + 1) → ℝ)
  hypercells : List (Cell (m + 1) ℕ)

/-- non_dominated.py:192-220, one column of `_get_augmented_pareto_front_indices`. -/
def augIndices (argsort : List ℝ → List ℕ) (negPareto : List (Fin (m + 1) → ℝ)) (k : Fin (m + 1)) : List ℕ :=
  [0] ++ (argsort (negPareto.map (fun y => y k))).map (· + 1) ++ [negPareto.length + 1]

/-- Entry `[i, k]` of a tensor of rows given by one column (`0` out of range, which does not occur). -/
def entryAt (col : List ℕ) (i : ℕ) : ℕ := col.getD i 0

/-- non_dominated.py:118 `aug_pareto_Y_idcs[cell, outcome_idxr]`. -/
def cellIndices (argsort : List ℝ → List ℕ) (negPareto : List (Fin (m + 1) → ℝ)) (c : Cell (m + 1) ℕ) :
    Cell (m + 1) ℕ where
  lo := fun k => entryAt (augIndices argsort negPareto k) (c.lo k)
  hi := fun k => entryAt (augIndices argsort negPareto k) (c.hi k)

/-- non_dominated.py:107-110: entry `[i, k]` of `aug_pareto_Y` used while dividing. -/
def augValue (P : List (Fin (m + 1) → ℝ)) (k : Fin (m + 1)) (i : ℕ) : ℝ :=
  ([colMin P k - 1] ++ P.map (fun y => y k) ++ [colMax P k + 1]).getD i 0

/-- non_dominated.py:154, `int(round(length / 2.0))`: Python rounds halves to even. -/
def roundHalf (n : ℕ) : ℕ := if n % 2 = 0 then n / 2 else if n / 2 % 2 = 0 then n / 2 else n / 2 + 1

/-- non_dominated.py:160-166: the two parts of a divided cell, in the order they are pushed. -/
def divideCell (c : Cell (m + 1) ℕ) (d : Fin (m + 1)) : Cell (m + 1) ℕ × Cell (m + 1) ℕ :=
  let len := c.hi d - c.lo d
  let len1 := roundHalf len
  (⟨c.lo, Function.update c.hi d (c.hi d - len1)⟩, ⟨Function.update c.lo d (c.lo d + (len - len1)), c.hi⟩)

/-- What happens to one cell taken from the stack. -/
inductive CellVerdict (m : ℕ)
  | accept (c : Cell (m + 1) ℕ)
  | divide (c₁ c₂ : Cell (m + 1) ℕ)
  | discard

/-- non_dominated.py:117-166: one pass of the loop.  `argmax` stands for the index returned by `torch.max(·, dim=0)`,
which picks some position of the maximum. -/
def judgeCell (argsort : List ℝ → List ℕ) (argmax : (Fin (m + 1) → ℕ) → Fin (m + 1)) (alpha : ℝ)
    (P : List (Fin (m + 1) → ℝ)) (c : Cell (m + 1) ℕ) : CellVerdict m :=
  let idcs := cellIndices argsort P c
  let loV : Fin (m + 1) → ℝ := fun k => augValue P k (idcs.lo k)
  let hiV : Fin (m + 1) → ℝ := fun k => augValue P k (idcs.hi k)
  if ∀ y ∈ P, ∃ k, hiV k ≤ y k then .accept idcs
  else if ∀ y ∈ P, ∃ k, loV k ≤ y k then
    let total := ∏ k, ((colMax P k + 1) - (colMin P k - 1))
    let volume := ∏ k, (hiV k - loV k)
    if (∃ k, c.hi k - c.lo k > 1) ∧ volume / total > alpha then
      let r := divideCell c (argmax (fun k => c.hi k - c.lo k))
      .divide r.1 r.2
    else .discard
  else .discard

/-- non_dominated.py:115-166: the `while` loop; the head of the list is the top of the stack.  The result is the
remaining stack and the accepted cells in order.  `fuel` bounds the number of passes. -/
def binLoop (argsort : List ℝ → List ℕ) (argmax : (Fin (m + 1) → ℕ) → Fin (m + 1)) (alpha : ℝ)
    (P : List (Fin (m + 1) → ℝ)) :
    ℕ → List (Cell (m + 1) ℕ) → List (Cell (m + 1) ℕ) → List (Cell (m + 1) ℕ) × List (Cell (m + 1) ℕ)
  | 0, stack, acc => (stack, acc)
  | _ + 1, [], acc => ([], acc)
  | fuel + 1, c :: stack, acc =>
    match judgeCell argsort argmax alpha P c with
    | .accept i => binLoop argsort argmax alpha P fuel stack (acc ++ [i])
    | .divide c₁ c₂ => binLoop argsort argmax alpha P fuel (c₂ :: c₁ :: stack) acc
    | .discard => binLoop argsort argmax alpha P fuel stack acc

/-- non_dominated.py:83-86: the cell over the whole front. -/
def wholeCell (n : ℕ) : Cell (m + 1) ℕ := ⟨fun _ => 0, fun _ => n + 1⟩

/-- non_dominated.py:73-166 `_partition_space`.  The number of passes is bounded by the number of grid cells times
two, which `Proofs/BinPartition.lean` shows to be enough for the stack to become empty. -/
def binPartition (argsort : List ℝ → List ℕ) (argmax : (Fin (m + 1) → ℕ) → Fin (m + 1)) (alpha : ℝ)
    (P : List (Fin (m + 1) → ℝ)) : List (Cell (m + 1) ℕ) :=
  if P.length = 0 then [cellIndices argsort P (wholeCell P.length)]
  else (binLoop argsort argmax alpha P (2 * (P.length + 1) ^ (m + 1)) [wholeCell P.length] []).2

/-- non_dominated.py:168-190 `_partition_space_2d`: index `-i-1` of a column of length `n + 2` is `n + 1 - i`. -/
def binPartition2d (argsort : List ℝ → List ℕ) (P : List (Fin (m + 1) → ℝ)) : List (Cell (m + 1) ℕ) :=
  (List.range (P.length + 1)).map (fun i =>
    ⟨fun k => if k = 0 then i else 0,
     fun k => if k = 0 then 1 + i else entryAt (augIndices argsort P (Fin.last m)) (P.length + 1 - i)⟩)

/-- box_decomposition.py:113-121 `partition_space`. -/
def binPartitionSpace (argsort : List ℝ → List ℕ) (argmax : (Fin (m + 1) → ℕ) → Fin (m + 1)) (alpha : ℝ)
    (P : List (Fin (m + 1) → ℝ)) : List (Cell (m + 1) ℕ) :=
  if m + 1 = 2 then binPartition2d argsort P else binPartition argsort argmax alpha P

/-- box_decomposition.py:160-190 `update` and `reset`. -/
def binUpdate (argsort : List ℝ → List ℕ) (argmax : (Fin (m + 1) → ℕ) → Fin (m + 1)) (alpha : ℝ)
    (ref : Fin (m + 1) → ℝ) (s : Option (BinState m)) (Y : List (Fin (m + 1) → ℝ)) : BinState m :=
  match s with
  | none =>
    let p := negParetoOf argsort true ref (negRows Y)
    ⟨negRows Y, p, binPartitionSpace argsort argmax alpha p⟩
  | some s =>
    let negY := s.negY ++ negRows Y
    let p := negParetoOf argsort true ref negY
    if p = s.negPareto then { s with negY := negY }
    else ⟨negY, p, binPartitionSpace argsort argmax alpha p⟩

/-- Any sequence of calls. -/
def binHistory (argsort : List ℝ → List ℕ) (argmax : (Fin (m + 1) → ℕ) → Fin (m + 1)) (alpha : ℝ)
    (ref : Fin (m + 1) → ℝ) (Ys : List (List (Fin (m + 1) → ℝ))) : Option (BinState m) :=
  Ys.foldl (fun s Y => some (binUpdate argsort argmax alpha ref s Y)) none

/-- non_dominated.py:232-253: entry `[i, k]` of the front augmented with `-inf` and the negated reference point. -/
def augBound (ref : Fin (m + 1) → ℝ) (P : List (Fin (m + 1) → ℝ)) (k : Fin (m + 1)) (i : ℕ) : EReal :=
  ([⊥] ++ P.map (fun y : Fin (m + 1) → ℝ => ((y k : ℝ) : EReal)) ++ [((- ref k : ℝ) : EReal)]).getD i 0

/-- non_dominated.py:222-256 `get_hypercell_bounds` (and 258-305): look the indices up, swap and negate. -/
def binBounds (ref : Fin (m + 1) → ℝ) (s : BinState m) : List (Cell (m + 1) EReal) :=
  s.hypercells.map (fun c => ⟨fun k => - augBound ref s.negPareto k (c.hi k),
    fun k => - augBound ref s.negPareto k (c.lo k)⟩)

/-- non_dominated.py:325-328: entry `[i, k]` of the front augmented with the ideal point and the negated reference
point. -/
def augIdeal (ref : Fin (m + 1) → ℝ) (P : List (Fin (m + 1) → ℝ)) (k : Fin (m + 1)) (i : ℕ) : ℝ :=
  ([colMin P k] ++ P.map (fun y => y k) ++ [- ref k]).getD i 0

/-- non_dominated.py:307-331 `NondominatedPartitioning.compute_hypervolume`. -/
def binHypervolume (ref : Fin (m + 1) → ℝ) (s : BinState m) : ℝ :=
  if s.negPareto.length = 0 then 0
  else
    let total := ∏ k, (- ref k - colMin s.negPareto k)
    let nonDom := (s.hypercells.map (fun c =>
      ∏ k, (augIdeal ref s.negPareto k (c.hi k) - augIdeal ref s.negPareto k (c.lo k)))).sum
    total - nonDom

end

end Verif.Model
