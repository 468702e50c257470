import Mathlib.Algebra.Order.Ring.Defs
import Mathlib.Algebra.Field.Defs
import Mathlib.Order.WithBot
import Mathlib.Data.List.Sort

/-!
# Model of `Hypervolume` (`bayes_optim/utils/multi_objective/hypervolume.py`)

Numbers live in a linearly ordered ring `K` (the theorems take `K = ℝ`): rounding, NaN and infinite entries are not
modelled.  The points of a call are nodes `0, …, n-1`; `data x i` is coordinate `i` of node `x` after the sign change and
the shift of lines 77-81, so that the reference point is the origin and smaller is better.

`MultiList` (lines 231-309) is a set of doubly linked lists, one per objective, from which nodes are unlinked and linked
back in last-out-first-in order.  It is modelled by its contents: list `i` is the order of the nodes by objective `i`,
restricted to the nodes that are linked at the moment.  `remove(p, i, …)` (277-291) unlinks `p` from the lists below `i`,
that is from the lists a recursive call on `i - 1` walks, and so the recursive call is given the nodes that are linked.
`Props/MultiList.lean` treats the pointers themselves.
-/
namespace Verif.Model

variable {K : Type*} [Ring K] [LinearOrder K]

/-- The mutable part of the nodes (lines 226-228) and the tensor `bounds` (line 83, `-inf` at the start).  The first
argument of `area`, `volume` and `ignore` is the node. -/
structure HvState (K : Type*) where
  area : ℕ → ℕ → K
  volume : ℕ → ℕ → K
  ignore : ℕ → ℕ
  bounds : ℕ → WithBot K

/-- Lines 226-228 and 83: the state before the first call. -/
def hvStart (K : Type*) [Ring K] : HvState K :=
  { area := fun _ _ => 0, volume := fun _ _ => 0, ignore := fun _ => 0, bounds := fun _ => ⊥ }

/-- Assignment `x.area[i] = v`. -/
def HvState.setArea (s : HvState K) (x i : ℕ) (v : K) : HvState K :=
  { s with area := fun y k => if y = x ∧ k = i then v else s.area y k }

/-- Assignment `x.volume[i] = v`. -/
def HvState.setVolume (s : HvState K) (x i : ℕ) (v : K) : HvState K :=
  { s with volume := fun y k => if y = x ∧ k = i then v else s.volume y k }

/-- Assignment `x.ignore = i`. -/
def HvState.setIgnore (s : HvState K) (x i : ℕ) : HvState K :=
  { s with ignore := fun y => if y = x then i else s.ignore y }

/-- Lines 290 and 309, `bounds.data = torch.min(bounds, node.data)`. -/
def minBounds (b : ℕ → WithBot K) (d : ℕ → K) : ℕ → WithBot K := fun k => min (b k) (d k : WithBot K)

/-- Lines 114-124: the sweep in two dimensions.  `h` and `q` are the variables of the code, the list holds the nodes
after `q`. -/
def hvSweep (data : ℕ → ℕ → K) : K → ℕ → List ℕ → K
  | h, q, [] => h * data q 1
  | h, q, p :: rest => h * (data q 1 - data p 1) + hvSweep data (if data p 0 < h then data p 0 else h) p rest

/-- Lines 127-131: `ignore` is reset where it is below `i`, for the nodes of list `i`. -/
def hvReset (i : ℕ) (nodes : List ℕ) (s : HvState K) : HvState K :=
  { s with ignore := fun y => if y ∈ nodes ∧ s.ignore y < i then 0 else s.ignore y }

/-- Lines 132-137: nodes are removed from the end.  The first list is list `i` read backwards (`q` first), the second the
nodes removed so far in the order of list `i`. -/
def hvRemove (data : ℕ → ℕ → K) (i : ℕ) :
    List ℕ → List ℕ → (ℕ → WithBot K) → List ℕ × List ℕ × (ℕ → WithBot K)
  | q :: q' :: rest, removed, b =>
    if b i < (data q i : WithBot K) ∨ b i ≤ (data q' i : WithBot K)
    then hvRemove data i (q' :: rest) (q :: removed) (minBounds b (data q))
    else (q :: q' :: rest, removed, b)
  | kept, removed, b => (kept, removed, b)

/-- `prev.area[i]`, where `none` is the sentinel, whose areas stay 0 (line 227). -/
def prevArea (s : HvState K) (i : ℕ) : Option ℕ → K
  | none => 0
  | some q => s.area q i

/-- Lines 145-150 and 160-165: the area of node `q`, copied from its predecessor or computed by the recursive call on the
nodes linked at the moment. -/
def hvArea (rec : List ℕ → HvState K → K × HvState K) (i q : ℕ) (prev : Option ℕ) (linked : List ℕ)
    (s : HvState K) : HvState K :=
  if i ≤ s.ignore q then s.setArea q i (prevArea s i prev)
  else
    let r := rec linked s
    let s' := r.2.setArea q i r.1
    if r.1 ≤ prevArea s' i prev then s'.setIgnore q i else s'

/-- Lines 138-144 for the last node `q` that was kept, with predecessor `prev`: the volume below `q`, and for a first node
the assignment of lines 142-143 (`q.area[0] = 1`, then a slice computed from the old slice).  The result is `hvol` and the new
state. -/
def hvBelow (data : ℕ → ℕ → K) (i q : ℕ) (prev : Option ℕ) (s : HvState K) : K × HvState K :=
  match prev with
  | some q' =>
    let hvol := s.volume q' i + s.area q' i * (data q i - data q' i)
    (hvol, s.setVolume q i hvol)
  | none =>
    let old : ℕ → K := fun k => if k = 0 then 1 else s.area q k
    let s' : HvState K :=
      { s with area := fun y k =>
          if y = q then (if k = 0 then 1 else if k ≤ i then old (k - 1) * -(data q (k - 1)) else s.area y k)
          else s.area y k }
    (0, s'.setVolume q i 0)

/-- Lines 154-155: `bounds[i] = p_data` and the update of `bounds` in `reinsert` (line 309). -/
def hvLinkBounds (data : ℕ → ℕ → K) (i p : ℕ) (s : HvState K) : HvState K :=
  { s with bounds := minBounds (fun k => if k = i then (data p i : WithBot K) else s.bounds k) (data p) }

/-- Lines 151-165: the nodes are linked back one by one.  `q` is the node before, `linked` the nodes linked so far. -/
def hvInsert (rec : List ℕ → HvState K → K × HvState K) (data : ℕ → ℕ → K) (i : ℕ) :
    List ℕ → ℕ → List ℕ → K → HvState K → K × ℕ × HvState K
  | [], q, _, hvol, s => (hvol, q, s)
  | p :: rest, q, linked, hvol, s =>
    let hvol' := hvol + s.area q i * (data p i - data q i)
    let s2 := (hvLinkBounds data i p s).setVolume p i hvol'
    hvInsert rec data i rest p (p :: linked) hvol' (hvArea rec i p (some q) (p :: linked) s2)

/-- Lines 126-167 for list `nodes`, whose last node is `q` once the removals are done. -/
def hvLevel (rec : List ℕ → HvState K → K × HvState K) (data : ℕ → ℕ → K) (i : ℕ) (nodes : List ℕ)
    (s : HvState K) : K × HvState K :=
  let s0 := hvReset i nodes s
  let r := hvRemove data i nodes.reverse [] s0.bounds
  match r.1 with
  | [] => (0, s)
  | q :: below =>
    let s1 : HvState K := { s0 with bounds := r.2.2 }
    let vb := hvBelow data i q below.head? s1
    let s3 := hvArea rec i q below.head? (q :: below) vb.2
    let fin := hvInsert rec data i r.2.1 q (q :: below) vb.1 s3
    (fin.1 - fin.2.2.area fin.2.1 i * data fin.2.1 i, fin.2.2)

/-- Lines 88-167 `_hv_recursive`.  `linked` are the nodes in the lists up to `i`, `order i` the order of all nodes in list
`i`; `n_pareto` is the number of linked nodes. -/
def hvRec (data : ℕ → ℕ → K) (order : ℕ → List ℕ) : ℕ → List ℕ → HvState K → K × HvState K
  | 0, linked, s =>
    match (order 0).filter (fun x => decide (x ∈ linked)) with
    | [] => (0, s)
    | q :: _ => (- data q 0, s)
  | 1, linked, s =>
    match (order 1).filter (fun x => decide (x ∈ linked)) with
    | [] => (0, s)
    | q :: rest => (hvSweep data (data q 0) q rest, s)
  | i + 2, linked, s =>
    hvLevel (hvRec data order (i + 1)) data (i + 2) ((order (i + 2)).filter (fun x => decide (x ∈ linked))) s

/-- Lines 189-202 `sort_by_dimension`: a stable sort, because the tuples compare by value and then by position. -/
def sortByDimension (data : ℕ → ℕ → K) (nodes : List ℕ) (i : ℕ) : List ℕ :=
  nodes.insertionSort (fun x y => data x i ≤ data y i)

/-- Lines 184-186: the order of list `i`; the nodes are sorted by dimension 0, then 1, and so on, each time from the
order before. -/
def listOrder (data : ℕ → ℕ → K) (n : ℕ) : ℕ → List ℕ
  | 0 => sortByDimension data (List.range n) 0
  | i + 1 => sortByDimension data (listOrder data n i) (i + 1)

/-- Lines 77-81: negate, keep the rows that are no worse than the reference point, shift.  `ref` is the reference point
for maximisation, so `self._ref_point` is `-ref`. -/
def hvPoints {m : ℕ} (ref : Fin m → K) (Y : List (Fin m → K)) : List (Fin m → K) :=
  ((Y.map (fun y k => - y k)).filter (fun y => decide (∀ k, y k ≤ - ref k))).map (fun y k => y k - (- ref k))

/-- Coordinate `i` of node `x`. -/
def hvData {m : ℕ} (pts : List (Fin m → K)) : ℕ → ℕ → K :=
  fun x i => if h : i < m then (pts[x]?.map (fun p => p ⟨i, h⟩)).getD 0 else 0

/-- Lines 59-86 `compute`, for a tensor with as many columns as the reference point has entries (the two errors of lines
68-74 are not modelled). At least one objective: with none, line 85 starts at `i = -1`. -/
def hvCompute {m : ℕ} (ref : Fin (m + 1) → K) (Y : List (Fin (m + 1) → K)) : K :=
  let pts := hvPoints ref Y
  let data := hvData pts
  (hvRec data (listOrder data pts.length) m (List.range pts.length) (hvStart K)).1

end Verif.Model
