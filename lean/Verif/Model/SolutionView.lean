import Verif.Model.Solution
import Verif.Model.SpaceEdit

/-!
# Indexing solutions, and attributes shared between slices (`bayes_optim/solution.py:183-265`)

`Model/Solution` treats solutions as values.  Here the arrays `fitness`, `n_eval` and `index` live in buffers: a slice refers to the buffer of its
parent, a selection by a list copies.  The three arrays are always indexed together, so one buffer holds all three.  Sharing of the coordinates
themselves is not modelled.
-/
namespace Verif.Model

/-- One entry of `fitness`, `n_eval` and `index`. -/
structure SolMeta (F : Type*) where
  fitness : F
  nEval : ℕ
  index : String

/-- The buffers alive in the program. -/
abbrev MetaStore (F : Type*) := List (List (SolMeta F))

/-- A `Solution` object: its rows, whether it has one dimension, the names, and where its attributes are. -/
structure SolView (α : Type*) where
  rows : List (List α)
  oneDim : Bool
  varName : List String
  buf : ℕ
  pos : List ℕ

/-- A bound of a Python slice of a sequence of length `n`, with default `d`. -/
def sliceBound (n d : ℕ) : Option ℤ → ℕ
  | none => d
  | some i => if i < 0 then (i + n).toNat else min i.toNat n

/-- The positions of `l[start:stop:step]` in a sequence of length `n`, for a positive step. -/
def slicePos (n : ℕ) (start stop : Option ℤ) (step : ℕ) : List ℕ :=
  (List.range n).filter fun i => sliceBound n 0 start ≤ i ∧ i < sliceBound n n stop ∧ (i - sliceBound n 0 start) % step = 0

/-- `l[start:stop:step]` -/
def pySlice {β : Type*} (l : List β) (start stop : Option ℤ) (step : ℕ) : List β := takeAt l (slicePos l.length start stop step)

/-- solution.py:131-139: a new object with attributes of its own. -/
def newView {α F : Type*} (st : MetaStore F) (rows : List (List α)) (oneDim : Bool) (varName : List String) (metas : List (SolMeta F)) :
    MetaStore F × SolView α :=
  (st ++ [metas], ⟨rows, oneDim, varName, st.length, List.range metas.length⟩)

/-- Lines 207-242 `x[start:stop:step]` for a two-dimensional `x`. -/
def SolView.sliceRows {α : Type*} (v : SolView α) (start stop : Option ℤ) (step : ℕ) : SolView α :=
  { v with rows := pySlice v.rows start stop step, pos := pySlice v.pos start stop step }

/-- Lines 207-242 `x[i]` for a two-dimensional `x`: line 225 turns `i` into `slice(i, i + 1)` for the attributes. -/
def SolView.item {α : Type*} (v : SolView α) (i : ℤ) : Option (SolView α) :=
  (pyIndex v.rows.length i).bind fun k => v.rows[k]?.map fun r =>
    { v with rows := [r], oneDim := true, pos := pySlice v.pos (some i) (some (i + 1)) 1 }

/-- Lines 207-242 `x[l]` for a two-dimensional `x` and a list of integers: numpy copies. -/
def SolView.select {α F : Type*} (st : MetaStore F) (v : SolView α) (l : List ℤ) : Option (MetaStore F × SolView α) :=
  (l.mapM (pyIndex v.rows.length)).map fun ks =>
    let metas := (takeAt v.pos ks).filterMap fun p => (st[v.buf]?).bind fun b => b[p]?
    (st ++ [metas], { v with rows := takeAt v.rows ks, buf := st.length, pos := List.range metas.length })

/-- Lines 212-218, 221 `x[:, start:stop:step]` for a two-dimensional `x`, and lines 226-227 `x[start:stop:step]` for a one-dimensional one. -/
def SolView.sliceCols {α : Type*} (v : SolView α) (start stop : Option ℤ) (step : ℕ) : SolView α :=
  { v with rows := v.rows.map fun r => pySlice r start stop step, varName := pySlice v.varName start stop step }

/-- Lines 214-216 `x[:, j]`, which becomes `x[:, j:j + 1]`. -/
def SolView.column {α : Type*} (v : SolView α) (j : ℤ) : SolView α := v.sliceCols (some j) (some (j + 1)) 1

/-- `x.copy()`, `copy(x)` and `deepcopy(x)`: numpy copies the coordinates, `__array_finalize__` (lines 244-265) takes over the attributes. -/
def SolView.copy {α : Type*} (v : SolView α) : SolView α := v

/-- The attributes as they are read. -/
def SolView.metas {α F : Type*} (st : MetaStore F) (v : SolView α) : List (SolMeta F) :=
  v.pos.filterMap fun p => (st[v.buf]?).bind fun b => b[p]?

/-- `attr[:] = value` for a list: one value for each entry, or a single value for all; `none` is `ValueError`. -/
def broadcastTo {β : Type*} (vals : List β) (n : ℕ) : Option (List β) :=
  match vals with
  | [a] => some (List.replicate n a)
  | l => if l.length = n then some l else none

/-- Lines 183-188 `x.fitness = values`: the values are written into the buffer. -/
def SolView.setFitness {α F : Type*} (st : MetaStore F) (v : SolView α) (vals : List F) : Option (MetaStore F) :=
  (broadcastTo vals v.pos.length).map fun vs =>
    st.modify v.buf fun b => (v.pos.zip vs).foldl (fun b pv => b.modify pv.1 fun m => { m with fitness := pv.2 }) b

end Verif.Model
