import Verif.Model.Node
import Mathlib.Data.List.Sort
import Mathlib.Data.Int.Order.Basic

/-!
# Model of solution sets (`bayes_optim/solution.py`)

`α` is the type of coordinate values, `F` the type of a fitness entry (a number, or a vector of numbers when
`n_obj > 1`).  numpy's view semantics (a slice sharing memory with its parent) is not modelled.
-/
namespace Verif.Model

/-- The first argument of the constructor: a flat list (one point) or a list of rows. -/
inductive Arr (α : Type*) where
  | one (x : List α)
  | two (X : List (List α))

/-- `[x.tolist()] if len(x.shape) == 1 else x.tolist()` (solution.py:152-153). -/
def Arr.rows {α : Type*} : Arr α → List (List α)
  | .one x => [x]
  | .two X => X

/-- solution.py:83-84: the number of variables. -/
def Arr.dim {α : Type*} : Arr α → ℕ
  | .one x => x.length
  | .two [] => 0
  | .two (r :: _) => r.length

/-- The attributes of a `Solution` (solution.py:131-138). -/
structure Sol (α F : Type*) where
  arr : Arr α
  fitness : List F
  nEval : List ℕ
  index : List String
  varName : List String
  fitnessName : List String
  nObj : ℕ

/-- solution.py:72-81: what numpy makes of the argument; `none` is an exception.  `x[0]` fails on an empty list
(line 72), `x[0][0]` on a first row without entries.  A flat list starting with a tuple takes line 77, where
the result of `asarray` has one dimension and indexing it with two fails.  Rows of different lengths are
rejected (simplification: numpy builds an array of lists, and line 121 or 92 fails later). -/
def mkArr {α : Type*} (isTuple : α → Bool) : Arr α → Option (Arr α)
  | .one [] => none
  | .one (v :: x) => if isTuple v then none else some (.one (v :: x))
  | .two [] => none
  | .two ([] :: _) => none
  | .two ((v :: r) :: X) => if X.all (fun s => s.length == r.length + 1) then some (.two ((v :: r) :: X)) else none

/-- solution.py:115-120: the default names. -/
def defaultNames (dim : ℕ) : List String :=
  if dim = 1 then ["x"] else (List.range dim).map (fun i => "x" ++ toString i)

/-- solution.py:23-139 `__new__` with `fitness` and `n_eval` given as lists. -/
def mkSol {α F : Type*} (isTuple : α → Bool) (x : Arr α) (fitness : List F) (nEval : List ℕ)
    (index : Option (List String)) (varName : Option (List String)) (fitnessName : List String) (nObj : ℕ) :
    Option (Sol α F) :=
  (mkArr isTuple x).bind (fun a =>
    let N := a.rows.length
    let index := index.getD ((List.range N).map toString)
    let varName := varName.getD (defaultNames a.dim)
    if fitness.length = N ∧ index.length = N ∧ varName.length = a.dim ∧ fitnessName.length = nObj then
      some { arr := a, fitness := fitness, nEval := nEval, index := index, varName := varName, fitnessName := fitnessName, nObj := nObj }
    else none)

/-- `len(set(a).symmetric_difference(b)) == 0` -/
def sameSet (a b : List String) : Bool := a.all (fun x => b.contains x) && b.all (fun x => a.contains x)

/-- solution.py:144-163 `a + b`; `none` is an exception. -/
def Sol.add {α F : Type*} (isTuple : α → Bool) (a b : Sol α F) : Option (Sol α F) :=
  if a.arr.dim = b.arr.dim ∧ a.nObj = b.nObj ∧ sameSet a.fitnessName b.fitnessName = true ∧
      sameSet a.varName b.varName = true then
    mkSol isTuple (.two (a.arr.rows ++ b.arr.rows)) (a.fitness ++ b.fitness) (a.nEval ++ b.nEval)
      (some (a.index ++ b.index)) (some a.varName) a.fitnessName a.nObj
  else none

/-- `l * N` for a Python list. -/
def pyMul {α : Type*} (l : List α) (n : ℤ) : List α := (List.replicate n.toNat l).flatten

/-- solution.py:165-178 `a * N`; labels are numbered again.  A two-dimensional array with one row passes the test
of line 168 but `[a.tolist()] * N` has three dimensions (line 80 raises). -/
def Sol.mul {α F : Type*} (isTuple : α → Bool) (a : Sol α F) (n : ℤ) : Option (Sol α F) :=
  match a.arr with
  | .one x => mkSol isTuple (.two (pyMul [x] n)) (pyMul a.fitness n) (pyMul a.nEval n) none (some a.varName)
      a.fitnessName a.nObj
  | .two _ => none

/-- `l[idx]` for a list of valid positions. -/
def takeAt {α : Type*} (l : List α) (idx : List ℕ) : List α := idx.filterMap (fun i => l[i]?)

/-- solution.py:207-242 `a[idx]` for a two-dimensional `a` and a list of row positions. -/
def Sol.getRows {α F : Type*} (a : Sol α F) (idx : List ℕ) : Sol α F :=
  { a with arr := .two (takeAt a.arr.rows idx), fitness := takeAt a.fitness idx, nEval := takeAt a.nEval idx, index := takeAt a.index idx }

/-! ### unique -/

/-- The positions kept by `np.unique(…, return_index=True)`: from the sorted positions take the first one of each
run of equal rows. -/
def runStarts {κ : Type*} [DecidableEq κ] (key : ℕ → κ) : Option ℕ → List ℕ → List ℕ
  | _, [] => []
  | none, i :: l => i :: runStarts key (some i) l
  | some p, i :: l => if key i = key p then runStarts key (some i) l else i :: runStarts key (some i) l

/-- The stable order of `argsort(kind="mergesort")` on the rows: by row, then by position. -/
def lexLe {κ : Type*} [LinearOrder κ] (key : ℕ → κ) (i j : ℕ) : Prop := key i < key j ∨ (key i = key j ∧ i ≤ j)

instance {κ : Type*} [LinearOrder κ] (key : ℕ → κ) : DecidableRel (lexLe key) := fun i j => by
  unfold lexLe; infer_instance

/-- `np.unique(rows, axis=0, return_index=True)[1]` -/
def uniqueIndex {κ : Type*} [LinearOrder κ] (key : ℕ → κ) (n : ℕ) : List ℕ :=
  runStarts key none (List.insertionSort (lexLe key) (List.range n))

/-- solution.py:284-288 `unique`.  `enc` is the row after numpy has converted the table to one type (for instance all
entries to strings); numpy compares these. -/
def Sol.unique {α F κ : Type*} [LinearOrder κ] (enc : Option (List α) → κ) (a : Sol α F) : Sol α F :=
  match a.arr with
  | .one _ => a
  | .two X => a.getRows (List.insertionSort (· ≤ ·) (uniqueIndex (fun i => enc X[i]?) X.length))

/-! ### dictionaries -/

/-- `{k: v for k, v in items}` -/
def dictOf {α : Type*} (items : List (String × α)) : List (String × α) :=
  dictUpdate [] items

/-- The argument of `from_dict`. -/
inductive DictArg (α : Type*) where
  | one (d : List (String × α))
  | many (ds : List (List (String × α)))

/-- solution.py:306-318: `to_dict(orient="index", with_index=False)`. -/
def Sol.toDict {α F : Type*} (a : Sol α F) : DictArg α :=
  match a.arr with
  | .one x => .one (dictOf (a.varName.zip x))
  | .two X => .many (X.map (fun r => dictOf (a.varName.zip r)))

/-- solution.py:308-312: `to_dict(orient="index", with_index=True)`. -/
def Sol.toDictIndexed {α F : Type*} (a : Sol α F) : List (String × List (String × α)) :=
  (a.index.zip a.arr.rows).foldl (fun d ir => dictSet d ir.1 (dictOf (a.varName.zip ir.2))) []

/-- solution.py:267-282 `from_dict` (fitness unset). -/
def solFromDict {α F : Type*} (isTuple : α → Bool) (noFit : F) : DictArg α → Option (Sol α F)
  | .one d => mkSol isTuple (.one (d.map Prod.snd)) [noFit] [0] none (some (d.map Prod.fst)) ["f"] 1
  | .many [] => none
  | .many (d :: ds) =>
    mkSol isTuple (.two ((d :: ds).map (fun e => e.map Prod.snd))) (List.replicate (ds.length + 1) noFit)
      (List.replicate (ds.length + 1) 0) none (some (d.map Prod.fst)) ["f"] 1

end Verif.Model
