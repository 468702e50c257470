import Verif.Model.Sampling
import Verif.Model.Node

/-!
# Search spaces as objects (`search_space/search_space.py`, `search_space/variable.py`)

Variables are mutable Python objects shared between spaces.  They live in a heap (a list); a space stores
references (positions in the heap).  Values of bounds and defaults are compared structurally.
-/
namespace Verif.Model

/-- variable.py:73-354: the attributes of a variable object. -/
structure PyVar where
  name : String
  typ : VType
  bounds : List Lvl
  default : Option Lvl := none
  precision : Option ℤ := none
  scale : Scale := .linear
  step : ℚ := 1
  cond : Option Cond := none

/-- The variable objects alive in the program; a reference is a position. -/
abbrev Heap := List PyVar

/-- Name of the object behind a reference. -/
def nameOf (h : Heap) (r : ℕ) : String := ((h[r]?).map PyVar.name).getD ""

/-- `data[k].name = n` -/
def setName (h : Heap) (rn : ℕ × String) : Heap := h.modify rn.1 (fun v => { v with name := rn.2 })

/-- search_space.py:169 `np.nonzero(names == name)[0]`. -/
def positions (n : String) : List String → ℕ → List ℕ
  | [], _ => []
  | m :: ms, off => if m = n then off :: positions n ms (off + 1) else positions n ms (off + 1)

/-- search_space.py:166-172: the assignments made by `_check_data`; the names are read before any assignment. -/
def renameWrites (names : List String) (data : List ℕ) : List (ℕ × String) :=
  (dedupLevels names).flatMap (fun n =>
    if names.count n > 1 then
      (positions n names 0).zipIdx.map (fun ki => (data.getD ki.1 0, n ++ toString ki.2))
    else [])

/-- search_space.py:164-172 `_check_data`: duplicated names are numbered, in place. -/
def checkData (h : Heap) (data : List ℕ) : Heap :=
  (renameWrites (data.map (nameOf h)) data).foldl setName h

/-- search_space.py:76-103: a search space (its class and random generator are treated in `Model/Sampling`). -/
structure PySpace where
  data : List ℕ
  varName : List String
  varType : List VType
  structure' : List Node := []

/-- Names and conditions of the variables of a space, as `_set_structure` reads them. -/
def condsOf (h : Heap) (data : List ℕ) : List (String × Option Cond) :=
  data.map (fun r => (nameOf h r, (h[r]?).bind PyVar.cond))

/-- search_space.py:210 `type(v).__name__` -/
def typesOf (h : Heap) (data : List ℕ) : List VType := data.map (fun r => ((h[r]?).map PyVar.typ).getD .real)

/-- search_space.py:204-213 `_set_data`: check, store the references, cache names and types. -/
def setData (h : Heap) (data : List ℕ) (st : List Node) : Heap × PySpace :=
  let h := checkData h data
  (h, { data := data, varName := data.map (nameOf h), varType := typesOf h data, structure' := st })

/-- search_space.py:76-103 `__init__`; `none` is an exception.  `fuel` is the recursion limit of Python. -/
def newSpace (fuel : ℕ) (h : Heap) (data : List ℕ) (st : List (Option Node)) : Option (Heap × PySpace) :=
  let r := setData h data []
  (setStructure fuel (condsOf r.1 data) st).map (fun s => (r.1, { r.2 with structure' := s }))

/-- `deepcopy(data)`: fresh copies, sharing inside the list is preserved. -/
def deepcopyRefs (h : Heap) (data : List ℕ) : Heap × List ℕ :=
  (h ++ data.filterMap (fun r => h[r]?), data.map (fun r => h.length + data.idxOf r))

/-- `[copy(v) for v in data]`: one fresh copy per position. -/
def copyRefs (h : Heap) (data : List ℕ) : Heap × List ℕ :=
  (h ++ data.filterMap (fun r => h[r]?), (List.range data.length).map (fun i => h.length + i))

/-- search_space.py:317-329 `A + B`. -/
def PySpace.add (fuel : ℕ) (h : Heap) (a b : PySpace) : Option (Heap × PySpace) :=
  let c := deepcopyRefs h a.data
  newSpace fuel c.1 (c.2 ++ b.data) ((a.structure' ++ b.structure').map Node.deepcopy)

/-- search_space.py:334-338 `A += B` (the structure is left as it is). -/
def PySpace.iadd (h : Heap) (a b : PySpace) : Heap × PySpace :=
  setData h (a.data ++ b.data) a.structure'

/-- search_space.py:344-346, 358-360: positions whose (cached) name is not a name of `b`, each name once. -/
def keepIndex (a b : PySpace) : List ℕ :=
  (List.range a.data.length).filter (fun i =>
    let n := a.varName.getD i ""
    !(b.varName.contains n) && a.varName.idxOf n == i)

/-- search_space.py:340-351 `A - B`. -/
def PySpace.sub (fuel : ℕ) (h : Heap) (a b : PySpace) : Option (Heap × PySpace) := do
  let c := copyRefs h ((keepIndex a b).map (fun i => a.data.getD i 0))
  let r ← newSpace fuel c.1 c.2 []
  let s ← setStructure fuel (condsOf r.1 r.2.data) (a.structure'.map some)
  return (r.1, { r.2 with structure' := s })

/-- search_space.py:356-362 `A -= B`. -/
def PySpace.isub (h : Heap) (a b : PySpace) : Heap × PySpace :=
  setData h ((keepIndex a b).map (fun i => a.data.getD i 0)) a.structure'

/-- `[deepcopy(var) for _ in range(n) for var in data]` -/
def replicateRefs (h : Heap) (data : List ℕ) : ℕ → Heap × List ℕ
  | 0 => (h, [])
  | n + 1 =>
    let c := copyRefs h data
    let d := replicateRefs c.1 data n
    (d.1, c.2 ++ d.2)

/-- search_space.py:364-382 `A * N`. -/
def PySpace.mul (fuel : ℕ) (h : Heap) (a : PySpace) (n : ℤ) : Option (Heap × PySpace) :=
  let c := replicateRefs h a.data (max 1 n).toNat
  newSpace fuel c.1 c.2 []

/-- search_space.py:387-403 `A *= N`. -/
def PySpace.imul (h : Heap) (a : PySpace) (n : ℤ) : Heap × PySpace :=
  let c := replicateRefs h a.data (max 1 (n - 1)).toNat
  setData c.1 (a.data ++ c.2) a.structure'

/-- search_space.py:244-267 `A[index]` for a list of positions (already converted from names or masks). -/
def PySpace.slice (fuel : ℕ) (h : Heap) (a : PySpace) (index : List ℕ) : Option (Heap × PySpace) := do
  let r ← newSpace fuel h (index.map (fun i => a.data.getD i 0)) []
  let s ← setStructure fuel (condsOf r.1 r.2.data) (a.structure'.map some)
  return (r.1, { r.2 with structure' := s })

/-- search_space.py:434-437 and 251-252: the positions selected by `filter`. -/
def filterIndex (a : PySpace) (keys : List String) (invert : Bool) : List ℕ :=
  (List.range a.data.length).filter (fun i => (keys.contains (a.varName.getD i "")) != invert)

/-- search_space.py:421-437 `filter`. -/
def PySpace.filter (fuel : ℕ) (h : Heap) (a : PySpace) (keys : List String) (invert : Bool) :
    Option (Heap × PySpace) := a.slice fuel h (filterIndex a keys invert)

/-- search_space.py:439-447 `concat` of at least two spaces. -/
def concatSpaces (fuel : ℕ) (h : Heap) (args : List PySpace) : Option (Heap × PySpace) :=
  let c := args.foldl (fun (acc : Heap × List ℕ) s =>
    let d := deepcopyRefs acc.1 s.data
    (d.1, acc.2 ++ d.2)) (h, [])
  newSpace fuel c.1 c.2 ((args.flatMap PySpace.structure').map Node.deepcopy)

/-! ### type indices -/

/-- search_space.py:222-224: mask and positions of one type. -/
def typeMask (types : List VType) (τ : VType) : List Bool := types.map (fun t => t == τ)

/-- `np.nonzero(mask)[0]` -/
def nonzero (mask : List Bool) : List ℕ := (List.range mask.length).filter (fun i => mask.getD i false)

/-- The index attributes of a space. -/
structure TypeIndex where
  mask : VType → List Bool
  id : VType → List ℕ
  categoricalId : List ℕ
  categoricalMask : List Bool

/-- search_space.py:215-232 `_set_index`.  In line 231 the third argument of `np.bitwise_or` is the *output*
array: `subset_mask` is overwritten by `discrete_mask | ordinal_mask`. -/
def setIndex (types : List VType) : TypeIndex :=
  let m := typeMask types
  let or2 := List.zipWith (· || ·) (m .discrete) (m .ordinal)
  { mask := fun τ => if τ = .subset then or2 else m τ
    id := fun τ => nonzero (m τ)
    categoricalId := nonzero (m .discrete) ++ nonzero (m .ordinal) ++ nonzero (m .bool) ++ nonzero (m .subset)
    categoricalMask := List.zipWith (· || ·) (m .bool) or2 }

/-! ### update -/

/-- numpy `xs == ys` for one-dimensional arrays with broadcasting.  When the shapes do not match, numpy 1.25 and
later raise (`strict`, `none`); earlier versions give the scalar `False`, which has no non-zero position. -/
def npEq (strict : Bool) (xs ys : List String) : Option (List Bool) :=
  if xs.length = ys.length then some (List.zipWith (fun x y => x == y) xs ys)
  else match xs, ys with
    | xs, [y] => some (xs.map (fun x => x == y))
    | [x], ys => some (ys.map (fun y => x == y))
    | _, _ => if strict then none else some []

/-- search_space.py:475-498 `update`; `ord` is the iteration order of Python sets, `strict` says how the installed
numpy compares arrays of different shapes (setup.py:26 allows both: `numpy>=1.24.0`). -/
def PySpace.update (strict : Bool) (ord : List String → List String) (h : Heap) (a b : PySpace) :
    Option (Heap × PySpace) := do
  let upd := ord (b.varName.filter (fun n => a.varName.contains n))
  let add := ord (b.varName.filter (fun n => !a.varName.contains n))
  let to_ := nonzero (← npEq strict a.varName upd)
  let from_ := nonzero (← npEq strict b.varName upd)
  -- lines 491-493: `_index_update_from[i]` raises IndexError when it is shorter
  if from_.length < to_.length then none
  let c := copyRefs h ((from_.take to_.length).map (fun j => b.data.getD j 0))
  let data := (to_.zip c.2).foldl (fun d kr => d.set kr.1 kr.2) a.data
  let idx := nonzero (← npEq strict b.varName add)
  return setData c.1 (data ++ idx.map (fun i => b.data.getD i 0)) a.structure'

/-! ### equality and hashing -/

/-- variable.py:126-134 `__eq__`. -/
def PyVar.eq (v w : PyVar) : Bool :=
  v.typ == w.typ && v.bounds == w.bounds && v.default == w.default && v.name == w.name

/-- variable.py:199-200, 274-275, 336-337: the tuple passed to `hash`. -/
inductive HashKey where
  | real (name : String) (bounds : List Lvl) (default : Option Lvl) (precision : Option ℤ) (scale : Scale)
  | integer (name : String) (bounds : List Lvl) (default : Option Lvl) (step : ℚ)
  | other (name : String) (bounds : List Lvl) (default : Option Lvl)

/-- variable.py:199-200, 274-275, 336-337 `__hash__`. -/
def PyVar.hashKey (v : PyVar) : HashKey :=
  match v.typ with
  | .real => .real v.name v.bounds v.default v.precision v.scale
  | .integer => .integer v.name v.bounds v.default v.step
  | _ => .other v.name v.bounds v.default

/-- Membership in a Python `set`: same hash and equal. -/
def inPySet (hash : HashKey → ℤ) (v : PyVar) (s : List PyVar) : Bool :=
  s.any (fun w => decide (hash v.hashKey = hash w.hashKey) && v.eq w)

/-- search_space.py:311-312 `__eq__` of spaces (variables already looked up). -/
def spaceEq (hash : HashKey → ℤ) (a b : List PyVar) : Bool :=
  a.length == b.length && a.all (fun v => inPySet hash v b) && b.all (fun v => inPySet hash v a)

/-- search_space.py:294-295: `B in A` for spaces. -/
def spaceContains (a b : List PyVar) : Bool := b.all (fun v => a.any (fun w => v.eq w))

/-! ### from_dict -/

/-- The `type` field of a specification: a string, or a class as written by `to_dict`. -/
inductive TypeTag where
  | str (s : String)
  | cls (τ : VType)
deriving DecidableEq

/-- One entry of the specification dictionary. -/
structure Entry where
  typ : Option TypeTag
  range : List Lvl := []
  n : Option ℤ := none
  default : Option Lvl := none
  precision : Option ℤ := none
  scale : Scale := .linear
  step : Option ℚ := none
  conditions : Option Cond := none

/-- search_space.py:650-674: the type names. -/
def typeOfTag : TypeTag → Option VType
  | .str s =>
    if s ∈ ["r", "real"] then some .real
    else if s ∈ ["i", "int", "integer"] then some .integer
    else if s ∈ ["o", "ordinal"] then some .ordinal
    else if s ∈ ["c", "cat"] then some .discrete
    else if s ∈ ["s", "subset"] then some .subset
    else if s ∈ ["b", "bool"] then some .bool
    else none
  | .cls _ => none

/-- The atoms of a level list. -/
def atoms (l : List Lvl) : List Base := l.filterMap (fun x => match x with
  | .one b => some b
  | .tup _ => none)

/-- variable.py: the `bounds` attribute after construction. -/
def boundsFor (τ : VType) (range : List Lvl) : List Lvl :=
  match τ with
  | .real => range
  | .bool => [.one (.bool false), .one (.bool true)]
  | .subset => dedupLevels ((subsetLevels (atoms range)).map .tup)
  | _ => dedupLevels range

/-- search_space.py:653-675: copy number `i` of an entry.  `v.pop("step", 1)` in line 665 is evaluated for every
copy, so only the first one sees the given step.  Conditions are not read. -/
def entryVar (name : String) (τ : VType) (e : Entry) (i : ℕ) : PyVar :=
  { name := name, typ := τ, bounds := boundsFor τ e.range
    precision := if τ = .real then e.precision else none
    scale := if τ = .real then e.scale else .linear
    step := if τ = .integer ∧ i = 0 then e.step.getD 1 else 1 }

/-- search_space.py:647 `range(int(v["N"])) if "N" in v else range(1)` -/
def entryCount (e : Entry) : ℕ := (e.n.getD 1).toNat

/-- State of the loop in `from_dict`: the heap of variables made so far, the references collected, the local
variable `_vars` (if already bound), and the (mutated) input dictionary. -/
structure FromDict where
  heap : Heap := []
  collected : List ℕ := []
  vars : Option (List ℕ) := none
  dict : List (String × Entry) := []

/-- search_space.py:639-678, one entry.  `valid` says which variable constructors succeed.  `none` is the
`KeyError` of line 648 (`v["defualt"]`), raised outside the `try`.  All other exceptions are swallowed. -/
def fromDictStep (valid : PyVar → Bool) (s : FromDict) (ke : String × Entry) : Option FromDict :=
  if ke.2.default.isSome then none
  else
    match ke.2.typ with
    | none => some { s with dict := s.dict ++ [ke] }
    | some tag =>
      match typeOfTag tag with
      | none =>
        -- unknown type: `_vars` keeps its previous value, or is unbound and line 676 raises
        match s.vars with
        | none => some { s with dict := s.dict ++ [ke] }
        | some vs => some { s with collected := s.collected ++ vs, dict := s.dict ++ [ke] }
      | some τ =>
        let new := (List.range (entryCount ke.2)).map (entryVar ke.1 τ ke.2)
        let ke' := if τ = .integer ∧ 0 < entryCount ke.2 then (ke.1, { ke.2 with step := none }) else ke
        if new.all valid then
          let refs := (List.range new.length).map (fun i => s.heap.length + i)
          some { heap := s.heap ++ new, collected := s.collected ++ refs, vars := some refs, dict := s.dict ++ [ke'] }
        else some { s with dict := s.dict ++ [ke'] }

/-- search_space.py:614-679 `from_dict`: the new space and the dictionary after the call. -/
def fromDict (valid : PyVar → Bool) (fuel : ℕ) (d : List (String × Entry)) :
    Option ((Heap × PySpace) × List (String × Entry)) := do
  let s ← d.foldlM (fromDictStep valid) {}
  let r ← newSpace fuel s.heap s.collected []
  return (r, s.dict)

/-- search_space.py:590-608 `to_dict` of one variable. -/
def toEntry (v : PyVar) : String × Entry :=
  (v.name, { typ := some (.cls v.typ), range := v.bounds, n := some 1,
             precision := if v.typ = .real then v.precision else none,
             scale := if v.typ = .real then v.scale else .linear,
             step := if v.typ = .integer then some v.step else none, conditions := v.cond })

end Verif.Model
