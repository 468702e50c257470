import Verif.Model.SearchSpace

/-!
# Editing a search space in place, and membership (`search_space/search_space.py`)

In `Model/SearchSpace` an operation returns a new space.  Here the space is an object with all attributes that its methods cache, and a call may raise
after a part of its effects.
-/
namespace Verif.Model

/-- The attributes of a space object: the variables (references into the heap) and what `_set_data` derives from them, the condition trees, and the class
(`none` is `SearchSpace`, `some τ` the class of spaces of one type). -/
structure LiveSpace where
  heap : Heap
  data : List ℕ
  varName : List String
  varType : List VType
  bounds : List (List Lvl)
  index : Option TypeIndex
  structure' : List Node
  cls : Option VType

/-- `[var.bounds for var in self.data]` (search_space.py:209) -/
def boundsOf (h : Heap) (data : List ℕ) : List (List Lvl) := data.map fun r => ((h[r]?).map PyVar.bounds).getD []

/-- search_space.py:198-202 `__set_type`: the class for a list of types (`np.unique` has one entry). -/
def classFor (types : List VType) : Option VType :=
  match types with
  | [] => none
  | τ :: rest => if rest.all (fun t => t == τ) then some τ else none

/-- search_space.py:204-213 `_set_data`.  `_set_index` (line 217) does nothing for an empty space. -/
def LiveSpace.setData (s : LiveSpace) (heap : Heap) (data : List ℕ) : LiveSpace :=
  let h := checkData heap data
  { s with
    heap := h, data := data, varName := data.map (nameOf h), varType := typesOf h data, bounds := boundsOf h data
    index := if data.isEmpty then s.index else some (setIndex (typesOf h data)) }

/-- search_space.py:198-202 `__set_type(self)`. -/
def LiveSpace.setType (s : LiveSpace) : LiveSpace := { s with cls := classFor s.varType }

/-- search_space.py:76-103 `__init__` for fresh variables and no given structure; `none` is an exception. -/
def liveInit (fuel : ℕ) (vars : List PyVar) : Option LiveSpace :=
  let s := LiveSpace.setData ⟨[], [], [], [], [], none, [], none⟩ vars (List.range vars.length)
  (setStructure fuel (condsOf s.heap s.data) []).map fun st => { s with structure' := st }.setType

/-- A Python index into a list of length `n`. -/
def pyIndex (n : ℕ) (i : ℤ) : Option ℕ :=
  if 0 ≤ i then (if i < n then some i.toNat else none) else (if 0 ≤ i + n then some (i + n).toNat else none)

/-- A key of `__setitem__` and `remove`: a position, a name, or something else (e.g. a numpy integer). -/
inductive SpaceKey where
  | pos (i : ℤ)
  | name (n : String)
  | other

/-- Lines 270-271, 273-274, 280-281: the position for a key; `none` is an exception.  Names are looked up in the cached list. -/
def LiveSpace.position (s : LiveSpace) : SpaceKey → Option ℕ
  | .pos i => pyIndex s.data.length i
  | .name n => if s.varName.contains n then some (s.varName.idxOf n) else none
  | .other => none

/-- Lines 269-274, 286 `space[key] = var` for a single key; the variable is a fresh object.  The result is the state and whether the call returned. -/
def LiveSpace.setItem (s : LiveSpace) (key : SpaceKey) (v : PyVar) : LiveSpace × Bool :=
  match s.position key with
  | none => (s, false)
  | some k => (s.setData (s.heap ++ [v]) (s.data.set k s.heap.length), true)

/-- Lines 278-285: the loop of `space[keys] = vars`; an exception leaves the assignments made so far. -/
def LiveSpace.setItems (s : LiveSpace) : List (SpaceKey × PyVar) → LiveSpace × Bool
  | [] => (s.setData s.heap s.data, true)
  | kv :: rest =>
    match s.position kv.1 with
    | none => (s, false)
    | some k => LiveSpace.setItems { s with heap := s.heap ++ [kv.2], data := s.data.set k s.heap.length } rest

/-- Lines 451-454, 468-472: after a variable was taken out. -/
def LiveSpace.afterPop (fuel : ℕ) (s : LiveSpace) : LiveSpace × Bool :=
  match setStructure fuel (condsOf s.heap s.data) (s.structure'.map some) with
  | none => (s, false)
  | some st => ({ s with structure' := st }.setType, true)

/-- Lines 449-455 `pop(index)`: the state and the returned reference. -/
def LiveSpace.pop (fuel : ℕ) (s : LiveSpace) (i : ℤ) : LiveSpace × Option ℕ :=
  match pyIndex s.data.length i with
  | none => (s, none)
  | some k =>
    let r := (s.setData s.heap (s.data.eraseIdx k)).afterPop fuel
    (r.1, if r.2 then s.data[k]? else none)

/-- Lines 457-473 `remove(index)`. -/
def LiveSpace.remove (fuel : ℕ) (s : LiveSpace) (key : SpaceKey) : LiveSpace × Bool :=
  match s.position key with
  | none => (s, false)
  | some k => (s.setData s.heap (s.data.eraseIdx k)).afterPop fuel

/-- Lines 334-338 `space += other`, for an other space with variables of its own. -/
def LiveSpace.iadd (s : LiveSpace) (vars : List PyVar) : LiveSpace :=
  (s.setData (s.heap ++ vars) (s.data ++ (List.range vars.length).map (s.heap.length + ·))).setType

/-- Lines 356-362 `space -= other`, given the names of the other space. -/
def LiveSpace.isub (s : LiveSpace) (names : List String) : LiveSpace :=
  let keep := (List.range s.data.length).filter fun i =>
    let n := s.varName.getD i ""
    !(names.contains n) && s.varName.idxOf n == i
  (s.setData s.heap (keep.map fun i => s.data.getD i 0)).setType

/-- Lines 387-403 `space *= n`; the class is not set. -/
def LiveSpace.imul (s : LiveSpace) (n : ℤ) : LiveSpace :=
  let c := replicateRefs s.heap s.data (max 1 (n - 1)).toNat
  s.setData c.1 (s.data ++ c.2)

/-- Lines 109-118 `space.var_name = names` for a list of names. -/
def LiveSpace.rename (s : LiveSpace) (names : List String) : LiveSpace × Bool :=
  if names.length = s.data.length then (s.setData ((s.data.zip names).foldl setName s.heap) s.data, true) else (s, false)

/-- The calls that change a space. -/
inductive SpaceCall where
  | setItem (key : SpaceKey) (v : PyVar)
  | setItems (kvs : List (SpaceKey × PyVar))
  | pop (i : ℤ)
  | remove (key : SpaceKey)
  | iadd (vars : List PyVar)
  | isub (names : List String)
  | imul (n : ℤ)
  | rename (names : List String)

/-- One call. -/
def LiveSpace.step (fuel : ℕ) (s : LiveSpace) : SpaceCall → LiveSpace
  | .setItem key v => (s.setItem key v).1
  | .setItems kvs => (s.setItems kvs).1
  | .pop i => (s.pop fuel i).1
  | .remove key => (s.remove fuel key).1
  | .iadd vars => s.iadd vars
  | .isub names => s.isub names
  | .imul n => s.imul n
  | .rename names => (s.rename names).1

/-- A history of calls. -/
def LiveSpace.run (fuel : ℕ) (s : LiveSpace) (calls : List SpaceCall) : LiveSpace := calls.foldl (LiveSpace.step fuel) s

/-- Which `_sample` runs and whether it can: `RealSpace._sample` (line 742) reads `_bounds_transformed`, which only real variables have. -/
def LiveSpace.canSample (s : LiveSpace) : Bool :=
  match s.cls with
  | some .real => s.varType.all fun τ => τ == .real
  | _ => true

/-! ### membership -/

/-- The number a Python atom stands for in comparisons. -/
def Base.number : Base → Option ℚ
  | .int z => some z
  | .flt q => some q
  | .bool b => some (if b then 1 else 0)
  | .str _ => none

/-- `==` between atoms. -/
def Base.same (a b : Base) : Bool :=
  match a.number, b.number with
  | some p, some q => decide (p = q)
  | none, none => decide (a = b)
  | _, _ => false

/-- `==` between levels. -/
def Lvl.same : Lvl → Lvl → Bool
  | .one a, .one b => a.same b
  | .tup l, .tup m => decide (l.length = m.length) && (l.zip m).all fun p => p.1.same p.2
  | _, _ => false

/-- The number behind a value; `none` makes a comparison raise. -/
def Lvl.number : Lvl → Option ℚ
  | .one b => b.number
  | .tup _ => none

/-- variable.py:208-209, 270-271, 334-335 `x in variable`; `none` is `TypeError`. -/
def PyVar.has (v : PyVar) (x : Lvl) : Option Bool :=
  match v.typ with
  | .real | .integer => do
    let lo ← (v.bounds[0]?).bind Lvl.number
    let hi ← (v.bounds[1]?).bind Lvl.number
    let q ← x.number
    return decide (lo ≤ q ∧ q ≤ hi)
  | _ => some (v.bounds.any fun l => l.same x)

/-- What is tested for membership. -/
inductive SpaceItem where
  | name (n : String)
  | var (v : PyVar)
  | space (vs : List PyVar)
  | list (xs : List Lvl)
  | dict (d : List (String × Lvl))
  | other

/-- search_space.py:288-301 `item in space`, for the variables of the space; `none` is an exception. -/
def spaceHas (vars : List PyVar) : SpaceItem → Option Bool
  | .name n => some ((vars.map PyVar.name).contains n)
  | .var v => some (vars.any fun w => w.eq v)
  | .space vs => some (vs.all fun v => vars.any fun w => w.eq v)
  | .list xs => (xs.zipIdx.mapM fun xi => (vars[xi.2]?).bind fun v => v.has xi.1).map fun bs => bs.all id
  | .dict d => (d.mapM fun kx => (vars.find? fun v => v.name == kx.1).bind fun v => v.has kx.2).map fun bs => bs.all id
  | .other => none

end Verif.Model
