import Verif.Model.Node
import Verif.Model.Variables

/-!
# Unconditional sub-spaces and the conditional optimiser
(`search_space/search_space.py`, `extension.py`)
-/
namespace Verif.Model

/-- `itertools.product(*ls)`. -/
def product {α : Type*} : List (List α) → List (List α)
  | [] => [[]]
  | l :: ls => l.flatMap (fun x => (product ls).map (fun xs => x :: xs))

/-- node.py:171-172 and search_space.py:707: the items of `root.get_all_path()`; a root without children gives
the pair `((), None)`. -/
def pathItems (ord : List String → List String) (t : Node) : List (List String × Option (List String)) :=
  if t.children.isEmpty then [([], none)] else (t.getAllPath ord).map (fun kv => (kv.1, some kv.2))

/-- search_space.py:711-712 for one element of the product: the concatenated conditions and variables; `none` for
the `TypeError` of adding, or later iterating over, `None`. -/
def joinChoice (c : List (List String × Option (List String))) : Option (List String × List String) :=
  (c.mapM Prod.snd).map (fun vs => ((c.map Prod.fst).flatten, vs.flatten))

/-- search_space.py:698-713: the dictionary from conditions to conditional variables. -/
def conditionDict (ord : List String → List String) (trees : List Node) :
    Option (List (List String × List String)) :=
  ((product (trees.map (pathItems ord))).mapM joinChoice).map (fun l => dictUpdate [] l)

/-- search_space.py:698-721 `get_unconditional_subspace` for a space with condition trees: for each entry its
conditions and the names of the variables of the sub-space.  Parsing the conditions into variable and value
(lines 26-36, 716) is not modelled. -/
def unconditionalSubspaces (ord : List String → List String) (varName : List String) (trees : List Node) :
    Option (List (List String × List String)) :=
  let inTrees := trees.flatMap Node.getAllName
  let isolated := ord (varName.filter (fun v => !inTrees.contains v))
  (conditionDict ord trees).map (fun d => d.map (fun kv => (kv.1, isolated ++ kv.2)))

/-! ### ConditionalBO -/

/-- A value in a point given as a dictionary; `none` is `None`. -/
abbrev PointVal := Option Base

/-- Python truth value of a value. -/
def truthy : PointVal → Bool
  | none => false
  | some (.int z) => decide (z ≠ 0)
  | some (.flt q) => decide (q ≠ 0)
  | some (.str s) => decide (s ≠ "")
  | some (.bool b) => b

/-- A point as a dictionary. -/
abbrev Point := List (String × PointVal)

/-- extension.py:211-241: the part of the state of `ConditionalBO` that decides which sub-optimiser is used;
`told` records the calls to the `tell` methods of the sub-optimisers. -/
structure CondBO where
  nSub : ℕ
  varNames : List String
  fixedVars : List Point
  nextInit : ℕ := 0
  boIdx : List ℕ := []
  told : List (ℕ × Point × ℚ) := []

/-- extension.py:252-260: indices of the sub-optimisers for a batch of `n`; `pick` are the random choices. -/
def CondBO.choose (s : CondBO) (n : ℕ) (pick : List ℕ) : List ℕ :=
  let init := (List.range (s.nSub - s.nextInit)).map (fun i => s.nextInit + i) |>.take n
  init ++ pick.take (n - init.length)

/-- extension.py:264-267: complete the point proposed by sub-optimiser `k`; `ord` is the iteration order of the set
of missing names. -/
def CondBO.complete (ord : List String → List String) (s : CondBO) (k : ℕ) (p : Point) : Point :=
  let x := dictUpdate p (s.fixedVars.getD k [])
  dictUpdate x ((ord (s.varNames.filter (fun v => !(x.map Prod.fst).contains v))).map (fun v => (v, none)))

/-- extension.py:249-269 `ask`; `sub j k` is the point returned by sub-optimiser `k` at position `j` of the batch. -/
def CondBO.ask (ord : List String → List String) (s : CondBO) (n : ℕ) (pick : List ℕ) (sub : ℕ → ℕ → Point) :
    CondBO × List Point :=
  let idx := s.choose n pick
  ({ s with nextInit := min s.nSub (s.nextInit + n), boIdx := idx },
    idx.zipIdx.map (fun kj => s.complete ord kj.1 (sub kj.2 kj.1)))

/-- extension.py:292-294: what is passed to sub-optimiser `k` for the point `x`; `none` is the `KeyError` of
`x.pop(key)`. -/
def subPoint (fixed : Point) (x : Point) : Option Point :=
  fixed.foldlM (fun x kv => if (x.map Prod.fst).contains kv.1 then some (x.filter (fun e => e.1 ≠ kv.1)) else none)
    (x.filter (fun e => truthy e.2))

/-- extension.py:290-295: the loop of `tell` over the sub-optimisers (the assertion and the calls). -/
def CondBO.tell (s : CondBO) (xs : List Point) (ys : List ℚ) : Option CondBO :=
  if s.boIdx.length ≠ xs.length then none
  else (s.boIdx.zip (xs.zip ys)).foldlM (fun s kxy =>
    (subPoint (s.fixedVars.getD kxy.1 []) kxy.2.1).map
      (fun x => { s with told := s.told ++ [(kxy.1, x, kxy.2.2)] })) s

end Verif.Model
