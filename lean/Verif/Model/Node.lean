import Mathlib.Data.List.Basic

/-!
# Condition trees (`search_space/node.py`)

The payload `data` of a node is not modelled (it is always `None` in this code base).  A child is stored with
its branching condition (`children` and `branches` are parallel lists).
-/
namespace Verif.Model

/-- node.py:7-24: a node has a name and children, each with the branching condition leading to it. -/
inductive Node where
  | mk (name : String) (children : List (String × Node))

/-- node.py:20 -/
def Node.name : Node → String
  | .mk n _ => n

/-- node.py:23-24 -/
def Node.children : Node → List (String × Node)
  | .mk _ cs => cs

/-- node.py:26-45 `add_child`. -/
def Node.addChild : Node → Node → String → Node
  | .mk n cs, c, b => .mk n (cs ++ [(b, c)])

/-- node.py:103, the test `op`.  The conditional expression is parsed as the body of the first lambda:
`lambda e, S: (e not in S if invert else (lambda e, S: e in S))`.  With `invert=False` the test therefore
returns a function object, which is truthy whatever the name. -/
def dropTest (names : List String) (invert : Bool) (e : String) : Bool :=
  if invert then !(names.contains e) else true

mutual
/-- node.py:86-111 `remove`; `none` is Python's `None`. -/
def Node.remove (names : List String) (invert : Bool) : Node → Option Node
  | .mk n cs => if dropTest names invert n then none else some (.mk n (removeList names invert cs))
/-- node.py:107-110: the loop over the children. -/
def removeList (names : List String) (invert : Bool) : List (String × Node) → List (String × Node)
  | [] => []
  | (b, c) :: cs =>
    match Node.remove names invert c with
    | none => removeList names invert cs
    | some c' => (b, c') :: removeList names invert cs
end

/-- node.py:76-84 `deepcopy`. -/
def Node.deepcopy (t : Node) : Option Node := t.remove [] false

mutual
/-- node.py:161-167 `get_all_name`. -/
def Node.getAllName : Node → List String
  | .mk n cs => n :: getAllNameList cs
/-- node.py:164-166: the loop over the children. -/
def getAllNameList : List (String × Node) → List String
  | [] => []
  | (_, c) :: cs => c.getAllName ++ getAllNameList cs
end

/-- Python's `d.setdefault(k, []).append(v)` on a dictionary kept as an association list. -/
def dictAppend {K V : Type*} [DecidableEq K] (d : List (K × List V)) (k : K) (v : V) : List (K × List V) :=
  match d with
  | [] => [(k, [v])]
  | (k', vs) :: d => if k' = k then (k', vs ++ [v]) :: d else (k', vs) :: dictAppend d k v

/-- Python's `d[k] = v` on a dictionary kept as an association list. -/
def dictSet {K V : Type*} [DecidableEq K] (d : List (K × V)) (k : K) (v : V) : List (K × V) :=
  match d with
  | [] => [(k, v)]
  | (k', v') :: d => if k' = k then (k', v) :: d else (k', v') :: dictSet d k v

/-- Python's `d.update(e)`. -/
def dictUpdate {K V : Type*} [DecidableEq K] (d e : List (K × V)) : List (K × V) :=
  e.foldl (fun d kv => dictSet d kv.1 kv.2) d

/-- Python's `d.get(k)`. -/
def dictGet {K V : Type*} [DecidableEq K] (d : List (K × V)) (k : K) : Option V :=
  match d with
  | [] => none
  | (k', v) :: d => if k' = k then some v else dictGet d k

/-- node.py:176-180, contribution of one child reached through `b`: a leaf child gives the one-step path with
its own name, an internal child the prefixed paths. -/
def childPaths (b : String) (c : Node) (sub : List (List String × List String)) :
    List (List String × List String) :=
  if c.children.isEmpty then [([b], [c.name])] else sub.map (fun pv => (b :: pv.1, pv.2))

/-- node.py:181-184: merge paths with the same key. -/
def mergePaths (ps : List (List String × List String)) : List (List String × List String) :=
  ps.foldl (fun m kv => kv.2.foldl (fun m v => dictAppend m kv.1 v) m) []

mutual
/-- node.py:169-186 `get_all_path`, for a node with children; `ord` is the iteration order of `set(branches)`
in line 175.  (For a node without children the code returns `{(): None}`; here the empty dictionary, which is
inspected only through `childPaths`.) -/
def Node.getAllPath (ord : List String → List String) : Node → List (List String × List String)
  | .mk _ cs =>
    let sub := subPaths ord cs
    (ord (cs.map Prod.fst)).foldl
      (fun path br => dictUpdate path (mergePaths ((sub.filter (fun s => s.1 = br)).flatMap Prod.snd))) []
/-- node.py:176-180: for each child its branch and its paths. -/
def subPaths (ord : List String → List String) :
    List (String × Node) → List (String × List (List String × List String))
  | [] => []
  | (b, c) :: cs => (b, childPaths b c (c.getAllPath ord)) :: subPaths ord cs
end

mutual
/-- node.py:134-142 `to_dict`. -/
def Node.toDict : Node → List (String × List (String × String))
  | .mk n cs => toDictList n cs []
/-- node.py:136-141: the loop over the children of `n`; an entry is `(child name, condition)`. -/
def toDictList (n : String) : List (String × Node) → List (String × List (String × String)) →
    List (String × List (String × String))
  | [], out => out
  | (b, c) :: cs, out => toDictList n cs (dictUpdate (dictAppend out n (c.name, b)) c.toDict)
end

/-- node.py:47-74 `add_child_from_dict` seen as a pure function: the tree below `name`.  The cache only shares
nodes that would be rebuilt identically.  `fuel` bounds the recursion depth; `none` is `RecursionError`. -/
def unfoldTree (d : List (String × List (String × String))) : ℕ → String → Option Node
  | 0, _ => none
  | fuel + 1, name =>
    ((dictGet d name).getD []).mapM (fun info => (unfoldTree d fuel info.1).map (fun c => (info.2, c)))
      |>.map (fun cs => .mk name cs)

/-- node.py:113-132 `from_dict`.  The cache receives the names with a non-empty child list; such a node stays a
root iff it is never added as a child, and the roots enter the cache in the order of the keys. -/
def nodesFromDict (d : List (String × List (String × String))) (fuel : ℕ) : Option (List Node) :=
  let childNames := d.flatMap (fun kv => kv.2.map Prod.fst)
  let keys := d.filter (fun kv => !kv.2.isEmpty)
  (keys.mapM (fun kv => unfoldTree d fuel kv.1)).map
    (fun ts => ts.filter (fun t => !childNames.contains t.name))

/-- variable.py:151-156: a parsed condition, its text and the variables occurring in it. -/
structure Cond where
  string : String
  vars : List String

/-- search_space.py:185-194: add the conditions of the variables to the structure dictionary (the check in lines
190-191 tests `vars[0]` against `vars` itself and never fires).  A condition without variables raises
`IndexError` (`none`). -/
def addConditions (vars : List (String × Option Cond)) (d : List (String × List (String × String))) :
    Option (List (String × List (String × String))) :=
  vars.foldlM (fun d v => match v.2 with
    | none => some d
    | some c => match c.vars with
      | [] => none
      | key :: _ => some (dictAppend d key (v.1, c.string))) d

/-- search_space.py:174-196 `_set_structure` with a list of trees; `vars` are the names and conditions of the
variables of the space.  Entries that are `None` make line 178 fail, and line 192/195 then raises
`UnboundLocalError` (`none`). -/
def setStructure (fuel : ℕ) (vars : List (String × Option Cond)) (structure' : List (Option Node)) :
    Option (List Node) := do
  let trees ← structure'.mapM id
  let d := trees.foldl (fun d t => dictUpdate d t.toDict) []
  let d ← addConditions vars d
  let nodes ← nodesFromDict d fuel
  return nodes.filterMap (fun t => t.remove (vars.map Prod.fst) true)

end Verif.Model
