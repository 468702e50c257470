import Verif.Model.SpaceEdit

/-!
# The constructors of typed spaces (`search_space/search_space.py:137-162, 724-869`)
-/
namespace Verif.Model

/-- The argument `var_name`. -/
inductive NameArg where
  | one (s : String)
  | many (l : List String)

/-- An optional argument: not given (`None`), one value, or a tuple or list. -/
inductive OptArg (V : Type*) where
  | absent
  | scalar (v : V)
  | seq (l : List V)

/-- `tuple(b)` (line 140): a string falls apart into its characters, a number raises. -/
def pyTuple : Lvl → Option (List Lvl)
  | .tup l => some (l.map .one)
  | .one (.str s) => some (s.toList.map fun c => .one (.str (String.ofList [c])))
  | .one _ => none

/-- Lines 139-142: the bounds of the variables. -/
def readyBounds (bounds : List Lvl) : Option (List (List Lvl)) :=
  match bounds with
  | [] => none
  | .tup l :: rest => (.tup l :: rest).mapM pyTuple
  | .one b :: rest => some [.one b :: rest]

/-- Lines 146-153: the names. -/
def readyNames (dim : ℕ) : NameArg → Option (List String)
  | .one s => some (if dim > 1 then (List.range dim).map fun i => s ++ toString i else [s])
  | .many l => if l.length = dim then some l else none

/-- Lines 155-161: one optional argument, for every variable. -/
def readyOption {V : Type*} (dim : ℕ) : OptArg V → Option (List (Option V))
  | .absent => some (List.replicate dim none)
  | .scalar v => some (List.replicate dim (some v))
  | .seq l => if l.length = dim then some (l.map some) else none

/-- The optional arguments of a constructor; those that a class does not have are absent. -/
structure TypedArgs where
  default : OptArg Lvl := .absent
  precision : OptArg ℤ := .absent
  scale : OptArg Scale := .absent
  step : OptArg ℚ := .absent

/-- The keyword arguments for one variable (lines 144, 153, 161). -/
structure VarArgs where
  bounds : List Lvl
  name : String
  default : Option Lvl
  precision : Option ℤ
  scale : Option Scale
  step : Option ℚ

/-- Lines 137-162 `_ready_args` -/
def readyArgs (bounds : List Lvl) (names : NameArg) (a : TypedArgs) : Option (List VarArgs) := do
  let bs ← readyBounds bounds
  let ns ← readyNames bs.length names
  let ds ← readyOption bs.length a.default
  let ps ← readyOption bs.length a.precision
  let ss ← readyOption bs.length a.scale
  let ts ← readyOption bs.length a.step
  return (List.range bs.length).map fun i =>
    ⟨bs.getD i [], ns.getD i "", (ds[i]?).join, (ps[i]?).join, (ss[i]?).join, (ts[i]?).join⟩

/-- The constructors of the variables with the arguments given (variable.py:168-197, 264-354); `Bool` has the default `True`.
Real bounds outside the working range of the scale, which the setter of `scale` replaces (variable.py:228-244), are left out. -/
def makeVar (τ : VType) (a : VarArgs) : PyVar :=
  { name := a.name, typ := τ, bounds := boundsFor τ a.bounds,
    default := if τ = .bool then some (a.default.getD (.one (.bool true))) else a.default,
    precision := a.precision, scale := a.scale.getD .linear, step := a.step.getD 1 }

/-- Lines 727-869: the variables of a typed space; `valid` says which constructor calls succeed. -/
def typedVars (valid : PyVar → Bool) (τ : VType) (bounds : List Lvl) (names : NameArg) (a : TypedArgs) : Option (List PyVar) :=
  (readyArgs bounds names a).bind fun args =>
    let vars := args.map (makeVar τ)
    if vars.all valid then some vars else none

/-- Lines 740, 809, 825, 840, 855, 869: the space. -/
def typedSpace (fuel : ℕ) (valid : PyVar → Bool) (τ : VType) (bounds : List Lvl) (names : NameArg) (a : TypedArgs) : Option LiveSpace :=
  (typedVars valid τ bounds names a).bind (liveInit fuel)

/-- Lines 861-869 `BoolSpace.__init__` -/
def boolSpace (fuel : ℕ) (valid : PyVar → Bool) (names : NameArg) (a : TypedArgs) : Option LiveSpace :=
  typedSpace fuel valid .bool [.one (.bool false), .one (.bool true)] names a

end Verif.Model
