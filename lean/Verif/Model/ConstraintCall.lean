import Verif.Model.Solution
import Verif.Model.PartialArgument
import Verif.Model.SearchSpace

/-!
# Calling the user's constraint functions (`utils/utils.py:218-232`, `base.py:224-229, 237-238`)
-/
namespace Verif.Model

/-- What a user's function receives. -/
inductive Candidate where
  | list (x : List Lvl)
  | dict (d : List (String × Lvl))

/-- What the wrapper is called with: a list or tuple of values, a list of rows, or an array (also a `Solution`). -/
inductive WrapArg where
  | list (x : List Lvl)
  | rows (X : List (List Lvl))
  | array (a : Arr Lvl)

/-- The length of a tuple. -/
def tupleLength? : Lvl → Option ℕ
  | .tup t => some t.length
  | .one _ => none

/-- The members of a tuple. -/
def Lvl.members : Lvl → List Lvl
  | .tup t => t.map .one
  | .one b => [.one b]

/-- Whether the values are all tuples of one length, which numpy takes as a further dimension. -/
def unpacks (x : List Lvl) : Bool :=
  match x with
  | [] => false
  | v :: rest => (tupleLength? v).isSome && rest.all fun w => tupleLength? w == tupleLength? v

/-- Lines 221-224: the two-dimensional array; `none` is an exception (more than two dimensions, raised in line 225).  Rows of different lengths are left out. -/
def wrapArray : WrapArg → Option (List (List Lvl))
  | .list x => some (if unpacks x then x.map Lvl.members else [x])
  | .rows X => if unpacks X.flatten then none else some X
  | .array a => some a.rows

/-- Lines 226-230: the form in which a row reaches the user's function. -/
def candidateOf (asDict : Bool) (names : List String) (r : List Lvl) : Candidate :=
  if asDict then .dict (dictOf (names.zip r)) else .list r

/-- Lines 218-232 `func_with_list_arg`: the user's function returns the list of its values (a single value is a list of one), or raises.  `Solution` raises for no rows
and when the names do not fit (solution.py:72, 121); numpy raises when the rows give different numbers of values. -/
def funcWithListArg {K : Type*} (func : Candidate → Option (List K)) (asDict : Bool) (names : List String) (X : WrapArg) : Option (List K) :=
  (wrapArray X).bind fun rows =>
    match rows with
    | [] => none
    | r :: rest =>
      if r.length = names.length then
        ((r :: rest).mapM fun r => func (candidateOf asDict names r)).bind fun vals =>
          if vals.all (fun v => v.length == (vals.headD []).length) then some vals.flatten else none
      else none

/-- base.py:237-238: a constraint while variables are fixed, called on a point of the free variables (a list, or an array with one dimension). -/
def fixedConstraint {K : Type*} (func : Candidate → Option (List K)) (asDict : Bool) (names : List String) (fixed : FixedDict Lvl) (x : List Lvl) : Option (List K) :=
  (partialArgument (fun rows => funcWithListArg func asDict names (.array (.two rows))) names fixed (.single x)).join

end Verif.Model
