import Mathlib.Data.Nat.Notation
import Mathlib.Data.List.Basic

/-!
# Model of `partial_argument` (`bayes_optim/utils/utils.py:163-215`)

`α` is the type of the entries.  Entries that numpy would unpack (tuples as fixed values) are not modelled.  The list of names is
not empty (for an empty one `~masks` raises TypeError).
-/
namespace Verif.Model

variable {α : Type*}

/-- What a dictionary holds under a key: the value stored last. -/
abbrev FixedDict (α : Type*) := String → Option α

/-- Line 181. -/
def paMasks (names : List String) (fixed : FixedDict α) : List Bool := names.map (fun v => (fixed v).isSome)

/-- Line 182. -/
def paValues (names : List String) (fixed : FixedDict α) : List α := names.filterMap fixed

/-- The number of free variables, `sum(~masks)`. -/
def paFree (masks : List Bool) : ℕ := masks.countP (fun b => !b)

/-- The argument of the wrapper after line 187: a one-dimensional array, or a two-dimensional one with its number of columns. -/
inductive PaArg (α : Type*) where
  | single (x : List α)
  | batch (ncol : ℕ) (rows : List (List α))

/-- Broadcasting an axis: a sequence of the wanted length, or of length one, which is repeated; otherwise ValueError. -/
def broadcastAxis {β : Type*} (n : ℕ) (l : List β) : Option (List β) :=
  if l.length = n then some l
  else match l with
    | [a] => some (List.replicate n a)
    | _ => none

/-- Lines 190-194 for one row: the free entries go to the places where the mask is false, the fixed ones to the others. -/
def paMerge : List Bool → List α → List α → List α
  | [], _, _ => []
  | true :: ms, v :: vs, xs => v :: paMerge ms vs xs
  | false :: ms, vs, x :: xs => x :: paMerge ms vs xs
  | _ :: _, _, _ => []

/-- Lines 189-194: the array on which the function is called; `none` is the ValueError of the assignment in line 191.
For two-dimensional input `N` is the number of *columns* (line 189). -/
def paFill (masks : List Bool) (values : List α) : PaArg α → Option (List (List α))
  | .single x => (broadcastAxis (paFree masks) x).map (fun r => [paMerge masks values r])
  | .batch ncol rows =>
    (broadcastAxis ncol rows).bind (fun rs =>
      (rs.mapM (broadcastAxis (paFree masks))).map (fun rs => rs.map (paMerge masks values)))

/-- Lines 184-195, 213: the wrapper with `reduce_output=False`. -/
def partialArgument {β : Type*} (func : List (List α) → β) (names : List String) (fixed : FixedDict α) (X : PaArg α) :
    Option β :=
  (paFill (paMasks names fixed) (paValues names fixed) X).map func

/-- One component of the function's result (lines 200-211). -/
inductive PaOut (γ : Type*) where
  | scalar (v : γ)
  | vec (v : List γ)
  | mat (nrow ncol : ℕ) (rows : List (List γ))
  | list (v : List γ)

/-- `v[~masks]`. -/
def paSelect {γ : Type*} (masks : List Bool) (v : List γ) : List γ :=
  ((masks.zip v).filter (fun p => !p.1)).map Prod.snd

/-- Lines 201-211; `none` is IndexError (line 203, wrong length) or TypeError (line 210, a list indexed with `numpy.bool_`; before numpy
1.19 this was taken as the index 0 or 1). -/
def paReduce {γ : Type*} (masks : List Bool) : PaOut γ → Option (PaOut γ)
  | .scalar v => some (.scalar v)
  | .vec v =>
    if 1 < v.length then (if v.length = masks.length then some (.vec (paSelect masks v)) else none) else some (.vec v)
  | .mat nrow ncol rows =>
    if nrow = masks.length then some (.mat (paFree masks) ncol (paSelect masks rows))
    else if ncol = masks.length then some (.mat nrow (paFree masks) (rows.map (paSelect masks)))
    else some (.mat nrow ncol rows)
  | .list v => if v.length = masks.length ∧ v ≠ [] then none else some (.list v)

end Verif.Model
