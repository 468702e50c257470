import Verif.Model.ConstraintCall

/-!
# What a user's constraint should receive
-/
namespace Verif.Spec
open Verif.Model

/-- The candidate is the point `x`: as a list, or as a dictionary with exactly the names of the variables as keys and the values of `x` under them. -/
def Presents (asDict : Bool) (names : List String) (x : List Lvl) (c : Candidate) : Prop :=
  match c with
  | .list y => asDict = false ∧ y = x
  | .dict d => asDict = true ∧ d.map Prod.fst = names ∧ ∀ (i : ℕ) (n : String) (v : Lvl), names[i]? = some n → x[i]? = some v → d.lookup n = some v

/-- All values are tuples (subsets) of the same size. -/
def OnlyEqualTuples (x : List Lvl) : Prop := x ≠ [] ∧ ∃ k, ∀ v ∈ x, ∃ t : List Base, v = .tup t ∧ t.length = k

end Verif.Spec
