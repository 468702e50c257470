import Verif.Model.Node

/-!
# Specification vocabulary for condition trees
-/
namespace Verif.Spec
open Verif.Model

mutual
/-- The address of every node in pre-order: the (condition, name) edges from the root down to it. -/
def addresses : Node → List (List (String × String))
  | .mk _ cs => [] :: addressesList cs
/-- Addresses of all nodes of a list of children. -/
def addressesList : List (String × Node) → List (List (String × String))
  | [] => []
  | (b, c) :: cs => (addresses c).map (fun a => (b, c.name) :: a) ++ addressesList cs
end

mutual
/-- Every leaf in pre-order: the conditions on the way from the root, and its name. -/
def leaves : Node → List (List String × String)
  | .mk n [] => [([], n)]
  | .mk _ (c :: cs) => leavesList (c :: cs)
/-- Leaves of a list of children. -/
def leavesList : List (String × Node) → List (List String × String)
  | [] => []
  | (b, c) :: cs => (leaves c).map (fun l => (b :: l.1, l.2)) ++ leavesList cs
end

/-- The names of the leaves reached exactly by the conditions `k`. -/
def leavesAt (t : Node) (k : List String) : List String :=
  ((leaves t).filter (fun l => l.1 = k)).map Prod.snd

/-- An iteration order of a set: every element once. -/
def SetOrder (ord : List String → List String) : Prop := ∀ l, (ord l).Nodup ∧ ∀ b, b ∈ ord l ↔ b ∈ l

end Verif.Spec
