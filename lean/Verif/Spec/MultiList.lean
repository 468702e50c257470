import Verif.Model.MultiList

/-!
# What it means for pointers to hold a list
-/
namespace Verif.Spec
open Verif.Model

/-- Consecutive nodes of `l` point at each other. -/
def Linked (k : Links) : List ℕ → Prop
  | a :: b :: rest => k.next a = b ∧ k.prev b = a ∧ Linked k (b :: rest)
  | _ => True

/-- The pointers hold the list `l`: from the sentinel 0 through the nodes of `l` and back to the sentinel, in both
directions, without repetition. -/
def Holds (k : Links) (l : List ℕ) : Prop := (0 :: l).Nodup ∧ Linked k (0 :: (l ++ [0]))

end Verif.Spec
