import Verif.Model.Conditional

/-!
# Specification vocabulary for the conditional optimiser
-/
namespace Verif.Spec
open Verif.Model

/-- A call by the user; `pick` and `sub` are the random choices and the answers of the sub-optimisers. -/
inductive CondCall where
  | ask (n : ℕ) (pick : List ℕ) (sub : ℕ → ℕ → Point)
  | tell (xs : List Point) (ys : List ℚ)

/-- The random choices of a call are enough and in range. -/
def CondCall.ok (nSub : ℕ) : CondCall → Prop
  | .ask n pick _ => n ≤ pick.length ∧ ∀ k ∈ pick, k < nSub
  | .tell _ _ => True

/-- The number of points a call requests. -/
def CondCall.points : CondCall → ℕ
  | .ask n _ _ => n
  | .tell _ _ => 0

/-- The indices of the sub-spaces from which the points of a history are proposed, in order.  A `tell` that raises
leaves the choice of sub-spaces as it is. -/
def subspacesUsed (ord : List String → List String) : CondBO → List CondCall → List ℕ
  | _, [] => []
  | s, .ask n pick sub :: cs => (s.ask ord n pick sub).1.boIdx ++ subspacesUsed ord (s.ask ord n pick sub).1 cs
  | s, .tell xs ys :: cs => subspacesUsed ord ((s.tell xs ys).getD s) cs

end Verif.Spec
