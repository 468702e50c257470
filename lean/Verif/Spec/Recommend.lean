import Verif.Model.Recommend
import Verif.Spec.Optimizer

/-!
# Programs that use recommendations
-/
namespace Verif.Spec
open Verif.Model
variable {P K : Type*}

/-- The calls that reach the optimiser: everything but asking for a recommendation and writing to what was returned. -/
def optimiserCalls : List (UserOp P K) → List (Op P K)
  | [] => []
  | .tell a :: ops => .tell a :: optimiserCalls ops
  | .checkStop :: ops => .checkStop :: optimiserCalls ops
  | _ :: ops => optimiserCalls ops

/-- The object the action writes to. -/
def writesTo : UserOp P K → Option ℕ
  | .writeX k _ => some k
  | .writeF k _ => some k
  | _ => none

/-- Every object that is written to was returned before, and since then new points have been told. -/
def WritesOldOnly [Field K] [LinearOrder K] [IsStrictOrderedRing K] (cfg : Cfg K) (ops : List (UserOp P K)) : Prop :=
  ∀ pre o post k, ops = pre ++ o :: post → writesTo o = some k →
    ∃ before a since, pre = before ++ .tell a :: since ∧ WellFormed a ∧ k < (play cfg before).refs.length

end Verif.Spec
