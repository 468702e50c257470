import Verif.Model.CallerArrays
import Verif.Spec.Optimizer

/-!
# Programs that use their arrays again
-/
namespace Verif.Spec
open Verif.Model
variable {P K : Type*}

/-- The calls without the writes. -/
def callerCalls : List (CallerOp P K) → List (Op P K)
  | [] => []
  | .tell _ a :: ops => .tell a :: callerCalls ops
  | .checkStop :: ops => .checkStop :: callerCalls ops
  | .overwrite _ _ :: ops => callerCalls ops

/-- The number of calls of `tell`. -/
def tellCount : List (CallerOp P K) → ℕ
  | [] => 0
  | .tell _ _ :: ops => tellCount ops + 1
  | _ :: ops => tellCount ops

/-- Whenever points are overwritten, they were given as lists, or other points have been told since. -/
def OverwritesOldOnly (ops : List (CallerOp P K)) : Prop :=
  ∀ pre c X post, ops = pre ++ .overwrite c X :: post → ∃ before b a since, pre = before ++ .tell b a :: since ∧ tellCount before = c ∧
    (b = false ∨ ∃ b' a', CallerOp.tell b' a' ∈ since ∧ WellFormed a')

end Verif.Spec
