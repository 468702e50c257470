import Verif.Model.Optimizer

/-!
# Specification for C150: when a run is due to stop
-/
namespace Verif.Spec
open Verif.Model

variable {P K : Type*} [Field K] [LinearOrder K] [IsStrictOrderedRing K]

/-- The budget is used up. -/
def BudgetUsed (maxFEs : Option ℤ) (evaluations : ℕ) : Prop := ∃ m, maxFEs = some m ∧ m ≤ evaluations

/-- A recorded value lies below the target (for maximisation too, see C16: the largest recorded value does). -/
def TargetPassed (minimize : Bool) (ftarget : Option K) (recorded : List (Rec P K)) : Prop :=
  ∃ t, ftarget = some t ∧ recorded ≠ [] ∧
    if minimize then ∃ r ∈ recorded, r.f < t else ∀ r ∈ recorded, r.f < t

/-- The run is due to stop. -/
def Due (cfg : Cfg K) (s : OptState P K) : Prop :=
  BudgetUsed cfg.maxFEs s.evalCount ∨ TargetPassed cfg.minimize cfg.ftarget (s.data.getD [])

end Verif.Spec
