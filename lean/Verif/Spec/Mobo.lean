import Mathlib.Data.Real.Basic
import Mathlib.Data.Fin.Basic

/-!
# Specification: better outcomes when each objective has its own direction
-/
namespace Verif.Spec

variable {m : ℕ}

/-- `a` is at least as good as `b` in an objective. -/
def NoWorse (minimize : Bool) (a b : ℝ) : Prop := if minimize then a ≤ b else b ≤ a

/-- `a` is better than `b` in an objective. -/
def BetterIn (minimize : Bool) (a b : ℝ) : Prop := if minimize then a < b else b < a

/-- `a` dominates `b`: at least as good in all objectives, better in one. -/
def DominatesIn (minimize : Fin m → Bool) (a b : Fin m → ℝ) : Prop :=
  (∀ k, NoWorse (minimize k) (a k) (b k)) ∧ ∃ k, BetterIn (minimize k) (a k) (b k)

/-- A position of `data` whose outcome no recorded outcome dominates. -/
def Efficient {X : Type*} (minimize : Fin m → Bool) (data : List (X × (Fin m → ℝ))) (i : ℕ) : Prop :=
  ∃ p, data[i]? = some p ∧ ∀ q ∈ data, ¬ DominatesIn minimize q.2 p.2

/-- The outcome at position `i` was not recorded before. -/
def NewOutcome {X : Type*} (data : List (X × (Fin m → ℝ))) (i : ℕ) : Prop :=
  i < data.length ∧ ∀ j p q, j < i → data[j]? = some p → data[i]? = some q → p.2 ≠ q.2

end Verif.Spec
