import Mathlib.Algebra.BigOperators.Group.Finset.Basic
import Mathlib.Data.Int.Order.Basic

/-!
# Restarted local search
-/
namespace Verif.Spec

/-- Among the first `m` values, entry `i` is smallest, and later ones are larger. -/
def LastBest {V : Type*} [Preorder V] (value : ℕ → V) (m i : ℕ) : Prop :=
  i < m ∧ (∀ j < m, value i ≤ value j) ∧ ∀ j, i < j → j < m → value i < value j

/-- After `m` searches the evaluations are used up, or the last `patience` searches were all worse than the best one. -/
def SearchExhausted {V : Type*} [Preorder V] (value : ℕ → V) (evaluations : ℕ → ℕ) (patience budget : ℤ) (m : ℕ) : Prop :=
  budget ≤ ∑ j ∈ Finset.range m, (evaluations j : ℤ) ∨ ∃ i, LastBest value m i ∧ patience ≤ (m : ℤ) - 1 - i

end Verif.Spec
