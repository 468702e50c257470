import Mathlib.Data.Real.Basic
import Mathlib.Algebra.BigOperators.Fin

/-!
# What a correlation matrix is
-/
namespace Verif.Spec

/-- A matrix that can be the correlation matrix of random variables: symmetric, ones on the diagonal, entries between zero
and one, and no linear combination with a negative variance. -/
def IsCorrelationMatrix {N : ℕ} (R : Fin N → Fin N → ℝ) : Prop :=
  (∀ i j, R i j = R j i) ∧ (∀ i, R i i = 1) ∧ (∀ i j, 0 ≤ R i j ∧ R i j ≤ 1) ∧
  ∀ w : Fin N → ℝ, 0 ≤ ∑ i, ∑ j, w i * w j * R i j

/-- Every linear combination has a positive variance, so that the matrix has a Cholesky factor. -/
def IsPositiveDefinite {N : ℕ} (R : Fin N → Fin N → ℝ) : Prop :=
  (∀ i j, R i j = R j i) ∧ ∀ w : Fin N → ℝ, w ≠ 0 → 0 < ∑ i, ∑ j, w i * w j * R i j

end Verif.Spec
