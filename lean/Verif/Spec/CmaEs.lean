import Mathlib.Data.Matrix.Mul
import Mathlib.Data.Matrix.Diagonal
import Mathlib.Data.Real.Basic
import Mathlib.Order.Interval.Set.UnorderedInterval

/-!
# Evolution strategies with a covariance matrix
-/
namespace Verif.Spec

open Matrix

/-- `rank v` lists all positions in non-decreasing order of the values `v`. -/
def RanksValues {l : ℕ} (rank : (Fin l → ℝ) → Fin l → Fin l) : Prop :=
  ∀ v, Function.Bijective (rank v) ∧ ∀ i j, i ≤ j → v (rank v i) ≤ v (rank v j)

/-- A routine that returns the eigenvalues and an orthogonal matrix of eigenvectors of symmetric matrices. -/
def EigenRoutine {d : ℕ} (eigh : Matrix (Fin d) (Fin d) ℝ → (Fin d → ℝ) × Matrix (Fin d) (Fin d) ℝ) : Prop :=
  ∀ M, (∀ i j, M i j = M j i) → (eigh M).2ᵀ * (eigh M).2 = 1 ∧ (eigh M).2 * diagonal (eigh M).1 * (eigh M).2ᵀ = M

/-- The point lies between the bounds, which may be given in either order. -/
def Between {d : ℕ} (lb ub x : Fin d → ℝ) : Prop := ∀ i, min (lb i) (ub i) ≤ x i ∧ x i ≤ max (lb i) (ub i)

/-- `B diag(v) z` has the covariance matrix `K` for uncorrelated `z` of variance 1, and `J` is the inverse square root of `K`. -/
structure Samples {d : ℕ} (B : Matrix (Fin d) (Fin d) ℝ) (v : Fin d → ℝ) (J K : Matrix (Fin d) (Fin d) ℝ) : Prop where
  covariance : (B * diagonal v) * (B * diagonal v)ᵀ = K
  symm : Jᵀ = J
  invSqrt : J * K * J = 1

end Verif.Spec
