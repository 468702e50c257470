import Mathlib.LinearAlgebra.Matrix.NonsingularInverse
import Mathlib.Data.Real.Basic

/-!
# Error contrasts
-/
namespace Verif.Spec

open Matrix

/-- The columns of `A` are a complete set of orthonormal error contrasts: combinations of the observations in which every trend with
basis functions `F` cancels. -/
structure IsContrasts {N k m : ℕ} (F : Matrix (Fin N) (Fin k) ℝ) (A : Matrix (Fin N) (Fin m) ℝ) : Prop where
  complete : m + k = N
  orth : Aᵀ * A = 1
  free : Aᵀ * F = 0

/-- A routine that returns QR decompositions with an upper triangular second factor. -/
def UpperFactor {N k : ℕ} (qr : Matrix (Fin N) (Fin k) ℝ → Matrix (Fin N) (Fin k) ℝ × Matrix (Fin k) (Fin k) ℝ) : Prop :=
  ∀ A i j, j < i → (qr A).2 i j = 0

end Verif.Spec
