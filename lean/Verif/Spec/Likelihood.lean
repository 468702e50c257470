import Mathlib.LinearAlgebra.Matrix.NonsingularInverse
import Mathlib.Analysis.SpecialFunctions.Log.Basic
import Mathlib.Analysis.SpecialFunctions.Trigonometric.Basic

/-!
# The Gaussian log density
-/
namespace Verif.Spec

open Matrix

variable {N k : ℕ}

/-- The logarithm of the density at `y` of the normal distribution with mean `mu` and covariance matrix `C`. -/
noncomputable def gaussianLogDensity (mu : Fin N → ℝ) (C : Matrix (Fin N) (Fin N) ℝ) (y : Fin N → ℝ) : ℝ :=
  -(1 / 2) * (N * Real.log (2 * Real.pi) + Real.log C.det + (y - mu) ⬝ᵥ (C⁻¹ *ᵥ (y - mu)))

/-- The log likelihoods of observations `y`, for all coefficients of a trend with basis functions `F` (or for the given ones) and
all positive scales `s` of a covariance matrix `s R`. -/
def scaledLikelihoods (F : Matrix (Fin N) (Fin k) ℝ) (given : Option (Fin k → ℝ)) (R : Matrix (Fin N) (Fin N) ℝ) (y : Fin N → ℝ) :
    Set ℝ :=
  {v | ∃ (b : Fin k → ℝ) (s : ℝ), (∀ b0, given = some b0 → b = b0) ∧ 0 < s ∧ v = gaussianLogDensity (F *ᵥ b) (s • R) y}

/-- The same with a given covariance matrix. -/
def trendLikelihoods (F : Matrix (Fin N) (Fin k) ℝ) (given : Option (Fin k → ℝ)) (C : Matrix (Fin N) (Fin N) ℝ) (y : Fin N → ℝ) :
    Set ℝ :=
  {v | ∃ b : Fin k → ℝ, (∀ b0, given = some b0 → b = b0) ∧ v = gaussianLogDensity (F *ᵥ b) C y}

end Verif.Spec
