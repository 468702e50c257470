import Mathlib.LinearAlgebra.Matrix.NonsingularInverse
import Mathlib.Probability.Moments.Covariance
import Mathlib.Probability.Moments.Variance

/-!
# The statistical model behind Gaussian-process regression
-/
namespace Verif.Spec

open Matrix MeasureTheory ProbabilityTheory

variable {N k : ℕ}

/-- `L` is the Cholesky factor of `R`: lower triangular with a positive diagonal. -/
structure IsCholesky (R L : Matrix (Fin N) (Fin N) ℝ) : Prop where
  lower : ∀ i j, i < j → L i j = 0
  pos : ∀ i, 0 < L i i
  mul : L * Lᵀ = R

/-- `Q` and `G` are a (reduced) QR decomposition of `A`. -/
structure IsQr (A Q : Matrix (Fin N) (Fin k) ℝ) (G : Matrix (Fin k) (Fin k) ℝ) : Prop where
  mul : Q * G = A
  orth : Qᵀ * Q = 1

/-- A routine that returns Cholesky factors or fails. -/
def CholeskyRoutine (chol : Matrix (Fin N) (Fin N) ℝ → Option (Matrix (Fin N) (Fin N) ℝ)) : Prop :=
  ∀ A L, chol A = some L → IsCholesky A L

/-- A routine that succeeds on every positive definite matrix. -/
def CompleteCholesky (chol : Matrix (Fin N) (Fin N) ℝ → Option (Matrix (Fin N) (Fin N) ℝ)) : Prop :=
  ∀ A : Matrix (Fin N) (Fin N) ℝ, (∀ i j, A i j = A j i) → (∀ w : Fin N → ℝ, w ≠ 0 → 0 < w ⬝ᵥ (A *ᵥ w)) → (chol A).isSome

/-- A routine that returns QR decompositions. -/
def QrRoutine (qr : Matrix (Fin N) (Fin k) ℝ → Matrix (Fin N) (Fin k) ℝ × Matrix (Fin k) (Fin k) ℝ) : Prop :=
  ∀ A, IsQr A (qr A).1 (qr A).2

/-- The basis functions are linearly independent on the samples. -/
def FullRank (F : Matrix (Fin N) (Fin k) ℝ) : Prop := ∀ b, F *ᵥ b = 0 → b = 0

/-- Observations `Y` at the samples and the value `Z` of the process at a new point: the trend has basis functions `F` (at the
samples) and `f` (at the point) and coefficients `beta`; the process has variance `sigma2`, correlations `R` among the samples and
`r` with the new point; every observation has independent noise of variance `noise`. -/
structure IsProcess {Ω : Type*} [MeasurableSpace Ω] (P : Measure Ω) (Y : Fin N → Ω → ℝ) (Z : Ω → ℝ)
    (F : Matrix (Fin N) (Fin k) ℝ) (f beta : Fin k → ℝ) (R : Matrix (Fin N) (Fin N) ℝ) (r : Fin N → ℝ) (sigma2 noise : ℝ) : Prop where
  prob : IsProbabilityMeasure P
  memY : ∀ i, MemLp (Y i) 2 P
  memZ : MemLp Z 2 P
  meanY : ∀ i, ∫ ω, Y i ω ∂P = ∑ p, F i p * beta p
  meanZ : ∫ ω, Z ω ∂P = ∑ p, f p * beta p
  covY : ∀ i j, cov[Y i, Y j; P] = sigma2 * R i j + (if i = j then noise else 0)
  covYZ : ∀ i, cov[Y i, Z; P] = sigma2 * r i
  varZ : Var[Z; P] = sigma2

/-- The mean squared error of a predictor that is computed from the observations. -/
noncomputable def meanSquaredError {Ω : Type*} [MeasurableSpace Ω] (P : Measure Ω) (Y : Fin N → Ω → ℝ) (Z : Ω → ℝ)
    (predictor : (Fin N → ℝ) → ℝ) : ℝ :=
  ∫ ω, (Z ω - predictor (fun i => Y i ω)) ^ 2 ∂P

/-- A linear predictor with weights `w` that has the right expectation whatever the coefficients of the trend are. -/
def UnbiasedWeights (F : Matrix (Fin N) (Fin k) ℝ) (f : Fin k → ℝ) (w : Fin N → ℝ) : Prop :=
  ∀ beta : Fin k → ℝ, ∑ i, w i * ∑ p, F i p * beta p = ∑ p, f p * beta p

end Verif.Spec
