import Verif.Model.Gpr
import Mathlib.Analysis.SpecialFunctions.Trigonometric.Basic
import Mathlib.Analysis.SpecialFunctions.Pow.Real

/-!
# Model of the likelihoods and of the hyper-parameter search: `bayes_optim/surrogate/gaussian_process/gpr.py` 376-413 (`fit`),
813-918 (`log_likelihood_restricted`), 920-1040 (`log_likelihood_concentrated`), 1058-1197 (`_optimize_hyperparameter`)

Numbers are reals, there is one target column.  The correlation matrix `R0` for the parameters `theta`, and its derivatives, are
arguments (they are modelled in `Kernels`).  A likelihood of minus infinity is `none`.
-/
namespace Verif.Model

open Matrix

noncomputable section

variable {N k n : ℕ}

/-- `2.0 * np.log(np.diag(L)).sum()` (gpr.py:944, 958, 975). -/
def twiceLogDiag (L : Matrix (Fin N) (Fin N) ℝ) : ℝ := 2 * ∑ i, Real.log (L i i)

/-- `(rho ** 2.0).sum(axis=0)` (gpr.py:942, 955, 976). -/
def sumSquares (rho : Fin N → ℝ) : ℝ := ∑ i, rho i ^ 2

/-- gpr.py:941: the rank of `Q Qᵀ`, where `Q` has `k` orthonormal columns; zero for a trend with given coefficients. -/
def trendRank (k : ℕ) (beta : Option (Fin k → ℝ)) : ℕ :=
  match beta with
  | none => k
  | some _ => 0

/-- What `env` receives (gpr.py:984-992). -/
structure LlfEnv (N k : ℕ) where
  sigma2 : ℝ
  noiseVar : ℝ
  aux : GpAux N k

/-- gpr.py:932-947, the noise-free case.  Warnings are errors there, so that a division by `n - k = 0` and the logarithm of zero (or
of a negative number, for `k > n`) end in the `except` clause. -/
def llfNoiseless (chol : Matrix (Fin N) (Fin N) ℝ → Option (Matrix (Fin N) (Fin N) ℝ))
    (qr : Matrix (Fin N) (Fin k) ℝ → Matrix (Fin N) (Fin k) ℝ × Matrix (Fin k) (Fin k) ℝ)
    (R0 : Matrix (Fin N) (Fin N) ℝ) (F : Matrix (Fin N) (Fin k) ℝ) (beta : Option (Fin k → ℝ)) (y : Fin N → ℝ) :
    Option (ℝ × LlfEnv N k) :=
  (computeAux chol qr R0 F beta y).bind (fun a =>
    let sigma2 := sumSquares a.rho / ((N : ℝ) - trendRank k beta)
    if N ≤ trendRank k beta ∨ sigma2 = 0 then none
    else some (-0.5 * (N * Real.log (2 * Real.pi * sigma2) + twiceLogDiag a.L + N), { sigma2, noiseVar := 0, aux := a }))

/-- gpr.py:949-961, with an unknown share `alpha` of the variance.  `log(0)` is `-inf` (a warning only), the likelihood is then
infinite and is rejected in line 981 like every positive value. -/
def llfNoiseEstim (chol : Matrix (Fin N) (Fin N) ℝ → Option (Matrix (Fin N) (Fin N) ℝ))
    (qr : Matrix (Fin N) (Fin k) ℝ → Matrix (Fin N) (Fin k) ℝ × Matrix (Fin k) (Fin k) ℝ)
    (R0 : Matrix (Fin N) (Fin N) ℝ) (F : Matrix (Fin N) (Fin k) ℝ) (beta : Option (Fin k → ℝ)) (y : Fin N → ℝ) (alpha : ℝ) :
    Option (ℝ × LlfEnv N k) :=
  (computeAux chol qr (gpMatrix (.noiseEstim alpha) R0) F beta y).bind (fun a =>
    let total := sumSquares a.rho / N
    if total = 0 then none
    else some (-0.5 * (N * Real.log (2 * Real.pi * total) + twiceLogDiag a.L + N),
      { sigma2 := alpha * total, noiseVar := (1 - alpha) * total, aux := a }))

/-- gpr.py:963-980, with known noise. -/
def llfNoisy (chol : Matrix (Fin N) (Fin N) ℝ → Option (Matrix (Fin N) (Fin N) ℝ))
    (qr : Matrix (Fin N) (Fin k) ℝ → Matrix (Fin N) (Fin k) ℝ × Matrix (Fin k) (Fin k) ℝ)
    (R0 : Matrix (Fin N) (Fin N) ℝ) (F : Matrix (Fin N) (Fin k) ℝ) (beta : Option (Fin k → ℝ)) (y : Fin N → ℝ) (sigma2 noiseVar : ℝ) :
    Option (ℝ × LlfEnv N k) :=
  (computeAux chol qr (gpMatrix (.noisy sigma2 noiseVar) R0) F beta y).map (fun a =>
    let total := sigma2 + noiseVar
    (-0.5 * (N * Real.log (2 * Real.pi * total) + twiceLogDiag a.L + sumSquares a.rho / total), { sigma2, noiseVar, aux := a }))

/-- gpr.py:981-982: positive values are rejected. -/
def rejectPositive (v : Option (ℝ × LlfEnv N k)) : Option (ℝ × LlfEnv N k) :=
  v.bind (fun q => if q.1 > 0 then none else some q)

/-- gpr.py:920-1040 `log_likelihood_concentrated` without the gradient. -/
def llfConcentrated (chol : Matrix (Fin N) (Fin N) ℝ → Option (Matrix (Fin N) (Fin N) ℝ))
    (qr : Matrix (Fin N) (Fin k) ℝ → Matrix (Fin N) (Fin k) ℝ × Matrix (Fin k) (Fin k) ℝ) (mode : GpMode)
    (R0 : Matrix (Fin N) (Fin N) ℝ) (F : Matrix (Fin N) (Fin k) ℝ) (beta : Option (Fin k → ℝ)) (y : Fin N → ℝ) :
    Option (ℝ × LlfEnv N k) :=
  rejectPositive (match mode with
    | .noiseless => llfNoiseless chol qr R0 F beta y
    | .noiseEstim alpha => llfNoiseEstim chol qr R0 F beta y alpha
    | .noisy sigma2 noiseVar => llfNoisy chol qr R0 F beta y sigma2 noiseVar)

/-- `np.sum(A[np.triu_indices(n, 1)] * B[np.triu_indices(n, 1)])`. -/
def upperSum (A B : Matrix (Fin N) (Fin N) ℝ) : ℝ := ∑ i, ∑ j, if i < j then A i j * B i j else 0

/-- `cho_solve((L, True), np.eye(n_samples))` (gpr.py:997). -/
def choInverse (L : Matrix (Fin N) (Fin N) ℝ) : Matrix (Fin N) (Fin N) ℝ := (L * Lᵀ)⁻¹

/-- `gamma.dot(gamma.T)`. -/
def outer (g : Fin N → ℝ) : Matrix (Fin N) (Fin N) ℝ := of fun i j => g i * g j

/-- gpr.py:1002-1010: the derivative for one component of `theta`; `dR` is that component of `corr_grad_theta`. -/
def llfGradNoiseless (e : LlfEnv N k) (dR : Matrix (Fin N) (Fin N) ℝ) : ℝ :=
  upperSum (outer (gpGamma e.aux)) dR / e.sigma2 - upperSum (choInverse e.aux.L) dR

/-- gpr.py:1011-1020, for one component of `theta`; `total` is `sigma2_total`. -/
def llfGradNoiseEstimTheta (e : LlfEnv N k) (alpha : ℝ) (dR : Matrix (Fin N) (Fin N) ℝ) : ℝ :=
  upperSum (outer (gpGamma e.aux)) (alpha • dR) / (sumSquares e.aux.rho / N) - upperSum (choInverse e.aux.L) (alpha • dR)

/-- gpr.py:1021-1025, for `alpha`. -/
def llfGradNoiseEstimAlpha (e : LlfEnv N k) (R0 : Matrix (Fin N) (Fin N) ℝ) : ℝ :=
  let dv := R0 - 1;
  -0.5 * ((∑ i, ∑ j, choInverse e.aux.L i j * dv i j) - gpGamma e.aux ⬝ᵥ (dv *ᵥ gpGamma e.aux) / (sumSquares e.aux.rho / N))

/-- gpr.py:1026-1037: one component with derivative `dC` of the covariance matrix. -/
def llfGradNoisy (e : LlfEnv N k) (dC : Matrix (Fin N) (Fin N) ℝ) : ℝ :=
  let total := e.sigma2 + e.noiseVar
  let g := total⁻¹ • gpGamma e.aux
  let Cinv := total⁻¹ • choInverse e.aux.L;
  -0.5 * ((∑ i, ∑ j, Cinv i j * dC i j) - g ⬝ᵥ (dC *ᵥ g))

/-- gpr.py:1029-1030: the component of `theta` with derivative `dR` of the correlation matrix. -/
def llfGradNoisyTheta (e : LlfEnv N k) (dR : Matrix (Fin N) (Fin N) ℝ) : ℝ :=
  llfGradNoisy e ((e.sigma2 + e.noiseVar) • dR)

/-- gpr.py:1031-1032: the component of `sigma2`. -/
def llfGradNoisySigma2 (e : LlfEnv N k) (R0 : Matrix (Fin N) (Fin N) ℝ) : ℝ := llfGradNoisy e R0

/-- gpr.py:813-918 `log_likelihood_restricted` without the gradient (in the last test `exp(v) > 1`).  `noiseVar` is zero in the
noise-free mode. -/
def llfRestricted (chol : Matrix (Fin N) (Fin N) ℝ → Option (Matrix (Fin N) (Fin N) ℝ))
    (qr : Matrix (Fin N) (Fin k) ℝ → Matrix (Fin N) (Fin k) ℝ × Matrix (Fin k) (Fin k) ℝ)
    (R0 : Matrix (Fin N) (Fin N) ℝ) (F : Matrix (Fin N) (Fin k) ℝ) (beta : Option (Fin k → ℝ)) (y : Fin N → ℝ) (sigma2 noiseVar : ℝ) :
    Option (ℝ × LlfEnv N k) :=
  (computeAux chol qr (gpMatrix (.noisy sigma2 noiseVar) R0) F beta y).bind (fun a =>
    let total := sigma2 + noiseVar
    let v := match beta with
      | none => -0.5 * (((N : ℝ) - k) * Real.log (2 * Real.pi * total) - Real.log (Fᵀ * F).det + twiceLogDiag a.L +
          Real.log ((∏ p, a.G p p) ^ 2) + sumSquares a.rho / total)
      | some _ => -0.5 * (N * Real.log (2 * Real.pi * total) - twiceLogDiag a.L + sumSquares a.rho / total)
    if Real.exp v > 1 then none else some (v, { sigma2, noiseVar, aux := a }))

/-- gpr.py:876-902: the gradient of `log_likelihood_restricted`, one component with derivative `dC` of the covariance matrix. -/
def llfGradRestricted (beta : Option (Fin k → ℝ)) (e : LlfEnv N k) (dC : Matrix (Fin N) (Fin N) ℝ) : ℝ :=
  let total := e.sigma2 + e.noiseVar
  let g := total⁻¹ • gpGamma e.aux
  let Cinv := total⁻¹ • choInverse e.aux.L
  match beta with
  | none =>
    let w := e.aux.Lᵀ⁻¹ * e.aux.Q
    let term := w * wᵀ;
    -0.5 * ((∑ i, ∑ j, Cinv i j * dC i j) - g ⬝ᵥ (dC *ᵥ g) - ∑ i, ∑ j, term i j * dC i j)
  | some _ => -0.5 * ((∑ i, ∑ j, Cinv i j * dC i j) - g ⬝ᵥ (dC *ᵥ g))

/-- gpr.py:885: `dC` for a component of `theta` with derivative `dR` of the correlation matrix (that for `sigma2` is `R0`, line 887, that for
`noise_var` the identity, line 891). -/
def restrictedDTheta (e : LlfEnv N k) (dR : Matrix (Fin N) (Fin N) ℝ) : Matrix (Fin N) (Fin N) ℝ := (e.sigma2 + e.noiseVar) • dR

/-- gpr.py:1113-1123 `_obj_func(eval_grad=True)` for the minimiser: `llf` returns the likelihood and the gradient, or `none` for minus
infinity (with a zero gradient, line 982).  The first component `none` is plus infinity. -/
def searchObjective {p : ℕ} (llf : (Fin p → ℝ) → Option (ℝ × (Fin p → ℝ))) (u : Fin p → ℝ) : Option ℝ × (Fin p → ℝ) :=
  match llf (fun i => (10 : ℝ) ^ (u i)) with
  | none => (none, fun _ => 0)
  | some out => (some (-1 * out.1), fun i => -1 * out.2 i)

end

end Verif.Model
