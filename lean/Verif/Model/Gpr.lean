import Verif.Model.Kernels
import Mathlib.LinearAlgebra.Matrix.NonsingularInverse
import Mathlib.Analysis.SpecialFunctions.Log.Basic
import Mathlib.Data.Matrix.Mul

/-!
# Model of Gaussian-process regression: `bayes_optim/surrogate/gaussian_process/gpr.py` 355-417 (`fit`, without the search), 424-513
(`predict`), 537-576 (`gradient`), 784-811 (`compute_beta_gamma`, `_compute_aux_var`)

Numbers are reals.  There is one target column (`n_targets` = 1); several columns are treated one by one by the same formulas.
`scipy.linalg.cholesky` and `scipy.linalg.qr` are arguments.  `solve_triangular(A, b)` is `A⁻¹ b`: every `A` it is called with is
a Cholesky factor, the triangular factor of a QR decomposition, or the transpose of one of them, and the flag `lower` agrees
with the shape of `A` in every call.
-/
namespace Verif.Model

open Matrix

noncomputable section

variable {N k n : ℕ}

/-- `estimation_mode` (gpr.py:252-260) with the hyper-parameters that the mode needs besides `theta`. -/
inductive GpMode where
  | noiseless
  | noisy (sigma2 noiseVar : ℝ)
  | noiseEstim (alpha : ℝ)

/-- The matrix that is factorised (gpr.py:935, 952, 965-969), for the correlation matrix `R0` of the samples. -/
def gpMatrix (mode : GpMode) (R0 : Matrix (Fin N) (Fin N) ℝ) : Matrix (Fin N) (Fin N) ℝ :=
  match mode with
  | .noiseless => R0
  | .noisy sigma2 noiseVar => (sigma2 + noiseVar)⁻¹ • (sigma2 • R0 + noiseVar • (1 : Matrix (Fin N) (Fin N) ℝ))
  | .noiseEstim alpha => alpha • R0 + (1 - alpha) • (1 : Matrix (Fin N) (Fin N) ℝ)

/-- The triple of gpr.py:811 that later steps use; `Q` and `G` are zero (`None`) for a trend with given coefficients. -/
structure GpAux (N k : ℕ) where
  L : Matrix (Fin N) (Fin N) ℝ
  Ft : Matrix (Fin N) (Fin k) ℝ
  Yt : Fin N → ℝ
  Q : Matrix (Fin N) (Fin k) ℝ
  G : Matrix (Fin k) (Fin k) ℝ
  rho : Fin N → ℝ

/-- gpr.py:791-811 `_compute_aux_var`.  `beta = none` is a trend with coefficients to be estimated.  `F` are the basis functions of
the trend at the samples, so that `mean(X)` is `F beta`.  `none` is a LinAlgError. -/
def computeAux (chol : Matrix (Fin N) (Fin N) ℝ → Option (Matrix (Fin N) (Fin N) ℝ))
    (qr : Matrix (Fin N) (Fin k) ℝ → Matrix (Fin N) (Fin k) ℝ × Matrix (Fin k) (Fin k) ℝ)
    (R : Matrix (Fin N) (Fin N) ℝ) (F : Matrix (Fin N) (Fin k) ℝ) (beta : Option (Fin k → ℝ)) (y : Fin N → ℝ) :
    Option (GpAux N k) :=
  (chol R).map (fun L =>
    let Yt := L⁻¹ *ᵥ y
    match beta with
    | none =>
      let Ft := L⁻¹ * F
      let Q := (qr Ft).1
      let G := (qr Ft).2
      { L, Ft, Yt, Q, G, rho := Yt - (Q * Qᵀ) *ᵥ Yt }
    | some b => { L, Ft := 0, Yt, Q := 0, G := 0, rho := Yt - L⁻¹ *ᵥ (F *ᵥ b) })

/-- gpr.py:785-787: the coefficients of the trend. -/
def gpBeta (a : GpAux N k) (beta : Option (Fin k → ℝ)) : Fin k → ℝ :=
  match beta with
  | none => a.G⁻¹ *ᵥ (a.Qᵀ *ᵥ a.Yt)
  | some b => b

/-- gpr.py:788. -/
def gpGamma (a : GpAux N k) : Fin N → ℝ := a.Lᵀ⁻¹ *ᵥ a.rho

/-- gpr.py:490 `self.mean(X) + r.dot(self.gamma)`, for one point with basis functions `f` and correlations `r`. -/
def gpMean (a : GpAux N k) (beta : Option (Fin k → ℝ)) (f : Fin k → ℝ) (r : Fin N → ℝ) : ℝ :=
  f ⬝ᵥ gpBeta a beta + r ⬝ᵥ gpGamma a

/-- gpr.py:496-500: the vector `u`. -/
def gpU (a : GpAux N k) (beta : Option (Fin k → ℝ)) (f : Fin k → ℝ) (r : Fin N → ℝ) : Fin k → ℝ :=
  match beta with
  | none => a.Gᵀ⁻¹ *ᵥ (a.Ftᵀ *ᵥ (a.L⁻¹ *ᵥ r) - f)
  | some _ => 0

/-- gpr.py:493-506: the mean squared error before negative values are set to zero. -/
def gpMseRaw (a : GpAux N k) (beta : Option (Fin k → ℝ)) (sigma2 : ℝ) (f : Fin k → ℝ) (r : Fin N → ℝ) : ℝ :=
  (1 - ∑ i, (a.L⁻¹ *ᵥ r) i ^ 2 + ∑ p, gpU a beta f r p ^ 2) * sigma2

/-- gpr.py:508-510: negative values are set to zero. -/
def gpMse (a : GpAux N k) (beta : Option (Fin k → ℝ)) (sigma2 : ℝ) (f : Fin k → ℝ) (r : Fin N → ℝ) : ℝ :=
  if gpMseRaw a beta sigma2 f r < 0 then 0 else gpMseRaw a beta sigma2 f r

/-- A fitted model and its prediction with `eval_MSE=True` at one point: the mean and the mean squared error. -/
def gpPredict (chol : Matrix (Fin N) (Fin N) ℝ → Option (Matrix (Fin N) (Fin N) ℝ))
    (qr : Matrix (Fin N) (Fin k) ℝ → Matrix (Fin N) (Fin k) ℝ × Matrix (Fin k) (Fin k) ℝ) (mode : GpMode)
    (R0 : Matrix (Fin N) (Fin N) ℝ) (F : Matrix (Fin N) (Fin k) ℝ) (beta : Option (Fin k → ℝ)) (sigma2 : ℝ) (y : Fin N → ℝ)
    (f : Fin k → ℝ) (r : Fin N → ℝ) : Option (ℝ × ℝ) :=
  (computeAux chol qr (gpMatrix mode R0) F beta y).map (fun a => (gpMean a beta f r, gpMse a beta sigma2 f r))

/-- gpr.py:561 `y_dx`: the gradient of the mean, for the Jacobian `fDx` (one row for each basis function) and the derivatives
`rDx` (`corr_dx` transposed: one row for each sample). -/
def gpMeanDx (a : GpAux N k) (beta : Option (Fin k → ℝ)) (fDx : Matrix (Fin k) (Fin n) ℝ) (rDx : Matrix (Fin N) (Fin n) ℝ) :
    Fin n → ℝ :=
  gpBeta a beta ᵥ* fDx + gpGamma a ᵥ* rDx

/-- gpr.py:563-575 `mse_dx`. -/
def gpMseDx (a : GpAux N k) (beta : Option (Fin k → ℝ)) (sigma2 : ℝ) (f : Fin k → ℝ) (r : Fin N → ℝ)
    (fDx : Matrix (Fin k) (Fin n) ℝ) (rDx : Matrix (Fin N) (Fin n) ℝ) : Fin n → ℝ :=
  let rt := a.L⁻¹ *ᵥ r
  let rtDx := a.L⁻¹ * rDx
  let simple : Fin n → ℝ := (-1 : ℝ) • (rt ᵥ* rtDx)
  let total : Fin n → ℝ :=
    match beta with
    | none =>
      let u := a.Ftᵀ *ᵥ rt - f
      let uDx := a.Ftᵀ * rtDx - fDx
      simple + (u ᵥ* (a.Ftᵀ * a.Ft)⁻¹) ᵥ* uDx
    | some _ => simple
  (2 * sigma2) • total

end

end Verif.Model
