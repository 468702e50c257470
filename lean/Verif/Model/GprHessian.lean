import Verif.Model.Gpr
import Verif.Model.Trend

/-!
# Model of the Hessian of the posterior mean: `bayes_optim/surrogate/gaussian_process/gpr.py` 578-598 (`Hessian`) with 664-734
(`corr_Hessian`) and `bayes_optim/surrogate/gaussian_process/trend.py` 88-91, 113-116, 141-142

There is one target column, as in `Verif.Model.Gpr`; for several the code returns the matrix of the first one (line 598).
-/
namespace Verif.Model

open Matrix

noncomputable section

variable {N n : ℕ}

/-- The basis functions of a trend at one point (trend.py:79-82, 103-106, 130-136), as a vector. -/
def trendBasis (kind : TrendKind) (x : Fin n → ℝ) : Fin (trendDim kind n) → ℝ :=
  fun p => (trendRow kind n (List.ofFn x)).getD p.val 0

/-- trend.py:88-91, 113-116, 141-142 `Hessian` at a point with `n_feature` coordinates; `none` is NotImplementedError. -/
def trendHessian (kind : TrendKind) (_x : Fin n → ℝ) : Option (Fin n → Fin n → Fin (trendDim kind n) → ℝ) :=
  match kind with
  | .quadratic => none
  | .constant | .linear => some fun _ _ _ => 0

open Classical in
/-- `r_dx2.dot(self.gamma)` (gpr.py:596-598), as the array of shape `(n, n)` it contributes to the sum of line 598.
For the squared exponential it is the product with `corr_Hessian`.
For the Matérn correlation `corr_Hessian` assigns no result and raises UnboundLocalError (line 734), except at a sample: the quotient by
a zero distance is a warning, after which the result is an array of zeros of shape `(n, N)` (lines 731-732), which is broadcast.
For the absolute exponential (lines 718-728), `r` has one row (line 595), so that `r[i]` raises IndexError for the second sample.  A
coordinate of the first sample equal to that of the point gives 0 / 0 before that, and zeros as above.  With one sample the array
of shape `(1, n, n)` can be multiplied with `gamma` of shape `(1, 1)` only for `n = 1`.
The other names assign no result. -/
def corrHessianDot (name : CorrName) (theta : List ℝ) (X : Fin N → Fin n → ℝ) (x : Fin n → ℝ) (r gamma : Fin N → ℝ) :
    Option (Fin n → Fin n → ℝ) :=
  match name with
  | .squaredExponential => (corrHessian .squaredExponential theta X x r).map fun H k l => H k l ⬝ᵥ gamma
  | .matern _ => if ∃ i, scaledDist theta (fun k => x k - X i k) = 0 then some fun _ _ => 0 else none
  | .absoluteExponential =>
    if ∃ (i : Fin N) (k : Fin n), i.val = 0 ∧ x k = X i k then some fun _ _ => 0
    else if N = 1 ∧ n = 1 then
      some fun k _ => ∑ i, (-1 * (r i * (thetaAt theta k.val * |x k - X i k|) +
        -1 * r i * (thetaAt theta k.val * (SignType.sign (x k - X i k) : ℝ)) * (thetaAt theta k.val * (SignType.sign (x k - X i k) : ℝ)))) * gamma i
    else none
  | .generalizedExponential | .cubic => none

/-- gpr.py:578-598 `Hessian` at a point with the right number of coordinates, for a fitted model `a` whose correlation function is `c`.
`none` is an exception. -/
def gpHessian (kind : TrendKind) (name : CorrName) (theta : List ℝ) (c : (Fin n → ℝ) → ℝ) (X : Fin N → Fin n → ℝ)
    (a : GpAux N (trendDim kind n)) (beta : Option (Fin (trendDim kind n) → ℝ)) (x : Fin n → ℝ) : Option (Fin n → Fin n → ℝ) :=
  (trendHessian kind x).bind fun f2 =>
    (corrHessianDot name theta X x (corrVector c X x) (gpGamma a)).map fun r2 k l => f2 k l ⬝ᵥ gpBeta a beta + r2 k l

end

end Verif.Model
