import Verif.Model.SkGpr
import Verif.Spec.Gpr

/-!
# What is assumed of scikit-learn's regressor, and what its kernel should be
-/
namespace Verif.Spec

open Verif.Model Matrix

variable {n N : ℕ}

/-- What scikit-learn guarantees of a fitted regressor: positive kernel parameters (they are exponentials of the fitted `theta`), and `L_` a Cholesky
factor of the covariance matrix of the data plus the noise and the jitter `alpha=1e-8`. -/
structure FittedRegressor (g : SkGp n N) : Prop where
  scale_pos : ∀ k, 0 < g.lengthScale k
  sigma_pos : 0 < g.sigma2
  noise_pos : 0 < g.noise
  chol : IsCholesky (of (fun i j => skCov g (g.xTrain i) (g.xTrain j)) + (g.noise + 1 / 10 ^ 8) • (1 : Matrix (Fin N) (Fin N) ℝ)) g.L

/-- The regressor that training returns is fitted and has the kernel it was constructed with. -/
def TrainsRegressors (train : SkKernel → List (List ℝ) → List ℝ → Option (SkTrained n)) : Prop :=
  ∀ kernel X y t, train kernel X y = some t → t.gp.kernel = kernel ∧ FittedRegressor t.gp

/-- The `k`-th partial derivative of `f` at `x` is `v`. -/
def PartialDerivative (f : (Fin n → ℝ) → ℝ) (x : Fin n → ℝ) (k : Fin n) (v : ℝ) : Prop :=
  HasDerivAt (fun t => f (Function.update x k t)) v (x k)

end Verif.Spec
