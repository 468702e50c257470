import Verif.Model.Kernels

/-!
# Model of the prior covariance: `bayes_optim/surrogate/gaussian_process/gpr.py` 318-353 (`prior_cov`)

The points have the number of features of the training data (lines 328-338 raise ValueError otherwise).
-/
namespace Verif.Model

noncomputable section

variable {n : ℕ}

/-- The argument `X2`: left out, a list of points, or a numpy array with one point for each row. -/
inductive PointsArg (n : ℕ) where
  | unset
  | points (X : List (Fin n → ℝ))
  | array (X : List (Fin n → ℝ))

open Classical in
/-- Line 321 `np.atleast_2d(X2) if X2 else X1`.  The truth value of an empty list is False; that of an array with one element is that of the element, that of an
array with more elements is ValueError (`none`). -/
def secondPoints (X1 : List (Fin n → ℝ)) : PointsArg n → Option (List (Fin n → ℝ))
  | .unset => some X1
  | .points X => some (if X = [] then X1 else X)
  | .array X =>
    if X.length * n = 0 then some X1
    else if X.length * n = 1 then some (if ∀ x ∈ X, ∀ k, x k = 0 then X1 else X)
    else none

/-- Lines 345-346: `R_prior`, one row for each point of `X1`; `c` is the correlation function of the differences of coordinates. -/
def priorCorr (c : (Fin n → ℝ) → ℝ) (X1 X2 : List (Fin n → ℝ)) : List (List ℝ) := X1.map fun x => X2.map fun z => c (absDiff x z)

/-- Lines 351-352 for one entry: `sqrt((C_prior**2.0).sum(axis=0) / n_targets)`. -/
def poolTargets (sigma2 : List ℝ) (r : ℝ) : ℝ := Real.sqrt ((sigma2.map fun s => (s * r) ^ 2).sum / sigma2.length)

/-- Lines 318-353 `prior_cov`; `sigma2` has an entry for each target. -/
def priorCov (c : (Fin n → ℝ) → ℝ) (sigma2 : List ℝ) (X1 : List (Fin n → ℝ)) (X2 : PointsArg n) (corrOnly : Bool) : Option (List (List ℝ)) :=
  (secondPoints X1 X2).map fun X => if corrOnly then priorCorr c X1 X else (priorCorr c X1 X).map fun row => row.map (poolTargets sigma2)

end

end Verif.Model
