import Verif.Model.GprShared

/-!
# What it means for Gaussian processes not to influence each other
-/
namespace Verif.Spec

open Matrix Verif.Model

variable {k : ℕ} {P : Type*}

/-- The operation builds a model on trend object `t`. -/
def BuildsOn (t : ℕ) : GpOp k P → Prop
  | .make _ t' => t' = t
  | .fit _ _ => False

/-- The operation builds a model under the name `n`. -/
def BuildsAs (n : ℕ) : GpOp k P → Prop
  | .make n' _ => n' = n
  | .fit _ _ => False

/-- The operation trains the model `n`. -/
def TrainsModel (n : ℕ) : GpOp k P → Prop
  | .make _ _ => False
  | .fit n' _ => n' = n

/-- The prediction and its error at `p` by a single model with trend coefficients `beta` (`none`: to be estimated) and the training data `d`. -/
noncomputable def trainedAlone (chol : ∀ N, Matrix (Fin N) (Fin N) ℝ → Option (Matrix (Fin N) (Fin N) ℝ))
    (qr : ∀ N, Matrix (Fin N) (Fin k) ℝ → Matrix (Fin N) (Fin k) ℝ × Matrix (Fin k) (Fin k) ℝ) (beta : Option (Fin k → ℝ))
    (d : FitInput k P) (f : P → Fin k → ℝ) (p : P) : Option (ℝ × ℝ) :=
  gpPredict (chol d.N) (qr d.N) (d.search beta).mode (d.search beta).R0 d.F beta (d.search beta).sigma2 d.y (f p) ((d.search beta).r p)

/-- The coefficients `b` fit the data best: they are the generalised least squares estimate for the matrix that the search arrives at
when the coefficients are estimated. -/
def BestTrend (d : FitInput k P) (b : Fin k → ℝ) : Prop :=
  d.Fᵀ *ᵥ ((gpMatrix (d.search none).mode (d.search none).R0)⁻¹ *ᵥ (d.y - d.F *ᵥ b)) = 0

end Verif.Spec
