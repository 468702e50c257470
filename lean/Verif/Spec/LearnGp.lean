import Verif.Spec.Learner
import Verif.Spec.Gpr
import Verif.Model.Gpr

/-! # Specification for C159: optimisation with a Gaussian process without noise -/
namespace Verif.Spec
open Verif.Model Matrix

/-- The coordinates of a point with real variables. -/
def coordinates (n : ℕ) (x : Row) (l : Fin n) : ℝ :=
  match x[l.val]? with
  | some (.real v) => v
  | _ => 0

/-- `predict` is the prediction (mean and mean squared error) of a Gaussian process without noise fitted to the data `t`: some correlation function with some positive
parameters, some trend, given or estimated, and some variance. -/
def NoiselessGp (n : ℕ) (t : List (Row × ℝ)) (predict : Row → ℝ × ℝ) : Prop :=
  ∃ (k : ℕ) (chol : Matrix (Fin t.length) (Fin t.length) ℝ → Option (Matrix (Fin t.length) (Fin t.length) ℝ))
    (qr : Matrix (Fin t.length) (Fin k) ℝ → Matrix (Fin t.length) (Fin k) ℝ × Matrix (Fin k) (Fin k) ℝ)
    (name : CorrName) (theta : List ℝ) (c : (Fin n → ℝ) → ℝ) (basis : (Fin n → ℝ) → Fin k → ℝ) (beta : Option (Fin k → ℝ)) (sigma2 : ℝ),
    CholeskyRoutine chol ∧ QrRoutine qr ∧ (∀ v ∈ theta, 0 < v) ∧ (∀ d, corr name theta d = some (c d)) ∧
    (beta = none → FullRank (of fun i : Fin t.length => basis (coordinates n t[i].1))) ∧
    (chol (of (correlationMatrix c (fun i : Fin t.length => coordinates n t[i].1)))).isSome ∧
    ∀ x, gpPredict chol qr .noiseless (of (correlationMatrix c (fun i : Fin t.length => coordinates n t[i].1))) (of fun i : Fin t.length => basis (coordinates n t[i].1))
      beta sigma2 (fun i => t[i].2) (basis (coordinates n x)) (corrVector c (fun i : Fin t.length => coordinates n t[i].1) (coordinates n x)) = some (predict x)

end Verif.Spec
