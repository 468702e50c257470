import Mathlib.Data.Real.Basic
import Mathlib.Algebra.BigOperators.Fin

/-!
# Specification vocabulary for PCA-BO
-/
namespace Verif.Spec

variable {d r : ℕ}

/-- The rows are of length one and perpendicular to each other. -/
def OrthonormalRows (c : Fin r → Fin d → ℝ) : Prop := ∀ i j, ∑ k, c i k * c j k = if i = j then 1 else 0

/-- `x` lies in the closed box. -/
def WithinBox (lo hi x : Fin d → ℝ) : Prop := ∀ k, lo k ≤ x k ∧ x k ≤ hi k

/-- `y` is better than `z`. -/
def BetterValue (minimize : Bool) (y z : ℝ) : Prop := if minimize then y < z else z < y

end Verif.Spec
