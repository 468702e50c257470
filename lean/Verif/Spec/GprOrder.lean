import Verif.Model.Kernels
import Verif.Model.Trend
import Mathlib.Data.Matrix.Mul
import Mathlib.Logic.Equiv.Defs

/-!
# The same data written down differently: another order of the observations, another order, origin, direction or unit of the variables
-/
namespace Verif.Spec

open Verif.Model

variable {n : ℕ}

/-- The point `x` in other coordinates: coordinate `k` is the old coordinate `τ k` in another unit (`s k`, negative for the opposite
direction) and from another origin. -/
def inCoordinates (τ : Equiv.Perm (Fin n)) (s t : Fin n → ℝ) (x : Fin n → ℝ) : Fin n → ℝ := fun k => s k * x (τ k) + t k

/-- The basis functions of a trend at a point (C41 says which monomials these are). -/
noncomputable def trendBasis (kind : TrendKind) (x : Fin n → ℝ) : Fin (trendDim kind n) → ℝ :=
  fun p => (trendRow kind n (List.ofFn x)).getD p.val 0

/-- The power of a distance that a parameter is multiplied with. -/
noncomputable def distancePower (n : ℕ) (name : CorrName) (theta : List ℝ) : ℝ :=
  match name with
  | .absoluteExponential => 1
  | .squaredExponential => 2
  | .generalizedExponential => theta.getD n 0
  | .cubic => 1
  | .matern _ => 2

/-- The parameter of coordinate `k`: one for all coordinates, or one for each. -/
noncomputable def parameterOf (theta : List ℝ) (k : ℕ) : ℝ := if theta.length = 1 then theta.getD 0 0 else theta.getD k 0

/-- `theta'` are the parameters `theta` in the new coordinates. -/
structure SameScales (name : CorrName) (τ : Equiv.Perm (Fin n)) (s : Fin n → ℝ) (theta theta' : List ℝ) : Prop where
  length : theta'.length = theta.length
  exponent : theta'.getD n 0 = theta.getD n 0 ∨ name ≠ .generalizedExponential
  parameter : ∀ k : Fin n, parameterOf theta (τ k).val = parameterOf theta' k.val * |s k| ^ distancePower n name theta

end Verif.Spec
