import Mathlib.Analysis.SpecialFunctions.Log.Basic
import Mathlib.Analysis.Real.Pi.Bounds

/-!
# Specification of accuracy scores
-/
namespace Verif.Spec

noncomputable section

/-- The average of a list of numbers. -/
def average (l : List ℝ) : ℝ := l.sum / l.length

/-- The variance of the numbers in a list. -/
def populationVariance (l : List ℝ) : ℝ := average (l.map fun y => (y - average l) ^ 2)

/-- The mean squared error of predictions. -/
def averageSquaredError (test pred : List ℝ) : ℝ := average (List.zipWith (fun t p => (p - t) ^ 2) test pred)

/-- The density at `t` of the normal distribution with the given mean and variance. -/
def normalDensity (mean variance t : ℝ) : ℝ := (Real.sqrt (2 * Real.pi * variance))⁻¹ * Real.exp (-(t - mean) ^ 2 / (2 * variance))

/-- The log loss of a normal prediction. -/
def logLoss (mean variance t : ℝ) : ℝ := -Real.log (normalDensity mean variance t)

/-- The numbers are not all equal. -/
def NotConstant (l : List ℝ) : Prop := ∃ a ∈ l, ∃ b ∈ l, a ≠ b

end

end Verif.Spec
