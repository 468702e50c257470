import Mathlib.Probability.Distributions.Gaussian.Real

/-!
# What the acquisition functions should compute
-/
namespace Verif.Spec

open MeasureTheory ProbabilityTheory

/-- The predictive law at a point: normal with the predicted mean and variance. -/
noncomputable def predictive (mean var : ℝ) : Measure ℝ := gaussianReal mean var.toNNReal

/-- By how much the outcome `y` is better than `best`; negative if it is worse. -/
def gain (minimize : Bool) (best y : ℝ) : ℝ := if minimize then best - y else y - best

/-- The outcomes at least as good as `best`. -/
def atLeastAsGood (minimize : Bool) (best : ℝ) : Set ℝ := { y | 0 ≤ gain minimize best y }

/-- `E[max(gain, 0)]`. -/
noncomputable def expectedImprovement (minimize : Bool) (best : ℝ) (law : Measure ℝ) : ℝ :=
  ∫ y, max (gain minimize best y) 0 ∂law

/-- `E[exp(t (gain - 1)); gain ≥ 0]`. -/
noncomputable def momentOfImprovement (minimize : Bool) (best t : ℝ) (law : Measure ℝ) : ℝ :=
  ∫ y in atLeastAsGood minimize best, Real.exp (t * (gain minimize best y - 1)) ∂law

/-- `P(gain ≥ -slack)`. -/
noncomputable def probabilityOfImprovement (minimize : Bool) (best slack : ℝ) (law : Measure ℝ) : ℝ :=
  law.real { y | -slack ≤ gain minimize best y }

/-- `x` is a better outcome than `y`. -/
def BetterOutcome (minimize : Bool) (x y : ℝ) : Prop := if minimize then x < y else y < x

/-- The standard deviation below which `EI` takes a prediction as certain; `s2` is the process variance, if the model has one. -/
noncomputable def eiThreshold (s2 : Option ℝ) : ℝ :=
  match s2 with
  | some v => Real.sqrt v / 10 ^ 6
  | none => 1 / 10 ^ 10

end Verif.Spec
