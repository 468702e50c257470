import Verif.Model.MiesStrength
import Mathlib.Probability.Distributions.Gaussian.Real
import Mathlib.Probability.HasLaw

/-! # Specification for C166 -/
namespace Verif.Spec
open Verif.Model MeasureTheory ProbabilityTheory
open scoped NNReal ENNReal

/-- How many variables have a type. -/
def variablesOf (t : VType) (ks : List Kind) : ℕ := (ks.map Kind.vtype).count t

/-- The variance of the logarithm of a step size: a common factor with variance `1/(2n)` and, if there are several variables, an individual one with variance `1/(2 √n)`. -/
noncomputable def logVariance (n : ℕ) : ℝ≥0 := if n = 1 then 1 / 2 else 1 / (2 * n) + 1 / (2 * NNReal.sqrt n)

/-- The logarithm of the odds. -/
noncomputable def logOdds (p : ℝ) : ℝ := Real.log (p / (1 - p))

/-- A random number of trials up to the first success, each with probability `p`. -/
def TrialsUntilSuccess {Ω : Type*} [MeasurableSpace Ω] (P : Measure Ω) (p : ℝ) (g : Ω → ℕ) : Prop :=
  Measurable g ∧ ∀ k, P {ω | g ω = k + 1} = ENNReal.ofReal ((1 - p) ^ k * p)

end Verif.Spec
