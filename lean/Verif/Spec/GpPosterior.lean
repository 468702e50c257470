import Verif.Spec.Gpr
import Verif.Spec.Acquisition
import Mathlib.Probability.Distributions.Gaussian.HasGaussianLaw.Basic

/-!
# Gaussian processes
-/
namespace Verif.Spec

open Matrix MeasureTheory ProbabilityTheory

variable {N k : ℕ}

/-- The process of `IsProcess` is Gaussian: the observations and the value at the new point are jointly normal. -/
structure IsGaussianModel {Ω : Type*} [MeasurableSpace Ω] (P : Measure Ω) (Y : Fin N → Ω → ℝ) (Z : Ω → ℝ)
    (F : Matrix (Fin N) (Fin k) ℝ) (f beta : Fin k → ℝ) (R : Matrix (Fin N) (Fin N) ℝ) (r : Fin N → ℝ) (sigma2 noise : ℝ) : Prop
    extends IsProcess P Y Z F f beta R r sigma2 noise where
  joint : HasGaussianLaw (fun ω => ((fun i => Y i ω), Z ω)) P

/-- `best` is the best of the values `y`. -/
def IsBest (minimize : Bool) (y : Fin N → ℝ) (best : ℝ) : Prop := (∃ i, y i = best) ∧ ∀ i, ¬ BetterOutcome minimize (y i) best

end Verif.Spec
