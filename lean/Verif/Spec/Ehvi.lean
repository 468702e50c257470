import Verif.Spec.Hypervolume
import Mathlib.Probability.Distributions.Gaussian.Real
import Mathlib.MeasureTheory.Constructions.Pi

/-!
# Specification of the expected hypervolume improvement
-/
namespace Verif.Spec

open MeasureTheory ProbabilityTheory

variable {m : ℕ}

/-- By how much one further outcome raises the hypervolume (objectives maximised). -/
noncomputable def hypervolumeGain (ref : Fin m → ℝ) (Y : List (Fin m → ℝ)) (y : Fin m → ℝ) : ℝ :=
  hypervolume ref (Y ++ [y]) - hypervolume ref Y

/-- An outcome whose objectives are counted as at most `cap`. -/
noncomputable def cappedAt (cap : ℝ) (y : Fin m → ℝ) : Fin m → ℝ := fun k => min (y k) cap

/-- Independent normal objectives with the given means and variances. -/
noncomputable def independentNormals (mean variance : Fin m → ℝ) : Measure (Fin m → ℝ) :=
  Measure.pi (fun k => gaussianReal (mean k) (variance k).toNNReal)

/-- The expected gain in hypervolume of one further outcome with independent normal objectives, each counted as at
most `cap`. -/
noncomputable def expectedGain (cap : ℝ) (ref : Fin m → ℝ) (Y : List (Fin m → ℝ)) (mean variance : Fin m → ℝ) : ℝ :=
  ∫ y, hypervolumeGain ref Y (cappedAt cap y) ∂independentNormals mean variance

end Verif.Spec
