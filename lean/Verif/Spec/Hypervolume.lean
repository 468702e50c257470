import Mathlib.MeasureTheory.Measure.Lebesgue.Basic

/-!
# Specification of the hypervolume

The region dominated by a set of objective vectors (maximisation) and bounded by a reference point is the union of the
boxes between the reference point and the vectors.  Its hypervolume is its Lebesgue measure.
-/
namespace Verif.Spec
open MeasureTheory

/-- The vectors at least as good as the reference point that some vector of `Y` weakly dominates. -/
def dominatedRegion {m : ℕ} (ref : Fin m → ℝ) (Y : List (Fin m → ℝ)) : Set (Fin m → ℝ) :=
  {v | (∀ k, ref k ≤ v k) ∧ ∃ y ∈ Y, ∀ k, v k ≤ y k}

/-- The hypervolume. -/
noncomputable def hypervolume {m : ℕ} (ref : Fin m → ℝ) (Y : List (Fin m → ℝ)) : ℝ :=
  (volume (dominatedRegion ref Y)).toReal

end Verif.Spec
