import Mathlib.MeasureTheory.Integral.Bochner.Basic

/-!
# Random numbers of which only the first two moments matter
-/
namespace Verif.Spec

open MeasureTheory

variable {Ω : Type*} [MeasurableSpace Ω] {d l : ℕ}

/-- The entries of `z` have mean 0 and variance 1 and are uncorrelated. -/
structure UnitNoise (P : Measure Ω) (z : Ω → Fin l → Fin d → ℝ) : Prop where
  integrable : ∀ j a, Integrable (fun ω => z ω j a) P
  mean : ∀ j a, ∫ ω, z ω j a ∂P = 0
  integrable_mul : ∀ j a k b, Integrable (fun ω => z ω j a * z ω k b) P
  second : ∀ j a k b, ∫ ω, z ω j a * z ω k b ∂P = if j = k ∧ a = b then 1 else 0

/-- The random vector `p` has second moments and is uncorrelated with `z`. -/
structure Unrelated (P : Measure Ω) (p : Ω → Fin d → ℝ) (z : Ω → Fin l → Fin d → ℝ) : Prop where
  square : ∀ a b, Integrable (fun ω => p ω a * p ω b) P
  integrable : ∀ a j b, Integrable (fun ω => p ω a * z ω j b) P
  mean : ∀ a j b, ∫ ω, p ω a * z ω j b ∂P = 0

end Verif.Spec
