import Verif.Model.SamplerLaw
import Mathlib.Probability.UniformOn
import Mathlib.MeasureTheory.Measure.Lebesgue.Basic
import Mathlib.Probability.Process.Filtration
import Mathlib.Probability.Independence.Basic

/-!
# What a random walk that samples from a distribution must do
-/
namespace Verif.Spec
open MeasureTheory ProbabilityTheory Verif.Model

/-- The rows of a space. -/
def RowOf (ks : List Kind) (x : List Val) : Prop := List.Forall₂ (fun k v => k.contains v) ks x

/-- The probability of the row `x` under the density `exp ∘ ℓ`, among the rows `S`. -/
noncomputable def targetProb (S : Finset (List Val)) (ℓ : List Val → ℝ) (x : List Val) : ℝ := Real.exp (ℓ x) / ∑ z ∈ S, Real.exp (ℓ z)

/-- A random number in `[0, 1)`, a level number below `L` and another random number in `[0, 1)`, independent and uniform. -/
noncomputable def drawLaw (L : ℕ) : Measure (ℝ × ℕ × ℝ) :=
  (volume.restrict (Set.Ico (0 : ℝ) 1)).prod ((uniformOn (Set.Iio L)).prod (volume.restrict (Set.Ico (0 : ℝ) 1)))

/-- A space of ordinal, discrete and Boolean variables whose level lists numpy keeps as they are. -/
structure Categorical (ks : List Kind) : Prop where
  kind : ∀ k ∈ ks, k.vtype = .ordinal ∨ k.vtype = .discrete ∨ k.vtype = .bool
  kept : ∀ k ∈ ks, npArray k.levels = k.levels
  nodup : ∀ k ∈ ks, k.levels.Nodup
  nonempty : ∀ k ∈ ks, k.levels ≠ []

/-- The draws of one row, `D m` being those of the `m`-th cell update: all of them follow the announced laws, and each is independent of everything before. -/
structure FreshDraws {Ω : Type*} {mΩ : MeasurableSpace Ω} (P : Measure Ω) (ks : List Kind) (row : Ω → List Val) (D : ℕ → Ω → ℝ × ℕ × ℝ) (n : ℕ) where
  past : Filtration ℕ mΩ
  row_past : ∀ x, MeasurableSet[past 0] {ω | row ω = x}
  draw_past : ∀ m < n, Measurable[past (m + 1)] (D m)
  fresh : ∀ m < n, Indep (past m) (MeasurableSpace.comap (D m) inferInstance) P
  law : ∀ m < n, ∀ k, ks[m % ks.length]? = some k → P.map (D m) = drawLaw k.levels.length

end Verif.Spec
