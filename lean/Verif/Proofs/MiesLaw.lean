import Verif.Spec.MiesLaw
import Verif.Proofs.MiesStrength
import Mathlib.Analysis.SpecificLimits.Normed
import Mathlib.Probability.Independence.Basic

/-! # Lemmas about the laws of the mutations of MIES -/
namespace Verif.Proofs
open Verif.Model Verif.Spec MeasureTheory ProbabilityTheory
open scoped NNReal ENNReal

theorem countReal_eq (ks : List Kind) : countReal ks = variablesOf .real ks := by
  unfold countReal countType variablesOf
  rw [List.count_eq_countP, List.countP_map, List.countP_eq_length_filter]
  rfl

theorem countInteger_eq (ks : List Kind) : countInteger ks = variablesOf .integer ks := by
  unfold countInteger countType variablesOf
  rw [List.count_eq_countP, List.countP_map, List.countP_eq_length_filter]
  rfl

theorem countCategorical_eq (ks : List Kind) : countCategorical ks = ks.length - variablesOf .real ks - variablesOf .integer ks := by
  have h : ks.length = variablesOf .real ks + variablesOf .integer ks + countCategorical ks := by
    unfold variablesOf countCategorical countType
    induction ks with
    | nil => rfl
    | cons k ks ih =>
      cases hk : k.vtype <;> simp [hk] at ih ⊢ <;> omega
  omega

/-- The upper half of the double sum, for one value of the first number. -/
theorem upper_sum {q : ℝ} (h0 : 0 ≤ q) (h1 : q < 1) (i : ℕ) :
    ∑' k : ℕ, ((k - i : ℕ) : ℝ≥0∞) * ENNReal.ofReal (q ^ k * (1 - q)) = ENNReal.ofReal (q ^ i * (q / (1 - q))) := by
  have hq : 0 ≤ 1 - q := by linarith
  have hsum : HasSum (fun d : ℕ => (d : ℝ) * (q ^ (d + i) * (1 - q))) (q ^ i * (q / (1 - q))) := by
    have h := (hasSum_coe_mul_geometric_of_norm_lt_one (r := q) (by rw [Real.norm_of_nonneg h0]; exact h1)).mul_left (q ^ i * (1 - q))
    have h2 : q ^ i * (1 - q) * (q / (1 - q) ^ 2) = q ^ i * (q / (1 - q)) := by
      have : (1 - q) ≠ 0 := by linarith
      field_simp
    rw [h2] at h
    have h3 : (fun d : ℕ => (d : ℝ) * (q ^ (d + i) * (1 - q))) = fun d : ℕ => q ^ i * (1 - q) * ((d : ℝ) * q ^ d) := by
      funext d
      rw [pow_add]
      ring
    rw [h3]
    exact h
  have h5 := Summable.sum_add_tsum_nat_add' (f := fun k : ℕ => ((k - i : ℕ) : ℝ≥0∞) * ENNReal.ofReal (q ^ k * (1 - q))) (k := i) ENNReal.summable
  rw [← h5, ← hsum.tsum_eq, ENNReal.ofReal_tsum_of_nonneg (fun d => by positivity) hsum.summable]
  have h4 : ∑ k ∈ Finset.range i, ((k - i : ℕ) : ℝ≥0∞) * ENNReal.ofReal (q ^ k * (1 - q)) = 0 := by
    apply Finset.sum_eq_zero
    intro k hk
    rw [Nat.sub_eq_zero_of_le (Finset.mem_range.1 hk).le]
    simp
  rw [h4, zero_add]
  refine tsum_congr fun d => ?_
  rw [Nat.add_sub_cancel, ENNReal.ofReal_mul (p := (d : ℝ)) (Nat.cast_nonneg d), ENNReal.ofReal_natCast]

theorem half_sum {q : ℝ} (h0 : 0 ≤ q) (h1 : q < 1) :
    ∑' i : ℕ, ∑' k : ℕ, ((k - i : ℕ) : ℝ≥0∞) * ENNReal.ofReal (q ^ k * (1 - q)) * ENNReal.ofReal (q ^ i * (1 - q)) = ENNReal.ofReal (q / (1 - q ^ 2)) := by
  have hq : 0 ≤ 1 - q := by linarith
  have hq2 : q ^ 2 < 1 := by nlinarith
  have hsum : HasSum (fun i : ℕ => q * (q ^ 2) ^ i) (q / (1 - q ^ 2)) := by
    rw [div_eq_mul_inv]
    exact (hasSum_geometric_of_lt_one (by positivity) hq2).mul_left q
  rw [← hsum.tsum_eq, ENNReal.ofReal_tsum_of_nonneg (fun d => by positivity) hsum.summable]
  refine tsum_congr fun i => ?_
  rw [ENNReal.tsum_mul_right, upper_sum h0 h1, ← ENNReal.ofReal_mul (by positivity)]
  congr 1
  have : (1 - q) ≠ 0 := by linarith
  field_simp
  ring

theorem abs_parts (i k : ℕ) : ENNReal.ofReal |(i : ℝ) - k| = ((k - i : ℕ) : ℝ≥0∞) + ((i - k : ℕ) : ℝ≥0∞) := by
  rcases le_total i k with h | h
  · rw [abs_of_nonpos (by simpa using h), Nat.sub_eq_zero_of_le h, Nat.cast_zero, add_zero, neg_sub, ← Nat.cast_sub h, ENNReal.ofReal_natCast]
  · rw [abs_of_nonneg (by simpa using h), Nat.sub_eq_zero_of_le h, Nat.cast_zero, zero_add, ← Nat.cast_sub h, ENNReal.ofReal_natCast]

theorem double_sum {q : ℝ} (h0 : 0 ≤ q) (h1 : q < 1) :
    ∑' i : ℕ, ∑' k : ℕ, ENNReal.ofReal |(i : ℝ) - k| * ENNReal.ofReal (q ^ k * (1 - q)) * ENNReal.ofReal (q ^ i * (1 - q)) = ENNReal.ofReal (2 * q / (1 - q ^ 2)) := by
  have hq2 : 0 < 1 - q ^ 2 := by nlinarith
  simp_rw [abs_parts, add_mul, ENNReal.tsum_add]
  rw [half_sum h0 h1, ENNReal.tsum_comm]
  have h2 : ∑' k : ℕ, ∑' i : ℕ, ((i - k : ℕ) : ℝ≥0∞) * ENNReal.ofReal (q ^ k * (1 - q)) * ENNReal.ofReal (q ^ i * (1 - q)) = ENNReal.ofReal (q / (1 - q ^ 2)) := by
    rw [← half_sum h0 h1]
    exact tsum_congr fun k => tsum_congr fun i => mul_right_comm _ _ _
  rw [h2, ← ENNReal.ofReal_add (by positivity) (by positivity)]
  congr 1
  ring

/-- The parameter of the geometric draws is the one for which the mean absolute difference is the strength over the number of variables. -/
theorem geometricPar_solves {N : ℕ} {eta : ℝ} (h : 0 < eta / N) : 2 * (1 - geometricPar N eta) / (1 - (1 - geometricPar N eta) ^ 2) = eta / N := by
  unfold geometricPar
  generalize eta / N = m at h
  have hr : Real.sqrt (1 + m ^ 2) ^ 2 = 1 + m ^ 2 := Real.sq_sqrt (by positivity)
  have hr0 : 0 ≤ Real.sqrt (1 + m ^ 2) := Real.sqrt_nonneg _
  generalize Real.sqrt (1 + m ^ 2) = r at hr hr0
  have h1 : (1 + r) ≠ 0 := by linarith
  have h2 : 1 - (m / (1 + r)) ^ 2 = 2 / (1 + r) := by
    field_simp
    nlinarith
  rw [sub_sub_cancel, h2]
  field_simp

variable {Ω : Type*} [MeasurableSpace Ω] {P : Measure Ω} [IsProbabilityMeasure P]

theorem trials_pos {p : ℝ} (h0 : 0 < p) (h1 : p < 1) {g : Ω → ℕ} (hg : TrialsUntilSuccess P p g) : P {ω | g ω = 0} = 0 := by
  have hsum : ∑' k : ℕ, P {ω | g ω = k} = 1 := by
    rw [← measure_iUnion]
    · rw [← measure_univ (μ := P)]
      congr 1
      ext ω
      simp
    · intro a b hab
      rw [Function.onFun, Set.disjoint_left]
      rintro ω rfl hb
      exact hab hb
    · exact fun k => hg.1 (measurableSet_singleton k)
  rw [tsum_eq_zero_add' ENNReal.summable] at hsum
  have hrest : ∑' k : ℕ, P {ω | g ω = k + 1} = 1 := by
    simp_rw [hg.2]
    have h := (hasSum_geometric_of_lt_one (r := 1 - p) (by linarith) (by linarith)).mul_right p
    rw [← ENNReal.ofReal_tsum_of_nonneg (fun k => mul_nonneg (pow_nonneg (by linarith) _) h0.le) h.summable, h.tsum_eq, sub_sub_cancel, inv_mul_cancel₀ h0.ne', ENNReal.ofReal_one]
  rw [hrest] at hsum
  by_contra hne
  have : (1 : ℝ≥0∞) < P {ω | g ω = 0} + 1 := by
    rw [add_comm]
    exact ENNReal.lt_add_right ENNReal.one_ne_top hne
  rw [hsum] at this
  exact lt_irrefl _ this

omit [IsProbabilityMeasure P] in
theorem trials_map {p : ℝ} {g : Ω → ℕ} (hg : TrialsUntilSuccess P p g) (k : ℕ) : P.map g {k + 1} = ENNReal.ofReal ((1 - p) ^ k * p) := by
  rw [Measure.map_apply hg.1 (measurableSet_singleton _)]
  exact hg.2 k

theorem trials_map_zero {p : ℝ} (h0 : 0 < p) (h1 : p < 1) {g : Ω → ℕ} (hg : TrialsUntilSuccess P p g) : P.map g {0} = 0 := by
  rw [Measure.map_apply hg.1 (measurableSet_singleton _)]
  exact trials_pos h0 h1 hg

theorem trials_same {p : ℝ} (h0 : 0 < p) (h1 : p < 1) {g1 g2 : Ω → ℕ} (hg1 : TrialsUntilSuccess P p g1) (hg2 : TrialsUntilSuccess P p g2) : P.map g1 = P.map g2 := by
  apply Measure.ext_of_singleton
  intro k
  cases k with
  | zero => rw [trials_map_zero h0 h1 hg1, trials_map_zero h0 h1 hg2]
  | succ k => rw [trials_map hg1, trials_map hg2]

theorem trials_difference {p : ℝ} (h0 : 0 < p) (h1 : p < 1) {g1 g2 : Ω → ℕ} (hg1 : TrialsUntilSuccess P p g1) (hg2 : TrialsUntilSuccess P p g2) (hi : IndepFun g1 g2 P) :
    ∫⁻ ω, ENNReal.ofReal |(g1 ω : ℝ) - g2 ω| ∂P = ENNReal.ofReal (2 * (1 - p) / (1 - (1 - p) ^ 2)) := by
  have hmap := (indepFun_iff_map_prod_eq_prod_map_map hg1.1.aemeasurable hg2.1.aemeasurable).1 hi
  have hfin : IsProbabilityMeasure (P.map g2) := Measure.isProbabilityMeasure_map hg2.1.aemeasurable
  have h2 : ∫⁻ ω, ENNReal.ofReal |(g1 ω : ℝ) - g2 ω| ∂P = ∫⁻ x : ℕ × ℕ, ENNReal.ofReal |(x.1 : ℝ) - x.2| ∂(P.map fun ω => (g1 ω, g2 ω)) := by
    rw [lintegral_map (by fun_prop) (hg1.1.prodMk hg2.1)]
  rw [h2, hmap, lintegral_prod _ (by fun_prop), lintegral_countable']
  simp_rw [lintegral_countable']
  rw [tsum_eq_zero_add' ENNReal.summable, trials_map_zero h0 h1 hg1, mul_zero, zero_add, ← double_sum (q := 1 - p) (by linarith) (by linarith)]
  refine tsum_congr fun i => ?_
  rw [tsum_eq_zero_add' ENNReal.summable, trials_map_zero h0 h1 hg2, mul_zero, zero_add, trials_map hg1, ← ENNReal.tsum_mul_right]
  refine tsum_congr fun k => ?_
  rw [trials_map hg2, sub_sub_cancel]
  congr 3
  push_cast
  ring_nf

end Verif.Proofs
