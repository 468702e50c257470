import Verif.Proofs.MiesLaw
import Verif.Props.Mies
import Mathlib.Probability.Distributions.Geometric

/-! # C166: the laws of the mutations of the evolution strategy -/
namespace Verif.Props
open Verif.Model Verif.Spec Verif.Proofs MeasureTheory ProbabilityTheory
open scoped NNReal ENNReal

variable {Ω : Type*} [MeasurableSpace Ω] {P : Measure Ω} [IsProbabilityMeasure P]

private theorem tauGlobal_sq {N : ℕ} (h : 0 < N) : tauGlobal N ^ 2 = 1 / (2 * N) := by
  have : (0 : ℝ) ≤ 2 * N := by positivity
  rw [tauGlobal, div_pow, Real.sq_sqrt this, one_pow]

private theorem tauLocal_sq (N : ℕ) : tauLocal N ^ 2 = 1 / (2 * Real.sqrt N) := by
  rw [tauLocal, div_pow, Real.sq_sqrt (by positivity), one_pow]

private theorem count_pos {ks : List Kind} {j : ℕ} {k : Kind} (h : ks[j]? = some k) : 0 < variablesOf k.vtype ks :=
  List.count_pos_iff.2 (List.mem_map_of_mem (List.mem_of_getElem? h))

omit [IsProbabilityMeasure P] in
private theorem factor_law {N : ℕ} (hN : 0 < N) {z zj : Ω → ℝ} (hz : HasLaw z (gaussianReal 0 1) P) (hzj : HasLaw zj (gaussianReal 0 1) P) (hi : IndepFun z zj P) :
    HasLaw (fun ω => Real.log (stepFactor N (z ω) (zj ω))) (gaussianReal 0 (logVariance N)) P := by
  by_cases h1 : N = 1
  · subst h1
    have h := gaussianReal_const_mul hz (tauGlobal 1)
    rw [mul_zero] at h
    have hv : (.mk (tauGlobal 1 ^ 2) (sq_nonneg _) * 1 : ℝ≥0) = logVariance 1 := by
      rw [mul_one]
      apply NNReal.coe_injective
      rw [logVariance, if_pos rfl]
      show tauGlobal 1 ^ 2 = _
      rw [tauGlobal_sq one_pos]
      norm_num
    rw [hv] at h
    have he : (fun ω => Real.log (stepFactor 1 (z ω) (zj ω))) = fun ω => tauGlobal 1 * z ω := by
      funext ω
      rw [stepFactor, if_pos rfl, Real.log_exp]
    rw [he]
    exact h
  · have h2 := gaussianReal_const_mul hz (tauGlobal N)
    have h3 := gaussianReal_const_mul hzj (tauLocal N)
    rw [mul_zero] at h2 h3
    have hi' : IndepFun (fun ω => tauGlobal N * z ω) (fun ω => tauLocal N * zj ω) P :=
      hi.comp (φ := fun x => tauGlobal N * x) (ψ := fun x => tauLocal N * x) (by fun_prop) (by fun_prop)
    have h4 := gaussianReal_add_gaussianReal_of_indepFun hi' h2.map_eq h3.map_eq
    have he : (fun ω => Real.log (stepFactor N (z ω) (zj ω))) = (fun ω => tauGlobal N * z ω) + fun ω => tauLocal N * zj ω := by
      funext ω
      rw [stepFactor, if_neg h1, Real.log_exp]
      rfl
    rw [he]
    refine ⟨h2.aemeasurable.add h3.aemeasurable, ?_⟩
    rw [h4, add_zero]
    congr 1
    apply NNReal.coe_injective
    rw [logVariance, if_neg h1]
    show tauGlobal N ^ 2 * 1 + tauLocal N ^ 2 * 1 = _
    rw [tauGlobal_sq hN, tauLocal_sq]
    push_cast
    simp

omit [IsProbabilityMeasure P] in
/-- C166: a real variable is mutated by a normal number times a step size, and the logarithm of that step size follows the normal law around the logarithm of the inherited one with the
variance `1/(2n)` for a single real variable and `1/(2n) + 1/(2 √n)` for `n` of them. -/
theorem c166_step_law (ks : List Kind) (a : Individual) (n : Ω → StrengthNoise) (j : ℕ) (v : RealVar) (hj : ks[j]? = some (.real v)) (x : ℝ) (hx : a.row[j]? = some (.real x))
    (hs : 0 < a.sigma j) (hz : HasLaw (fun ω => (n ω).zr) (gaussianReal 0 1) P) (hzj : HasLaw (fun ω => (n ω).zrs j) (gaussianReal 0 1) P)
    (hi : IndepFun (fun ω => (n ω).zr) (fun ω => (n ω).zrs j) P) :
    ∃ S : Ω → ℝ, (∀ ω, 0 < S ω) ∧ HasLaw (fun ω => Real.log (S ω)) (gaussianReal (Real.log (a.sigma j)) (logVariance (variablesOf .real ks))) P ∧
      ∀ ω, (mutateInd ks (n ω) a).row[j]? = some (.real (v.round (reflect v.lo v.hi (x + S ω * (n ω).R j)))) := by
  refine ⟨fun ω => sigmaUsed ks (n ω) a j, fun ω => mul_pos hs (stepFactor_pos _ _ _), ?_, fun ω => ?_⟩
  · have h := gaussianReal_const_add (factor_law (count_pos hj) hz hzj hi) (Real.log (a.sigma j))
    rw [zero_add] at h
    have he : (fun ω => Real.log (sigmaUsed ks (n ω) a j)) =
        fun ω => Real.log (a.sigma j) + Real.log (stepFactor (variablesOf .real ks) ((n ω).zr) ((n ω).zrs j)) := by
      funext ω
      rw [sigmaUsed, countReal_eq, Real.log_mul hs.ne' (stepFactor_pos _ _ _).ne']
    rw [he]
    exact h
  · show (mutateRow ks _ a.row)[j]? = _
    rw [mutateRow_get hj hx]
    simp only [mutateVal, proposalsOf, realAt_of hx]

omit [IsProbabilityMeasure P] in
/-- C166: the strength of an integer variable is the smaller of 1 and a number whose logarithm follows the normal law around the logarithm of the inherited one, with the same
variances. -/
theorem c166_integer_strength (ks : List Kind) (a : Individual) (n : Ω → StrengthNoise) (j : ℕ) (v : IntVar) (hj : ks[j]? = some (.integer v)) (hs : 0 < a.eta j)
    (hz : HasLaw (fun ω => (n ω).zi) (gaussianReal 0 1) P) (hzj : HasLaw (fun ω => (n ω).zis j) (gaussianReal 0 1) P)
    (hi : IndepFun (fun ω => (n ω).zi) (fun ω => (n ω).zis j) P) :
    ∃ S : Ω → ℝ, (∀ ω, 0 < S ω) ∧ HasLaw (fun ω => Real.log (S ω)) (gaussianReal (Real.log (a.eta j)) (logVariance (variablesOf .integer ks))) P ∧
      ∀ ω, (mutateInd ks (n ω) a).eta j = min (S ω) 1 := by
  refine ⟨fun ω => a.eta j * stepFactor (countInteger ks) (n ω).zi ((n ω).zis j), fun ω => mul_pos hs (stepFactor_pos _ _ _), ?_, fun ω => rfl⟩
  have h := gaussianReal_const_add (factor_law (count_pos hj) hz hzj hi) (Real.log (a.eta j))
  rw [zero_add] at h
  have he : (fun ω => Real.log (a.eta j * stepFactor (countInteger ks) (n ω).zi ((n ω).zis j))) =
      fun ω => Real.log (a.eta j) + Real.log (stepFactor (variablesOf .integer ks) ((n ω).zi) ((n ω).zis j)) := by
    funext ω
    rw [countInteger_eq, Real.log_mul hs.ne' (stepFactor_pos _ _ _).ne']
  rw [he]
  exact h

/-- C166: given its strength, an integer variable is moved by a symmetric random number whose mean absolute value is the strength over the number of integer variables (before the
result is reflected into the bounds).  The two draws have the parameter `p` that the code computes. -/
theorem c166_integer_step (ks : List Kind) (a : Individual) (n : Ω → StrengthNoise) (j : ℕ) (v : IntVar) (hj : ks[j]? = some (.integer v)) (z : ℤ) (hx : a.row[j]? = some (.int z))
    (eta p : ℝ) (he : 0 < eta) (heta : ∀ ω, (mutateInd ks (n ω) a).eta j = eta) (hp : ∀ ω, geometricPar (countInteger ks) (etaUsed ks (n ω) a j) = p)
    (hg1 : TrialsUntilSuccess P p fun ω => (n ω).g1 j) (hg2 : TrialsUntilSuccess P p fun ω => (n ω).g2 j) (hi : IndepFun (fun ω => (n ω).g1 j) (fun ω => (n ω).g2 j) P) :
    ∃ D : Ω → ℤ, (∀ ω, (mutateInd ks (n ω) a).row[j]? = some (.int (trunc (reflect v.lo v.hi ((z + D ω : ℤ) : ℝ))))) ∧
      Integrable (fun ω => |(D ω : ℝ)|) P ∧ ∫ ω, |(D ω : ℝ)| ∂P = eta / variablesOf .integer ks ∧ P.map D = P.map fun ω => - D ω := by
  have hN := countInteger_pos hj
  have hpe : p = geometricPar (countInteger ks) eta := by
    obtain ⟨ω⟩ : Nonempty Ω := P.nonempty_of_neZero
    rw [← hp ω, ← heta ω]
    rfl
  obtain ⟨h0, h1⟩ := geometricPar_mem hN he
  rw [← hpe] at h0 h1
  have hpos : 0 < eta / (countInteger ks : ℝ) := div_pos he (by exact_mod_cast hN)
  have hm1 : Measurable fun ω => (n ω).g1 j := hg1.1
  have hm2 : Measurable fun ω => (n ω).g2 j := hg2.1
  have hmeas : Measurable fun ω => |((n ω).g1 j : ℝ) - (n ω).g2 j| := by
    have h3 : Measurable fun x : ℕ × ℕ => |(x.1 : ℝ) - x.2| := by fun_prop
    exact h3.comp (hm1.prodMk hm2)
  have hlin := trials_difference h0 h1 hg1 hg2 hi
  have hval : 2 * (1 - p) / (1 - (1 - p) ^ 2) = eta / (countInteger ks : ℝ) := by
    rw [hpe]
    exact geometricPar_solves hpos
  rw [hval] at hlin
  have hD : ∀ ω, |((((n ω).g1 j : ℤ) - (n ω).g2 j : ℤ) : ℝ)| = |((n ω).g1 j : ℝ) - (n ω).g2 j| := by
    intro ω
    push_cast
    rfl
  refine ⟨fun ω => ((n ω).g1 j : ℤ) - (n ω).g2 j, fun ω => ?_, ?_, ?_, ?_⟩
  · show (mutateRow ks _ a.row)[j]? = _
    rw [mutateRow_get hj hx]
    simp only [mutateVal, proposalsOf]
  · simp only [hD]
    refine ⟨hmeas.aestronglyMeasurable, ?_⟩
    rw [hasFiniteIntegral_iff_ofReal (ae_of_all _ fun ω => abs_nonneg _), hlin]
    exact ENNReal.ofReal_lt_top
  · simp only [hD]
    rw [integral_eq_lintegral_of_nonneg_ae (ae_of_all _ fun ω => abs_nonneg _) hmeas.aestronglyMeasurable, hlin, ENNReal.toReal_ofReal hpos.le, countInteger_eq]
  · have hmap := (indepFun_iff_map_prod_eq_prod_map_map hm1.aemeasurable hm2.aemeasurable).1 hi
    have hmap' := (indepFun_iff_map_prod_eq_prod_map_map hm2.aemeasurable hm1.aemeasurable).1 hi.symm
    rw [trials_same h0 h1 hg1 hg2] at hmap hmap'
    have hsub : Measurable fun x : ℕ × ℕ => (x.1 : ℤ) - x.2 := by fun_prop
    have e1 : P.map (fun ω => ((n ω).g1 j : ℤ) - (n ω).g2 j) = (P.map fun ω => ((n ω).g1 j, (n ω).g2 j)).map fun x : ℕ × ℕ => (x.1 : ℤ) - x.2 := by
      rw [Measure.map_map hsub (hm1.prodMk hm2)]
      rfl
    have e2 : P.map (fun ω => ((n ω).g2 j : ℤ) - (n ω).g1 j) = (P.map fun ω => ((n ω).g2 j, (n ω).g1 j)).map fun x : ℕ × ℕ => (x.1 : ℤ) - x.2 := by
      rw [Measure.map_map hsub (hm2.prodMk hm1)]
      rfl
    simp only [neg_sub]
    rw [e1, e2, hmap, hmap']

omit [IsProbabilityMeasure P] in
/-- C166: the logarithm of the odds of the mutation probability follows the normal law around the inherited one with variance `1/(2n)` for `n` categorical variables; the probability
handed on is this one reflected into `[1/(3n), 1/2]`. -/
theorem c166_probability_law (ks : List Kind) (a : Individual) (n : Ω → StrengthNoise) (hc : ∃ k ∈ ks, k.vtype ≠ .real ∧ k.vtype ≠ .integer) (h0 : 0 < a.prob) (h1 : a.prob < 1)
    (N : ℕ) (hN : N + variablesOf .real ks + variablesOf .integer ks = ks.length) (hz : HasLaw (fun ω => (n ω).zd) (gaussianReal 0 1) P) :
    ∃ p : Ω → ℝ, (∀ ω, p ω ∈ Set.Ioo 0 1) ∧ HasLaw (fun ω => logOdds (p ω)) (gaussianReal (logOdds a.prob) (1 / (2 * N))) P ∧
      (∀ ω, (mutateInd ks (n ω) a).prob = reflect (1 / (3 * N : ℝ)) (1 / 2) (p ω)) ∧
      ∀ (j : ℕ) (k : Kind) (l : Lvl), ks[j]? = some k → a.row[j]? = some (.lvl l) → ∀ ω,
        (mutateInd ks (n ω) a).row[j]? = some (.lvl (if (n ω).u j < p ω then (k.levels[(n ω).level j]?).getD l else l)) := by
  have hNe : countCategorical ks = N := by
    rw [countCategorical_eq]
    omega
  have hN0 : 0 < N := by
    rw [← hNe]
    exact countCategorical_pos hc
  have hodds : 0 < (1 - a.prob) / a.prob := div_pos (by linarith) h0
  refine ⟨fun ω => probUsed ks (n ω) a, fun ω => ?_, ?_, fun ω => ?_, ?_⟩
  · have hpos : 0 < (1 - a.prob) / a.prob * Real.exp (-tauGlobal (countCategorical ks) * (n ω).zd) := mul_pos hodds (Real.exp_pos _)
    unfold probUsed
    exact ⟨by positivity, (div_lt_one (by linarith)).2 (by linarith)⟩
  · have h := gaussianReal_const_add (gaussianReal_const_mul hz (tauGlobal N)) (logOdds a.prob)
    rw [mul_zero, zero_add] at h
    have hv : (.mk (tauGlobal N ^ 2) (sq_nonneg _) * 1 : ℝ≥0) = 1 / (2 * N) := by
      rw [mul_one]
      apply NNReal.coe_injective
      show tauGlobal N ^ 2 = _
      rw [tauGlobal_sq hN0]
      push_cast
      rfl
    rw [hv] at h
    have he : (fun ω => logOdds (probUsed ks (n ω) a)) = fun ω => logOdds a.prob + tauGlobal N * (n ω).zd := by
      funext ω
      have hE := Real.exp_pos (-tauGlobal N * (n ω).zd)
      unfold logOdds probUsed
      rw [hNe]
      have hq : 1 / (1 + (1 - a.prob) / a.prob * Real.exp (-tauGlobal N * (n ω).zd)) / (1 - 1 / (1 + (1 - a.prob) / a.prob * Real.exp (-tauGlobal N * (n ω).zd))) =
          a.prob / (1 - a.prob) * (Real.exp (-tauGlobal N * (n ω).zd))⁻¹ := by
        generalize Real.exp (-tauGlobal N * (n ω).zd) = E at hE
        have hx : 0 < (1 - a.prob) / a.prob * E := mul_pos hodds hE
        have hq1 : (1 - a.prob) ≠ 0 := by linarith
        have e1 : 1 - 1 / (1 + (1 - a.prob) / a.prob * E) = (1 - a.prob) / a.prob * E / (1 + (1 - a.prob) / a.prob * E) := by
          rw [eq_div_iff (by linarith), sub_mul, div_mul_cancel₀ _ (by linarith)]
          ring
        rw [e1, div_div_div_cancel_right₀ (by linarith)]
        field_simp
      rw [hq, Real.log_mul (div_pos h0 (by linarith)).ne' (inv_pos.2 hE).ne', Real.log_inv, Real.log_exp]
      ring
    rw [he]
    exact h
  · show reflect _ _ _ = _
    rw [hNe]
  · intro j k l hj hl ω
    show (mutateRow ks _ a.row)[j]? = _
    rw [mutateRow_get hj hl]
    by_cases hu : (n ω).u j < probUsed ks (n ω) a
    · cases k <;> simp [mutateVal, proposalsOf, hu]
    · cases k <;> simp [mutateVal, proposalsOf, hu]

/-- Two independent standard normal numbers meet the hypotheses of `c166_step_law` and `c166_integer_strength`; the first one those of `c166_probability_law`. -/
example : ∃ n : ℝ × ℝ → StrengthNoise, HasLaw (fun ω => (n ω).zr) (gaussianReal 0 1) ((gaussianReal 0 1).prod (gaussianReal 0 1)) ∧
    HasLaw (fun ω => (n ω).zrs 0) (gaussianReal 0 1) ((gaussianReal 0 1).prod (gaussianReal 0 1)) ∧
    IndepFun (fun ω => (n ω).zr) (fun ω => (n ω).zrs 0) ((gaussianReal 0 1).prod (gaussianReal 0 1)) ∧
    HasLaw (fun ω => (n ω).zd) (gaussianReal 0 1) ((gaussianReal 0 1).prod (gaussianReal 0 1)) ∧
    0 < (startInd miesKinds miesPoint).sigma 0 ∧ 0 < (startInd miesKinds miesPoint).eta 1 := by
  have h1 : HasLaw (fun ω : ℝ × ℝ => ω.1) (gaussianReal 0 1) ((gaussianReal 0 1).prod (gaussianReal 0 1)) := ⟨by fun_prop, measurePreserving_fst.map_eq⟩
  have h2 : HasLaw (fun ω : ℝ × ℝ => ω.2) (gaussianReal 0 1) ((gaussianReal 0 1).prod (gaussianReal 0 1)) := ⟨by fun_prop, measurePreserving_snd.map_eq⟩
  refine ⟨fun ω => ⟨0, 0, fun _ => false, ω.1, fun _ => ω.2, fun _ => 1, ω.1, fun _ => ω.2, fun _ => 1, fun _ => 1, ω.1, fun _ => 0, fun _ => 0⟩, h1, h2,
    indepFun_prod (X := id) (Y := id) measurable_id measurable_id, h1, ?_, ?_⟩
  · norm_num [startInd, miesKinds]
  · norm_num [startInd, miesKinds]

/-- Two independent geometric numbers, shifted to start from 1, meet the hypotheses of `c166_integer_step`: the start of a run on a mixed space, with the strength used there. -/
example : ∃ (P : Measure (ℕ × ℕ)) (_ : IsProbabilityMeasure P) (n : ℕ × ℕ → StrengthNoise) (eta p : ℝ), 0 < eta ∧ (∀ ω, (mutateInd miesKinds (n ω) (startInd miesKinds miesPoint)).eta 1 = eta) ∧
    (∀ ω, geometricPar (countInteger miesKinds) (etaUsed miesKinds (n ω) (startInd miesKinds miesPoint) 1) = p) ∧
    TrialsUntilSuccess P p (fun ω => (n ω).g1 1) ∧ TrialsUntilSuccess P p (fun ω => (n ω).g2 1) ∧ IndepFun (fun ω => (n ω).g1 1) (fun ω => (n ω).g2 1) P := by
  obtain ⟨h0, h1⟩ := geometricPar_mem (N := countInteger miesKinds) (eta := 35 / 100) one_pos (by norm_num)
  set p : unitInterval := ⟨geometricPar (countInteger miesKinds) (35 / 100), h0.le, h1.le⟩ with hp
  have hp0 : p ≠ 0 := fun h => h0.ne' (congrArg Subtype.val h)
  have he : ∀ n : StrengthNoise, n.zi = 0 → etaUsed miesKinds n (startInd miesKinds miesPoint) 1 = 35 / 100 := by
    intro n hn
    have hN : countInteger miesKinds = 1 := rfl
    rw [etaUsed, hN]
    simp only [stepFactor, hn, startInd, miesKinds]
    norm_num
  refine ⟨(geometricMeasure p).prod (geometricMeasure p), inferInstance,
    fun ω => ⟨0, 0, fun _ => false, 0, fun _ => 0, fun _ => 1, 0, fun _ => 0, fun _ => ω.1 + 1, fun _ => ω.2 + 1, 0, fun _ => 0, fun _ => 0⟩, 35 / 100, p, by norm_num,
    fun ω => he _ rfl, fun ω => by rw [he _ rfl], ⟨by fun_prop, fun k => ?_⟩, ⟨by fun_prop, fun k => ?_⟩,
    indepFun_prod (X := fun i => i + 1) (Y := fun i => i + 1) (by fun_prop) (by fun_prop)⟩
  · rw [← geometricMeasure_singleton hp0, ← (measurePreserving_fst (μ := geometricMeasure p) (ν := geometricMeasure p)).measure_preimage (measurableSet_singleton k).nullMeasurableSet]
    congr 1
    ext ω
    simp
  · rw [← geometricMeasure_singleton hp0, ← (measurePreserving_snd (μ := geometricMeasure p) (ν := geometricMeasure p)).measure_preimage (measurableSet_singleton k).nullMeasurableSet]
    congr 1
    ext ω
    simp

end Verif.Props
