import Mathlib.Probability.Distributions.Gaussian.Real
import Mathlib.MeasureTheory.Integral.IntegralEqImproper
import Mathlib.MeasureTheory.Integral.IntervalIntegral.FundThmCalculus
import Verif.Model.Acquisition

/-!
# The normal density, its distribution function and the integrals behind the acquisition functions
-/
namespace Verif.Proofs

open MeasureTheory Set Filter Topology ProbabilityTheory Verif.Model

theorem normPdf_eq_gaussian (x : ℝ) : normPdf x = gaussianPDFReal 0 1 x := by
  simp only [normPdf, gaussianPDFReal, NNReal.coe_one, mul_one, sub_zero]
  rw [div_eq_inv_mul]

theorem normPdf_pos (x : ℝ) : 0 < normPdf x := by
  rw [normPdf_eq_gaussian]; exact gaussianPDFReal_pos 0 1 x one_ne_zero

theorem normPdf_neg (x : ℝ) : normPdf (-x) = normPdf x := by simp [normPdf]

theorem continuous_normPdf : Continuous normPdf := by unfold normPdf; fun_prop

theorem integrable_normPdf : Integrable normPdf := by
  have : normPdf = gaussianPDFReal 0 1 := funext normPdf_eq_gaussian
  rw [this]; exact integrable_gaussianPDFReal 0 1

theorem integral_normPdf : ∫ x, normPdf x = 1 := by
  have : normPdf = gaussianPDFReal 0 1 := funext normPdf_eq_gaussian
  rw [this]; exact integral_gaussianPDFReal_eq_one 0 one_ne_zero

theorem hasDerivAt_normPdf (x : ℝ) : HasDerivAt normPdf (-x * normPdf x) x := by
  unfold normPdf
  have h : HasDerivAt (fun y : ℝ => Real.exp (-y ^ 2 / 2) / Real.sqrt (2 * Real.pi))
      (Real.exp (-x ^ 2 / 2) * (-(2 * x) / 2) / Real.sqrt (2 * Real.pi)) x := by
    have h1 : HasDerivAt (fun y : ℝ => -y ^ 2 / 2) (-(2 * x) / 2) x := by
      have := ((hasDerivAt_pow 2 x).neg).div_const 2
      simpa using this
    exact (h1.exp).div_const _
  convert h using 1
  ring

theorem hasDerivAt_normCdf (x : ℝ) : HasDerivAt normCdf (normPdf x) x := by
  have h0 : ∀ y, normCdf y = normCdf x + ∫ t in x..y, normPdf t := by
    intro y
    have := intervalIntegral.integral_Iic_sub_Iic (μ := volume) (f := normPdf) (a := x) (b := y)
      integrable_normPdf.integrableOn integrable_normPdf.integrableOn
    simp only [normCdf]; linarith
  have h1 : HasDerivAt (fun y => ∫ t in x..y, normPdf t) (normPdf x) x :=
    intervalIntegral.integral_hasDerivAt_right (integrable_normPdf.intervalIntegrable)
      (continuous_normPdf.stronglyMeasurableAtFilter _ _) continuous_normPdf.continuousAt
  have h2 := h1.const_add (normCdf x)
  exact h2.congr_of_eventuallyEq (Eventually.of_forall h0)

theorem normCdf_strictMono : StrictMono normCdf :=
  strictMono_of_deriv_pos (fun x => by rw [(hasDerivAt_normCdf x).deriv]; exact normPdf_pos x)

theorem normCdf_nonneg (x : ℝ) : 0 ≤ normCdf x :=
  setIntegral_nonneg measurableSet_Iic (fun t _ => (normPdf_pos t).le)

theorem normCdf_pos (x : ℝ) : 0 < normCdf x :=
  lt_of_le_of_lt (normCdf_nonneg (x - 1)) (normCdf_strictMono (by linarith))

theorem normCdf_neg (x : ℝ) : normCdf (-x) = 1 - normCdf x := by
  have h1 : normCdf (-x) = ∫ t in Ioi x, normPdf t := by
    have h := integral_comp_neg_Iic (-x) normPdf
    rw [neg_neg] at h
    rw [normCdf, ← h]
    simp only [normPdf_neg]
  have h2 : (∫ t in Iic x, normPdf t) + ∫ t in Ioi x, normPdf t = ∫ t, normPdf t := by
    rw [← compl_Iic]
    exact integral_add_compl measurableSet_Iic integrable_normPdf
  rw [integral_normPdf] at h2
  rw [h1, normCdf]; linarith

theorem normCdf_lt_one (x : ℝ) : normCdf x < 1 := by
  have := normCdf_pos (-x); rw [normCdf_neg] at this; linarith

theorem normCdf_eq_gaussian (x : ℝ) : normCdf x = (gaussianReal 0 1).real (Iic x) := by
  rw [Measure.real, gaussianReal_apply_eq_integral 0 one_ne_zero, ENNReal.toReal_ofReal]
  · simp only [normCdf, ← normPdf_eq_gaussian]
  · exact setIntegral_nonneg measurableSet_Iic (fun t _ => gaussianPDFReal_nonneg 0 1 t)

theorem tendsto_normPdf_atBot : Tendsto normPdf atBot (𝓝 0) := by
  unfold normPdf
  rw [show (0 : ℝ) = 0 / Real.sqrt (2 * Real.pi) by simp]
  refine Tendsto.div_const ?_ _
  refine Real.tendsto_exp_atBot.comp ?_
  have h : Tendsto (fun x : ℝ => x ^ 2 / 2) atBot atTop := by
    refine Tendsto.atTop_div_const (by norm_num) ?_
    have := (tendsto_pow_atTop (α := ℝ) (n := 2) (by norm_num)).comp tendsto_neg_atBot_atTop
    simpa [Function.comp_def] using this
  have := tendsto_neg_atTop_atBot.comp h
  refine this.congr (fun x => ?_)
  simp only [Function.comp_apply]; ring

theorem integrable_id_mul_normPdf : Integrable (fun x => x * normPdf x) := by
  have h := integrable_rpow_mul_exp_neg_mul_sq (b := 1 / 2) (by norm_num) (s := 1) (by norm_num)
  have h2 := h.div_const (Real.sqrt (2 * Real.pi))
  refine h2.congr (Eventually.of_forall (fun x => ?_))
  simp only [Real.rpow_one, normPdf]
  rw [mul_div_assoc]
  congr 3; ring

/-- The integral of `u φ(u)` up to `z`. -/
theorem integral_id_mul_normPdf_Iic (z : ℝ) : ∫ u in Iic z, u * normPdf u = -normPdf z := by
  have h := integral_Iic_of_hasDerivAt_of_tendsto' (f := fun u => -normPdf u) (f' := fun u => u * normPdf u) (a := z) (m := 0)
    (fun x _ => by
      have h := (hasDerivAt_normPdf x).neg
      have he : -(-x * normPdf x) = x * normPdf x := by ring
      rw [he] at h
      exact h)
    integrable_id_mul_normPdf.integrableOn
    (by simpa using tendsto_normPdf_atBot.neg)
  rw [h]; ring

/-- `E[max(z - U, 0)]` for a standard normal `U`, as an integral against the density. -/
theorem integral_sub_mul_normPdf_Iic (z : ℝ) : ∫ u in Iic z, (z - u) * normPdf u = z * normCdf z + normPdf z := by
  have h : ∀ u, (z - u) * normPdf u = z * normPdf u - u * normPdf u := fun u => by ring
  simp only [h]
  rw [integral_sub (integrable_normPdf.integrableOn.const_mul z) integrable_id_mul_normPdf.integrableOn,
    integral_id_mul_normPdf_Iic, integral_const_mul, normCdf]
  ring

/-- An integral against a normal law, in terms of the standard normal density. -/
theorem integral_gaussianReal_std (m s : ℝ) (hs : 0 < s) (g : ℝ → ℝ) :
    ∫ y, g y ∂gaussianReal m ⟨s ^ 2, sq_nonneg s⟩ = ∫ u, g (m + s * u) * normPdf u := by
  have h1 : gaussianReal m ⟨s ^ 2, sq_nonneg s⟩ = (gaussianReal 0 1).map (fun u => m + s * u) := by
    have ha := gaussianReal_map_const_mul (μ := 0) (v := 1) s
    rw [mul_zero, mul_one] at ha
    have hb := gaussianReal_map_const_add (μ := 0) (v := NNReal.mk (s ^ 2) (sq_nonneg s)) m
    rw [← ha, Measure.map_map (by fun_prop) (by fun_prop), Function.comp_def, zero_add] at hb
    exact hb.symm
  have hemb : MeasurableEmbedding (fun u : ℝ => m + s * u) :=
    ((MeasurableEquiv.addLeft m).measurableEmbedding.comp
      (MeasurableEquiv.mulLeft₀ s hs.ne').measurableEmbedding)
  rw [h1, hemb.integral_map, integral_gaussianReal_eq_integral_smul one_ne_zero]
  simp only [smul_eq_mul, ← normPdf_eq_gaussian]
  refine integral_congr_ae (Eventually.of_forall (fun u => ?_))
  simp only; ring

/-- The expected improvement over `p` of a normal variable. -/
theorem integral_improvement (m s p : ℝ) (hs : 0 < s) :
    ∫ y, max (p - y) 0 ∂gaussianReal m ⟨s ^ 2, sq_nonneg s⟩ = eiFormula p m s := by
  rw [integral_gaussianReal_std m s hs]
  set z := (p - m) / s with hz
  have hzs : z * s = p - m := by rw [hz]; field_simp
  have h1 : ∀ u, max (p - (m + s * u)) 0 * normPdf u = (Iic z).indicator (fun u => s * ((z - u) * normPdf u)) u := by
    intro u
    by_cases hu : u ≤ z
    · rw [indicator_of_mem (mem_Iic.2 hu), max_eq_left]
      · have : p - (m + s * u) = s * (z - u) := by linear_combination -hzs
        rw [this]; ring
      · have : 0 ≤ s * (z - u) := mul_nonneg hs.le (by linarith)
        nlinarith [hzs]
    · rw [indicator_of_notMem (by simpa using hu), max_eq_right]
      · ring
      · have : 0 ≤ s * (u - z) := mul_nonneg hs.le (by push Not at hu; linarith)
        nlinarith [hzs]
  simp only [h1]
  rw [integral_indicator measurableSet_Iic, integral_const_mul, integral_sub_mul_normPdf_Iic, eiFormula, ← hz, ← hzs]
  ring

/-- The probability that a normal variable is at most `p`. -/
theorem gaussianReal_Iic (m s p : ℝ) (hs : 0 < s) :
    (gaussianReal m ⟨s ^ 2, sq_nonneg s⟩).real (Iic p) = normCdf ((p - m) / s) := by
  have h := integral_gaussianReal_std m s hs ((Iic p).indicator (fun _ => (1 : ℝ)))
  rw [integral_indicator measurableSet_Iic, setIntegral_const, smul_eq_mul, mul_one] at h
  rw [h, normCdf, ← integral_indicator measurableSet_Iic]
  refine integral_congr_ae (Eventually.of_forall (fun u => ?_))
  have : m + s * u ≤ p ↔ u ≤ (p - m) / s := by
    rw [le_div_iff₀ hs]; constructor <;> intro h <;> linarith
  by_cases hu : u ≤ (p - m) / s
  · simp [indicator, this, hu]
  · simp [indicator, this, hu]

theorem integral_normPdf_shift (z c : ℝ) : ∫ u in Iic z, normPdf (u + c) = normCdf (z + c) := by
  rw [normCdf, ← integral_indicator measurableSet_Iic, ← integral_indicator measurableSet_Iic,
    ← integral_add_right_eq_self ((Iic (z + c)).indicator normPdf) c]
  refine integral_congr_ae (Eventually.of_forall (fun u => ?_))
  by_cases hu : u ≤ z
  · simp [indicator, hu]
  · simp [indicator, hu]

/-- The moment generating function of the improvement over `p`, on the event that there is one. -/
theorem integral_mgf_improvement (m s p t : ℝ) (hs : 0 < s) :
    ∫ y in Iic p, Real.exp (t * (p - y - 1)) ∂gaussianReal m ⟨s ^ 2, sq_nonneg s⟩ = mgfiFormula t p m s := by
  rw [← integral_indicator measurableSet_Iic, integral_gaussianReal_std m s hs]
  set z := (p - m) / s with hz
  have h1 : ∀ u, (Iic p).indicator (fun y => Real.exp (t * (p - y - 1))) (m + s * u) * normPdf u =
      (Iic z).indicator (fun u => Real.exp (t * (p - m - 1) + t ^ 2 * s ^ 2 / 2) * normPdf (u + t * s)) u := by
    intro u
    have hiff : m + s * u ≤ p ↔ u ≤ z := by
      rw [hz, le_div_iff₀ hs]; constructor <;> intro h <;> linarith
    by_cases hu : u ≤ z
    · rw [indicator_of_mem (mem_Iic.2 hu), indicator_of_mem (mem_Iic.2 (hiff.2 hu))]
      simp only [normPdf]
      rw [← mul_div_assoc, ← mul_div_assoc, ← Real.exp_add, ← Real.exp_add]
      congr 2; ring
    · rw [indicator_of_notMem (s := Iic p) (fun h => hu (hiff.1 (mem_Iic.1 h))), indicator_of_notMem (by simpa using hu)]
      ring
  simp only [h1]
  rw [integral_indicator measurableSet_Iic, integral_const_mul, integral_normPdf_shift, mgfiFormula]
  have : z + t * s = (p - (m - t * s ^ 2)) / s := by rw [hz]; field_simp; ring
  rw [this]; ring

/-- `z Φ(z) + φ(z)`. -/
theorem hasDerivAt_eiStd (z : ℝ) : HasDerivAt (fun z => z * normCdf z + normPdf z) (normCdf z) z := by
  have h := ((hasDerivAt_id z).mul (hasDerivAt_normCdf z)).add (hasDerivAt_normPdf z)
  have he : 1 * normCdf z + id z * normPdf z + -z * normPdf z = normCdf z := by simp
  rw [he] at h
  exact h

theorem eiStd_strictMono : StrictMono (fun z => z * normCdf z + normPdf z) :=
  strictMono_of_deriv_pos (fun x => by rw [(hasDerivAt_eiStd x).deriv]; exact normCdf_pos x)

theorem eiStd_nonneg (z : ℝ) : 0 ≤ z * normCdf z + normPdf z := by
  rw [← integral_sub_mul_normPdf_Iic]
  exact setIntegral_nonneg measurableSet_Iic (fun u hu => mul_nonneg (by simpa using hu) (normPdf_pos u).le)

theorem eiStd_pos (z : ℝ) : 0 < z * normCdf z + normPdf z :=
  lt_of_le_of_lt (eiStd_nonneg (z - 1)) (eiStd_strictMono (by linarith))

theorem eiStd_gt_self (z : ℝ) : z < z * normCdf z + normPdf z := by
  have := eiStd_pos (-z)
  rw [normCdf_neg, normPdf_neg] at this
  linarith

end Verif.Proofs
