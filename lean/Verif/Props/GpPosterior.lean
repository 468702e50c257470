import Verif.Proofs.GpPosterior
import Verif.Props.Gpr
import Verif.Props.Acquisition
import Mathlib.Probability.Distributions.Gaussian.Multivariate
import Mathlib.Probability.Kernel.Condexp

/-!
# C162, C163: predictions and acquisition values as statements about the posterior distribution
-/
namespace Verif.Props

open Matrix MeasureTheory ProbabilityTheory Verif.Model Verif.Spec Verif.Proofs

variable {n N k : ℕ} {chol : Matrix (Fin N) (Fin N) ℝ → Option (Matrix (Fin N) (Fin N) ℝ)}
  {qr : Matrix (Fin N) (Fin k) ℝ → Matrix (Fin N) (Fin k) ℝ × Matrix (Fin k) (Fin k) ℝ}

private theorem chol_symm {R L : Matrix (Fin N) (Fin N) ℝ} (h : IsCholesky R L) : Rᵀ = R := by
  rw [← h.mul, transpose_mul, transpose_transpose]

private theorem measurable_obs {Ω : Type*} [MeasurableSpace Ω] {P : Measure Ω} {Y : Fin N → Ω → ℝ} (h : ∀ i, MemLp (Y i) 2 P) :
    AEMeasurable (fun ω i => Y i ω) P := aemeasurable_pi_lambda _ fun i => (h i).aestronglyMeasurable.aemeasurable

private theorem measurable_dot (c : ℝ) (w : Fin N → ℝ) : Measurable fun y : Fin N → ℝ => c + w ⬝ᵥ y := by
  unfold dotProduct
  fun_prop

/-! ### C162 -/

/-- **C162.**  Given trend coefficients, no noise: prediction succeeds for all observations, and for every Gaussian process with this trend
and these correlations the law of its value at the point, given the observations, is the normal law with the reported mean and error. -/
theorem c162_posterior (hc : CholeskyRoutine chol) (R : Matrix (Fin N) (Fin N) ℝ) (F : Matrix (Fin N) (Fin k) ℝ) (b : Fin k → ℝ)
    (hR : (chol R).isSome) (sigma2 : ℝ) (f : Fin k → ℝ) (r : Fin N → ℝ) :
    ∃ (m : (Fin N → ℝ) → ℝ) (e : ℝ),
      (∀ y, gpPredict chol qr .noiseless R F (some b) sigma2 y f r = some (m y, e)) ∧ Measurable m ∧
      ∀ {Ω : Type} [MeasurableSpace Ω] (P : Measure Ω) [IsProbabilityMeasure P] (Y : Fin N → Ω → ℝ) (Z : Ω → ℝ),
        IsGaussianModel P Y Z F f b R r sigma2 0 →
        ∀ᵐ y ∂(P.map fun ω i => Y i ω), condDistrib Z (fun ω i => Y i ω) P y = predictive (m y) e := by
  obtain ⟨L, hL⟩ := Option.isSome_iff_exists.1 hR
  obtain ⟨w, hw, -, hopt⟩ := predict_some (qr := qr) (mode := .noiseless) (R0 := R) (F := F) hc hL b sigma2 f r
  simp only [gpMatrix] at hw hopt
  have e0 : (fun y : Fin N → ℝ => f ⬝ᵥ b + w ⬝ᵥ (y - F *ᵥ b)) = fun y => (f ⬝ᵥ b - w ⬝ᵥ (F *ᵥ b)) + w ⬝ᵥ y := by
    funext y; rw [dotProduct_sub]; ring
  refine ⟨fun y => f ⬝ᵥ b + w ⬝ᵥ (y - F *ᵥ b), if errVar R r w * sigma2 < 0 then 0 else errVar R r w * sigma2, fun y => ?_, ?_, ?_⟩
  · obtain ⟨a, ha, h1, h2⟩ := hw y
    simp only [gpPredict, gpMatrix, ha, Option.map_some, h1, gpMse, h2]
  · rw [e0]; exact measurable_dot _ _
  · intro Ω _ P _ Y Z hp
    have hnn : 0 ≤ errVar R r w * sigma2 := by rw [← error_variance hp.toIsProcess w]; exact variance_nonneg _ _
    rw [if_neg (not_lt.2 hnn), e0]
    have hind := error_indep hp w (1 : Matrix (Fin N) (Fin N) ℝ) fun j => by
      have := errVar_stationary (chol_symm (hc _ _ hL)) r w ((1 : Matrix (Fin N) (Fin N) ℝ) j) fun s => hopt _
      exact this
    simp only [one_mulVec] at hind
    have ha : Measurable fun y : Fin N → ℝ => ∑ i, w i * y i := by fun_prop
    exact cond_of_indep (a := fun y => ∑ i, w i * y i) (measurable_obs hp.memY) hp.memZ.aestronglyMeasurable.aemeasurable ha hind
      (error_law hp w)

/-- **C162.**  Estimated trend, no noise: for every Gaussian process with these correlations, whatever the coefficients of its trend, the
error of the prediction is normal with mean zero and the reported variance, and it is independent of everything in the observations that
does not depend on the coefficients (all the combinations `C` of the observations that the trend cancels out of). -/
theorem c162_estimated_trend (hc : CholeskyRoutine chol) (hq : QrRoutine qr) (R : Matrix (Fin N) (Fin N) ℝ)
    (F : Matrix (Fin N) (Fin k) ℝ) (hF : FullRank F) (hR : (chol R).isSome) (sigma2 : ℝ) (f : Fin k → ℝ) (r : Fin N → ℝ) :
    ∃ (m : (Fin N → ℝ) → ℝ) (e : ℝ),
      (∀ y, gpPredict chol qr .noiseless R F none sigma2 y f r = some (m y, e)) ∧
      ∀ {Ω : Type} [MeasurableSpace Ω] (P : Measure Ω) (Y : Fin N → Ω → ℝ) (Z : Ω → ℝ) (beta : Fin k → ℝ),
        IsGaussianModel P Y Z F f beta R r sigma2 0 →
        P.map (fun ω => Z ω - m (fun i => Y i ω)) = predictive 0 e ∧
        ∀ {q : ℕ} (C : Matrix (Fin q) (Fin N) ℝ), C * F = 0 →
          IndepFun (fun ω => C *ᵥ (fun i => Y i ω)) (fun ω => Z ω - m (fun i => Y i ω)) P := by
  obtain ⟨L, hL⟩ := Option.isSome_iff_exists.1 hR
  obtain ⟨w, hw, hun, hopt⟩ := predict_none (mode := .noiseless) (R0 := R) hc hq hF hL sigma2 f r
  simp only [gpMatrix] at hw hopt
  refine ⟨fun y => w ⬝ᵥ y, if errVar R r w * sigma2 < 0 then 0 else errVar R r w * sigma2, fun y => ?_, ?_⟩
  · obtain ⟨a, ha, h1, h2⟩ := hw y
    simp only [gpPredict, gpMatrix, ha, Option.map_some, h1, gpMse, h2]
  · intro Ω _ P Y Z beta hp
    have hnn : 0 ≤ errVar R r w * sigma2 := by
      have := hp.prob
      rw [← error_variance hp.toIsProcess w]; exact variance_nonneg _ _
    rw [if_neg (not_lt.2 hnn)]
    refine ⟨?_, fun C hC => ?_⟩
    · have h1 := error_law hp w
      have hb : f ⬝ᵥ beta - w ⬝ᵥ (F *ᵥ beta) = 0 := by
        rw [← hun, transpose_dot, sub_self]
      rw [hb] at h1
      exact h1
    · refine error_indep hp w C fun j => ?_
      refine errVar_stationary (chol_symm (hc _ _ hL)) r w (C j) fun s => hopt _ ?_
      rw [mulVec_add, hun, mulVec_smul]
      have : Fᵀ *ᵥ C j = 0 := by
        funext p
        have := congrFun (congrFun hC j) p
        rw [Matrix.mul_apply] at this
        change ∑ i, F i p * C j i = 0
        rw [← (show (0 : Matrix (Fin _) (Fin k) ℝ) j p = 0 from rfl), ← this]
        exact Finset.sum_congr rfl fun i _ => mul_comm _ _
      rw [this, smul_zero, add_zero]

private theorem standard_interval (m e c : ℝ) (he : 0 < e) :
    predictive m e (Set.Icc (m - c * Real.sqrt e) (m + c * Real.sqrt e)) = gaussianReal 0 1 (Set.Icc (-c) c) := by
  have hs := Real.sqrt_pos.2 he
  have h1 : predictive m e = ((gaussianReal 0 1).map (fun x => Real.sqrt e * x)).map (fun x => m + x) := by
    rw [gaussianReal_map_const_mul, gaussianReal_map_const_add, mul_zero, zero_add, predictive]
    congr 1
    ext
    simp [Real.sq_sqrt he.le, max_eq_left he.le]
  rw [h1, Measure.map_apply (by fun_prop) measurableSet_Icc, Measure.map_apply (by fun_prop) (measurableSet_Icc.preimage (by fun_prop))]
  congr 1
  ext x
  simp only [Set.mem_preimage, Set.mem_Icc]
  constructor
  · rintro ⟨h1, h2⟩
    constructor <;> nlinarith
  · rintro ⟨h1, h2⟩
    constructor <;> nlinarith

/-- **C162.**  Prediction intervals have their nominal coverage, also when the coefficients of the trend are estimated: the value is within `c`
reported standard deviations of the prediction as often as a standard normal number is within `c` of zero. -/
theorem c162_interval (hc : CholeskyRoutine chol) (hq : QrRoutine qr) (R : Matrix (Fin N) (Fin N) ℝ)
    (F : Matrix (Fin N) (Fin k) ℝ) (hF : FullRank F) (hR : (chol R).isSome) (sigma2 : ℝ) (f : Fin k → ℝ) (r : Fin N → ℝ) :
    ∃ (m : (Fin N → ℝ) → ℝ) (e : ℝ),
      (∀ y, gpPredict chol qr .noiseless R F none sigma2 y f r = some (m y, e)) ∧
      ∀ {Ω : Type} [MeasurableSpace Ω] (P : Measure Ω) (Y : Fin N → Ω → ℝ) (Z : Ω → ℝ) (beta : Fin k → ℝ),
        IsGaussianModel P Y Z F f beta R r sigma2 0 → 0 < e → ∀ c : ℝ,
        P { ω | |Z ω - m (fun i => Y i ω)| ≤ c * Real.sqrt e } = gaussianReal 0 1 (Set.Icc (-c) c) := by
  obtain ⟨m, e, h1, h2⟩ := c162_estimated_trend hc hq R F hF hR sigma2 f r
  refine ⟨m, e, h1, ?_⟩
  intro Ω _ P Y Z beta hp he c
  have h3 := (h2 P Y Z beta hp).1
  have hne : P.map (fun ω => Z ω - m (fun i => Y i ω)) ≠ 0 := by
    rw [h3]; exact (inferInstance : IsProbabilityMeasure (gaussianReal 0 e.toNNReal)).ne_zero
  have hm : AEMeasurable (fun ω => Z ω - m (fun i => Y i ω)) P := by
    by_contra hn
    exact hne (Measure.map_of_not_aemeasurable hn)
  have h4 := standard_interval 0 e c he
  rw [← h3, Measure.map_apply_of_aemeasurable hm measurableSet_Icc] at h4
  rw [← h4]
  congr 1
  ext ω
  simp [abs_le]

/-- For every valid correlation, all samples, every trend and every point there is a Gaussian process as in C162. -/
theorem c162_process_exists (name : CorrName) (theta : List ℝ) (hp : ∀ t ∈ theta, 0 < t) (hcub : name ≠ .cubic)
    (hg : name = .generalizedExponential → theta.getD n 0 ≤ 2) (c : (Fin n → ℝ) → ℝ) (h : ∀ d, corr name theta d = some (c d))
    (X : Fin N → Fin n → ℝ) (x : Fin n → ℝ) (basis : (Fin n → ℝ) → Fin k → ℝ) (beta : Fin k → ℝ) (sigma2 : ℝ) (hs : 0 ≤ sigma2) :
    ∃ (Ω : Type) (_ : MeasurableSpace Ω) (P : Measure Ω) (_ : IsProbabilityMeasure P) (Y : Fin N → Ω → ℝ) (Z : Ω → ℝ),
      (∀ i, Measurable (Y i)) ∧
      IsGaussianModel P Y Z (of fun i => basis (X i)) (basis x) beta (of (correlationMatrix c X)) (corrVector c X x) sigma2 0 := by
  let X' : Fin (N + 1) → Fin n → ℝ := Fin.cons x X
  let S : Matrix (Fin (N + 1)) (Fin (N + 1)) ℝ := of fun i j => sigma2 * correlationMatrix c X' i j
  have hval := c90_matrix_valid name theta hp hcub hg c h X'
  have hS : S.PosSemidef := by
    refine PosSemidef.of_dotProduct_mulVec_nonneg ?_ fun w => ?_
    · ext i j
      simp [S, conjTranspose_apply, hval.1 j i]
    · have := mul_nonneg hs (hval.2.2.2 w)
      refine this.trans_eq ?_
      simp only [dotProduct, mulVec, S, of_apply, star_trivial, Finset.mul_sum]
      exact Finset.sum_congr rfl fun i _ => Finset.sum_congr rfl fun j _ => by ring
  let μ : EuclideanSpace ℝ (Fin (N + 1)) := WithLp.toLp 2 fun i => ∑ p, basis (X' i) p * beta p
  let P := multivariateGaussian μ S
  have hmean : ∀ i, ∫ ω, ω i ∂P = μ i := by
    intro i
    have h1 := (EuclideanSpace.proj (𝕜 := ℝ) i).integral_comp_comm (μ := P) (φ := fun ω => ω) IsGaussian.integrable_fun_id
    rw [integral_id_multivariateGaussian] at h1
    exact h1
  have hlaw : HasGaussianLaw (fun ω : EuclideanSpace ℝ (Fin (N + 1)) => ω) P := IsGaussian.hasGaussianLaw_id
  have hmem : ∀ i, MemLp (fun ω : EuclideanSpace ℝ (Fin (N + 1)) => ω i) 2 P := fun i =>
    (hlaw.map_fun (EuclideanSpace.proj (𝕜 := ℝ) i)).memLp_two
  have hentry : ∀ i j, correlationMatrix c X' i j = c (absDiff (X' i) (X' j)) := fun i j => matrix_entry hp h X' i j
  refine ⟨EuclideanSpace ℝ (Fin (N + 1)), inferInstance, P, inferInstance, fun i ω => ω i.succ, fun ω => ω 0, fun i => by fun_prop, ?_⟩
  refine ⟨⟨inferInstance, fun i => hmem _, hmem _, fun i => ?_, ?_, fun i j => ?_, fun i => ?_, ?_⟩, ?_⟩
  · rw [hmean]; rfl
  · rw [hmean]; rfl
  · rw [covariance_eval_multivariateGaussian hS]
    simp only [S, of_apply, hentry, matrix_entry hp h]
    simp [X']
  · rw [covariance_eval_multivariateGaussian hS]
    simp only [S, of_apply, hentry, corrVector]
    simp only [X', Fin.cons_succ, Fin.cons_zero]
    congr 2
    funext l
    simp only [absDiff, abs_sub_comm]
  · rw [variance_eval_multivariateGaussian hS]
    simp [S, hval.2.1]
  · let D : EuclideanSpace ℝ (Fin (N + 1)) →L[ℝ] ((Fin N → ℝ) × ℝ) :=
      (ContinuousLinearMap.pi fun i => EuclideanSpace.proj (𝕜 := ℝ) i.succ).prod (EuclideanSpace.proj (𝕜 := ℝ) 0)
    exact hlaw.map_fun D

/-! ### C163 -/

private theorem best_gain {mn : Bool} {y : Fin N → ℝ} {b : ℝ} (h : IsBest mn y b) (i : Fin N) (z : ℝ) : gain mn b z ≤ gain mn (y i) z := by
  have := h.2 i
  cases mn <;> simp [BetterOutcome, gain] at * <;> linarith

private theorem measurable_best {mn : Bool} {best : (Fin N → ℝ) → ℝ} (h : ∀ y, IsBest mn y (best y)) : Measurable best := by
  cases mn with
  | true =>
    refine measurable_of_Iio fun a => ?_
    have e : best ⁻¹' Set.Iio a = ⋃ i, {y : Fin N → ℝ | y i < a} := by
      ext y
      obtain ⟨⟨i, hi⟩, hb⟩ := h y
      simp only [BetterOutcome, if_true, not_lt] at hb
      simp only [Set.mem_preimage, Set.mem_Iio, Set.mem_iUnion, Set.mem_ofPred_eq]
      exact ⟨fun hy => ⟨i, hi ▸ hy⟩, fun ⟨j, hj⟩ => (hb j).trans_lt hj⟩
    rw [e]
    exact MeasurableSet.iUnion fun i => measurableSet_lt (measurable_pi_apply i) measurable_const
  | false =>
    refine measurable_of_Ioi fun a => ?_
    have e : best ⁻¹' Set.Ioi a = ⋃ i, {y : Fin N → ℝ | a < y i} := by
      ext y
      obtain ⟨⟨i, hi⟩, hb⟩ := h y
      simp only [BetterOutcome, Bool.false_eq_true, if_false, not_lt] at hb
      simp only [Set.mem_preimage, Set.mem_Ioi, Set.mem_iUnion, Set.mem_ofPred_eq]
      exact ⟨fun hy => ⟨i, hi ▸ hy⟩, fun ⟨j, hj⟩ => hj.trans_le (hb j)⟩
    rw [e]
    exact MeasurableSet.iUnion fun i => measurableSet_lt measurable_const (measurable_pi_apply i)

private theorem measurable_gain (mn : Bool) {best : (Fin N → ℝ) → ℝ} (hb : Measurable best) :
    Measurable fun p : (Fin N → ℝ) × ℝ => gain mn (best p.1) p.2 := by
  have h1 : Measurable fun p : (Fin N → ℝ) × ℝ => best p.1 := hb.comp measurable_fst
  cases mn
  · simp only [gain, Bool.false_eq_true, if_false]; exact measurable_snd.sub h1
  · simp only [gain, if_true]; exact h1.sub measurable_snd

/-- The conditional expectation of a function of observations and value, in terms of the posterior. -/
private theorem cond_value {Ω : Type} [MeasurableSpace Ω] {P : Measure Ω} [IsProbabilityMeasure P] {Y : Fin N → Ω → ℝ} {Z : Ω → ℝ} (hY : ∀ i, Measurable (Y i))
    (hZ : AEMeasurable Z P) {m : (Fin N → ℝ) → ℝ} {e : ℝ}
    (hpost : ∀ᵐ y ∂(P.map fun ω i => Y i ω), condDistrib Z (fun ω i => Y i ω) P y = predictive (m y) e)
    {g : (Fin N → ℝ) → ℝ → ℝ} (hg : Measurable fun p : (Fin N → ℝ) × ℝ => g p.1 p.2) (hi : Integrable (fun ω => g (fun i => Y i ω) (Z ω)) P) :
    ∀ᵐ ω ∂P, (P[fun ω' => g (fun i => Y i ω') (Z ω') | MeasurableSpace.comap (fun ω i => Y i ω) inferInstance]) ω =
      ∫ z, g (fun i => Y i ω) z ∂predictive (m fun i => Y i ω) e := by
  have hYm : Measurable fun ω i => Y i ω := measurable_pi_lambda _ hY
  have h1 := condExp_prod_ae_eq_integral_condDistrib (μ := P) hYm hZ (f := fun p : (Fin N → ℝ) × ℝ => g p.1 p.2) hg.stronglyMeasurable hi
  have h2 := ae_of_ae_map hYm.aemeasurable hpost
  filter_upwards [h1, h2] with ω e1 e2
  rw [e1, e2]

/-- **C163.**  Given trend coefficients, no noise, and the best observed value as plugin: unless the prediction counts as certain, the value of
`EI` is the conditional expectation, given the observations, of the improvement on the best of them. -/
theorem c163_expected_improvement_partial (hc : CholeskyRoutine chol) (R : Matrix (Fin N) (Fin N) ℝ) (F : Matrix (Fin N) (Fin k) ℝ)
    (b : Fin k → ℝ) (hR : (chol R).isSome) (sigma2 : ℝ) (hs : 0 < sigma2) (f : Fin k → ℝ) (r : Fin N → ℝ) (mn : Bool)
    (best : (Fin N → ℝ) → ℝ) (hbest : ∀ y, IsBest mn y (best y)) :
    ∃ (m : (Fin N → ℝ) → ℝ) (e : ℝ),
      (∀ y, gpPredict chol qr .noiseless R F (some b) sigma2 y f r = some (m y, e)) ∧
      ∀ {Ω : Type} [MeasurableSpace Ω] (P : Measure Ω) [IsProbabilityMeasure P] (Y : Fin N → Ω → ℝ) (Z : Ω → ℝ), (∀ i, Measurable (Y i)) →
        IsGaussianModel P Y Z F f b R r sigma2 0 → eiThreshold (some sigma2) ≤ Real.sqrt e →
        ∀ᵐ ω ∂P, ∃ a, acqInit .EI { plugin := some (best fun i => Y i ω) } { sigma2 := some sigma2 } mn = .ok a ∧
          acqValue a { sigma2 := some sigma2 } { mean := m fun i => Y i ω, mse := e } =
            some ((P[fun ω' => max (gain mn (best fun i => Y i ω') (Z ω')) 0 | MeasurableSpace.comap (fun ω i => Y i ω) inferInstance]) ω) := by
  obtain ⟨m, e, h1, -, h2⟩ := c162_posterior (qr := qr) hc R F b hR sigma2 f r
  refine ⟨m, e, h1, ?_⟩
  intro Ω _ P _ Y Z hY hp hth
  have he : 0 < e := by
    have h0 : 0 < eiThreshold (some sigma2) := div_pos (Real.sqrt_pos.2 hs) (by norm_num)
    exact Real.sqrt_pos.1 (h0.trans_le hth)
  have hbm := measurable_best hbest
  have hZ := hp.memZ.integrable one_le_two
  have hB : Integrable (fun ω => best fun i => Y i ω) P := by
    have hsum : Integrable (fun ω => ∑ i, |Y i ω|) P := integrable_finsetSum _ fun i _ => ((hp.memY i).integrable one_le_two).abs
    refine hsum.mono' (hbm.comp (measurable_pi_lambda _ hY)).aestronglyMeasurable (Filter.Eventually.of_forall fun ω => ?_)
    obtain ⟨⟨i, hi⟩, -⟩ := hbest fun i => Y i ω
    rw [← hi, Real.norm_eq_abs]
    exact Finset.single_le_sum (f := fun i => |Y i ω|) (fun _ _ => abs_nonneg _) (Finset.mem_univ i)
  have hint : Integrable (fun ω => max (gain mn (best fun i => Y i ω) (Z ω)) 0) P := by
    cases mn
    · simp only [gain, Bool.false_eq_true, if_false]; exact (hZ.sub hB).pos_part
    · simp only [gain, if_true]; exact (hB.sub hZ).pos_part
  have h3 := cond_value hY hZ.aestronglyMeasurable.aemeasurable (h2 P Y Z hp) (g := fun y z => max (gain mn (best y) z) 0)
    ((measurable_gain mn hbm).max measurable_const) hint
  filter_upwards [h3] with ω hω
  refine ⟨_, by simp [acqInit]; rfl, ?_⟩
  rw [c73_ei_is_expected_improvement_partial { plugin := some (best fun i => Y i ω) } { sigma2 := some sigma2 } mn _ (best fun i => Y i ω)
    { mean := m fun i => Y i ω, mse := e } (by simp [acqInit]) rfl he (fun v hv => by cases hv; exact hs) hth, hω]
  rfl

/-- **C163** for `MGFI`: the conditional expectation, given the observations, of `exp(t (improvement - 1))` on the event of an improvement, with
`t` cut off at 22.36. -/
theorem c163_moment_partial (hc : CholeskyRoutine chol) (R : Matrix (Fin N) (Fin N) ℝ) (F : Matrix (Fin N) (Fin k) ℝ)
    (b : Fin k → ℝ) (hR : (chol R).isSome) (sigma2 : ℝ) (f : Fin k → ℝ) (r : Fin N → ℝ) (mn : Bool)
    (best : (Fin N → ℝ) → ℝ) (hbest : ∀ y, IsBest mn y (best y)) (t : ℝ) (ht : 0 < t) :
    ∃ (m : (Fin N → ℝ) → ℝ) (e : ℝ),
      (∀ y, gpPredict chol qr .noiseless R F (some b) sigma2 y f r = some (m y, e)) ∧
      ∀ {Ω : Type} [MeasurableSpace Ω] (P : Measure Ω) [IsProbabilityMeasure P] (Y : Fin N → Ω → ℝ) (Z : Ω → ℝ), (∀ i, Measurable (Y i)) →
        IsGaussianModel P Y Z F f b R r sigma2 0 → 1 / 10 ^ 8 < Real.sqrt e →
        ∀ᵐ ω ∂P, ∃ a, acqInit .MGFI { plugin := some (best fun i => Y i ω), t := some t } {} mn = .ok a ∧
          acqValue a {} { mean := m fun i => Y i ω, mse := e } =
            some ((P[fun ω' => (atLeastAsGood mn (best fun i => Y i ω')).indicator
              (fun z => Real.exp (min t 22.36 * (gain mn (best fun i => Y i ω') z - 1))) (Z ω') | MeasurableSpace.comap (fun ω i => Y i ω) inferInstance]) ω) := by
  obtain ⟨m, e, h1, -, h2⟩ := c162_posterior (qr := qr) hc R F b hR sigma2 f r
  refine ⟨m, e, h1, ?_⟩
  intro Ω _ P _ Y Z hY hp hth
  set s : ℝ := min t 22.36 with hs
  have hs0 : 0 ≤ s := le_min ht.le (by norm_num)
  have hbm := measurable_best hbest
  have hZ := hp.memZ.integrable one_le_two
  obtain ⟨⟨i0, -⟩, -⟩ := hbest 0
  have hgm : Measurable fun p : (Fin N → ℝ) × ℝ =>
      (atLeastAsGood mn (best p.1)).indicator (fun z => Real.exp (s * (gain mn (best p.1) z - 1))) p.2 := by
    have hG := measurable_gain mn hbm
    have e0 : (fun p : (Fin N → ℝ) × ℝ => (atLeastAsGood mn (best p.1)).indicator (fun z => Real.exp (s * (gain mn (best p.1) z - 1))) p.2) =
        {p : (Fin N → ℝ) × ℝ | 0 ≤ gain mn (best p.1) p.2}.indicator (fun p => Real.exp (s * (gain mn (best p.1) p.2 - 1))) := by
      funext p
      by_cases hp : 0 ≤ gain mn (best p.1) p.2
      · rw [Set.indicator_of_mem (by exact hp), Set.indicator_of_mem (by exact hp)]
      · rw [Set.indicator_of_notMem (by exact hp), Set.indicator_of_notMem (by exact hp)]
    rw [e0]
    exact (Real.measurable_exp.comp ((hG.sub measurable_const).const_mul s)).indicator (measurableSet_le measurable_const hG)
  have hdom : Integrable (fun ω => Real.exp (s * (gain mn (Y i0 ω) (Z ω) - 1))) P := by
    have hg : HasGaussianLaw (fun ω => gain mn (Y i0 ω) (Z ω)) P := by
      let A : ((Fin N → ℝ) × ℝ) →L[ℝ] ℝ := (ContinuousLinearMap.proj i0).comp (ContinuousLinearMap.fst ℝ _ _)
      let B : ((Fin N → ℝ) × ℝ) →L[ℝ] ℝ := ContinuousLinearMap.snd ℝ _ _
      cases mn
      · have := hp.joint.map_fun (B - A)
        simpa [gain, A, B] using this
      · have := hp.joint.map_fun (A - B)
        simpa [gain, A, B] using this
    have h4 := integrable_exp_mul_gaussianReal (μ := P[fun ω => gain mn (Y i0 ω) (Z ω)]) (v := Var[fun ω => gain mn (Y i0 ω) (Z ω); P].toNNReal) s
    rw [← hg.map_eq_gaussianReal, integrable_map_measure (by fun_prop) hg.aemeasurable] at h4
    refine (h4.const_mul (Real.exp (-s))).congr (Filter.Eventually.of_forall fun ω => ?_)
    simp only [Function.comp_apply]
    rw [← Real.exp_add]
    congr 1
    ring
  have hint : Integrable (fun ω => (atLeastAsGood mn (best fun i => Y i ω)).indicator
      (fun z => Real.exp (s * (gain mn (best fun i => Y i ω) z - 1))) (Z ω)) P := by
    refine hdom.mono' (hgm.comp_aemeasurable ((measurable_pi_lambda _ hY).aemeasurable.prodMk hZ.aestronglyMeasurable.aemeasurable)).aestronglyMeasurable
      (Filter.Eventually.of_forall fun ω => ?_)
    rw [Real.norm_eq_abs, abs_of_nonneg (Set.indicator_nonneg (fun _ _ => (Real.exp_pos _).le) _)]
    refine (Set.indicator_le_self' (fun _ _ => (Real.exp_pos _).le) _).trans ?_
    have := best_gain (hbest fun i => Y i ω) i0 (Z ω)
    exact Real.exp_le_exp.2 (mul_le_mul_of_nonneg_left (by linarith) hs0)
  have h3 := cond_value hY hZ.aestronglyMeasurable.aemeasurable (h2 P Y Z hp)
    (g := fun y z => (atLeastAsGood mn (best y)).indicator (fun z => Real.exp (s * (gain mn (best y) z - 1))) z) hgm hint
  filter_upwards [h3] with ω hω
  have hok : ∃ a, acqInit .MGFI { plugin := some (best fun i => Y i ω), t := some t } {} mn = .ok a := by
    simp [acqInit, ht]
  obtain ⟨a, ha⟩ := hok
  refine ⟨a, ha, ?_⟩
  rw [c73_mgfi_is_moment_partial { plugin := some (best fun i => Y i ω), t := some t } {} mn a (best fun i => Y i ω) t
    { mean := m fun i => Y i ω, mse := e } ha rfl rfl hth, hω, momentOfImprovement, integral_indicator]
  · cases mn
    · exact measurableSet_le measurable_const (measurable_id.sub measurable_const)
    · exact measurableSet_le measurable_const (measurable_const.sub measurable_id)

/-- **C163** for `EpsilonPI`: the conditional probability, given the observations, that the value is worse than the best of them by at most
`epsilon` times the size of the predicted mean.  A prediction need only have a positive error. -/
theorem c163_probability (hc : CholeskyRoutine chol) (R : Matrix (Fin N) (Fin N) ℝ) (F : Matrix (Fin N) (Fin k) ℝ)
    (b : Fin k → ℝ) (hR : (chol R).isSome) (sigma2 : ℝ) (f : Fin k → ℝ) (r : Fin N → ℝ) (mn : Bool)
    (best : (Fin N → ℝ) → ℝ) (hbest : ∀ y, IsBest mn y (best y)) (eps : ℝ) (heps : 0 < eps) :
    ∃ (m : (Fin N → ℝ) → ℝ) (e : ℝ),
      (∀ y, gpPredict chol qr .noiseless R F (some b) sigma2 y f r = some (m y, e)) ∧
      ∀ {Ω : Type} [MeasurableSpace Ω] (P : Measure Ω) [IsProbabilityMeasure P] (Y : Fin N → Ω → ℝ) (Z : Ω → ℝ), (∀ i, Measurable (Y i)) →
        IsGaussianModel P Y Z F f b R r sigma2 0 → 0 < e →
        ∀ᵐ ω ∂P, ∃ a, acqInit .EpsilonPI { plugin := some (best fun i => Y i ω), epsilon := some eps } {} mn = .ok a ∧
          acqValue a {} { mean := m fun i => Y i ω, mse := e } =
            some ((P[{ ω' | -(eps * |m fun i => Y i ω'|) ≤ gain mn (best fun i => Y i ω') (Z ω') }.indicator (fun _ => (1 : ℝ)) |
              MeasurableSpace.comap (fun ω i => Y i ω) inferInstance]) ω) := by
  obtain ⟨m, e, h1, hm, h2⟩ := c162_posterior (qr := qr) hc R F b hR sigma2 f r
  refine ⟨m, e, h1, ?_⟩
  intro Ω _ P _ Y Z hY hp he
  have hbm := measurable_best hbest
  have hZ := (hp.memZ.integrable one_le_two).aestronglyMeasurable.aemeasurable
  have hset : MeasurableSet { p : (Fin N → ℝ) × ℝ | -(eps * |m p.1|) ≤ gain mn (best p.1) p.2 } :=
    measurableSet_le (((hm.comp measurable_fst).abs.const_mul eps).neg) (measurable_gain mn hbm)
  have hgm : Measurable fun p : (Fin N → ℝ) × ℝ => { z | -(eps * |m p.1|) ≤ gain mn (best p.1) z }.indicator (fun _ => (1 : ℝ)) p.2 :=
    (measurable_const (a := (1 : ℝ))).indicator hset
  have hint : Integrable (fun ω => { z | -(eps * |m fun i => Y i ω|) ≤ gain mn (best fun i => Y i ω) z }.indicator (fun _ => (1 : ℝ)) (Z ω)) P := by
    refine (integrable_const (1 : ℝ)).mono'
      (hgm.comp_aemeasurable ((measurable_pi_lambda _ hY).aemeasurable.prodMk hZ)).aestronglyMeasurable (Filter.Eventually.of_forall fun ω => ?_)
    rw [Real.norm_eq_abs, abs_of_nonneg (Set.indicator_nonneg (fun _ _ => zero_le_one) _)]
    exact Set.indicator_le_self' (fun _ _ => zero_le_one) _
  have h3 := cond_value hY hZ (h2 P Y Z hp)
    (g := fun y z => { z | -(eps * |m y|) ≤ gain mn (best y) z }.indicator (fun _ => (1 : ℝ)) z) hgm hint
  filter_upwards [h3] with ω hω
  have hok : ∃ a, acqInit .EpsilonPI { plugin := some (best fun i => Y i ω), epsilon := some eps } {} mn = .ok a := by
    simp [acqInit, heps]
  obtain ⟨a, ha⟩ := hok
  refine ⟨a, ha, ?_⟩
  rw [c73_epsilon_pi_is_probability { plugin := some (best fun i => Y i ω), epsilon := some eps } {} mn a (best fun i => Y i ω) eps
    { mean := m fun i => Y i ω, mse := e } ha rfl rfl he]
  refine congrArg some (Eq.trans ?_ hω.symm)
  have hs1 : MeasurableSet { z : ℝ | -(eps * |m fun i => Y i ω|) ≤ gain mn (best fun i => Y i ω) z } :=
    measurable_prodMk_left (x := fun i => Y i ω) hset
  rw [integral_indicator_const _ hs1]
  simp [probabilityOfImprovement]

/-! ### The hypotheses can be met -/

open Classical in
private noncomputable def oneChol : Matrix (Fin 1) (Fin 1) ℝ → Option (Matrix (Fin 1) (Fin 1) ℝ) := fun A => if A = 1 then some 1 else none

private theorem oneChol_routine : CholeskyRoutine oneChol := by
  intro A L h
  unfold oneChol at h
  split_ifs at h with hA
  cases Option.some.inj h
  exact ⟨fun i j hij => absurd hij (by omega), fun i => by simp, by simp [hA]⟩

private theorem one_matrix : (of (correlationMatrix sq1 (fun (_ : Fin 1) _ => (0 : ℝ))) : Matrix (Fin 1) (Fin 1) ℝ) = 1 := by
  ext i j
  obtain rfl : i = j := Subsingleton.elim _ _
  simp [correlationMatrix_apply]

private theorem one_corr : corrVector sq1 (fun (_ : Fin 1) _ => (0 : ℝ)) (fun _ => 1) = fun _ => Real.exp (-1) := by
  funext i
  simp [corrVector, sq1, absDiff]

private theorem one_some : (oneChol (1 : Matrix (Fin 1) (Fin 1) ℝ)).isSome := by simp [oneChol]

/-- One observation at 0 and the point 1, trend coefficient 0: the reported error is positive. -/
private theorem one_error (y : Fin 1 → ℝ) :
    ∃ v, gpPredict oneChol (fun A => (1, A)) .noiseless (1 : Matrix (Fin 1) (Fin 1) ℝ) (of fun _ _ => 1 : Matrix (Fin 1) (Fin 1) ℝ) (some fun _ => 0) 1 y (fun _ => 1)
      (fun _ => Real.exp (-1)) = some (v, 1 - Real.exp (-2)) := by
  have h2 : Real.exp (-1) ^ 2 = Real.exp (-2) := by rw [← Real.exp_nat_mul]; norm_num
  refine ⟨Real.exp (-1) * y 0, ?_⟩
  simp only [gpPredict, computeAux, gpMatrix, oneChol, if_true, Option.map_some]
  simp only [gpMean, gpMse, gpMseRaw, gpBeta, gpGamma, gpU, inv_one, one_mulVec, transpose_one]
  simp [dotProduct, mulVec, h2]

private theorem one_sqrt : 1 / 2 ≤ Real.sqrt (1 - Real.exp (-2)) := by
  have h1 : Real.exp (-2) ≤ 1 / 2 := by
    rw [Real.exp_neg, inv_le_comm₀ (Real.exp_pos _) (by norm_num)]
    have := Real.add_one_le_exp (2 : ℝ)
    linarith
  refine Real.le_sqrt_of_sq_le ?_
  linarith

/-- C162 and C163: a Gaussian process observed once, where the prediction at another point does not count as certain. -/
example : ∃ (m : (Fin 1 → ℝ) → ℝ) (Ω : Type) (_ : MeasurableSpace Ω) (P : Measure Ω) (_ : IsProbabilityMeasure P) (Y : Fin 1 → Ω → ℝ) (Z : Ω → ℝ),
    (∀ i, Measurable (Y i)) ∧
    IsGaussianModel P Y Z (of fun _ _ => 1 : Matrix (Fin 1) (Fin 1) ℝ) (fun _ => 1) (fun _ => 0) (1 : Matrix (Fin 1) (Fin 1) ℝ) (fun _ => Real.exp (-1)) 1 0 ∧
    (∀ᵐ ω ∂P, ∃ a, acqInit .EI { plugin := some (Y 0 ω) } { sigma2 := some 1 } true = .ok a ∧
      acqValue a { sigma2 := some 1 } { mean := m fun i => Y i ω, mse := 1 - Real.exp (-2) } =
        some ((P[fun ω' => max (gain true (Y 0 ω') (Z ω')) 0 | MeasurableSpace.comap (fun ω i => Y i ω) inferInstance]) ω)) := by
  obtain ⟨m, e, h1, h2⟩ := c163_expected_improvement_partial (qr := fun A => (1, A)) oneChol_routine (1 : Matrix (Fin 1) (Fin 1) ℝ) (of fun _ _ => 1 : Matrix (Fin 1) (Fin 1) ℝ)
    (fun _ => 0) one_some 1 one_pos (fun _ => 1) (fun _ => Real.exp (-1)) true (fun y => y 0)
    (fun y => ⟨⟨0, rfl⟩, fun i => by rw [Subsingleton.elim i 0]; simp [BetterOutcome]⟩)
  obtain ⟨v, hv⟩ := one_error 0
  have he : e = 1 - Real.exp (-2) := by
    have := (h1 0).symm.trans hv
    exact (Prod.mk.inj (Option.some.inj this)).2
  subst he
  obtain ⟨Ω, hΩ, P, hP, Y, Z, hY, hG⟩ := c162_process_exists .squaredExponential [1] (by simp) (by simp) (by simp) sq1 sq1_corr
    (fun (_ : Fin 1) _ => (0 : ℝ)) (fun _ => 1) (fun _ (_ : Fin 1) => 1) (fun _ => 0) 1 zero_le_one
  rw [one_matrix, one_corr] at hG
  refine ⟨m, Ω, hΩ, P, hP, Y, Z, hY, hG, h2 P Y Z hY hG ?_⟩
  simp only [eiThreshold, Real.sqrt_one]
  exact le_trans (by norm_num) one_sqrt

/-- The same process meets the conditions of `c163_moment_partial` and `c163_probability`. -/
example : 1 / 10 ^ 8 < Real.sqrt (1 - Real.exp (-2)) := lt_of_lt_of_le (by norm_num) one_sqrt

/-- C162 with an estimated constant trend and two samples: routines, an identifiable trend and a process exist. -/
example : ∃ (m : (Fin 2 → ℝ) → ℝ) (e : ℝ) (Ω : Type) (_ : MeasurableSpace Ω) (P : Measure Ω) (Y : Fin 2 → Ω → ℝ) (Z : Ω → ℝ),
    IsGaussianModel P Y Z (of fun _ _ => 1 : Matrix (Fin 2) (Fin 1) ℝ) (fun _ => 1) (fun _ => 7) (of (correlationMatrix sq1 (fun i _ => (i.val : ℝ))))
      (corrVector sq1 (fun (i : Fin 2) _ => (i.val : ℝ)) (fun _ => 3)) 1 0 ∧
    P.map (fun ω => Z ω - m (fun i => Y i ω)) = predictive 0 e ∧
    IndepFun (fun ω => (of fun _ i => if i = 0 then 1 else -1 : Matrix (Fin 1) (Fin 2) ℝ) *ᵥ (fun i => Y i ω)) (fun ω => Z ω - m (fun i => Y i ω)) P := by
  obtain ⟨m, e, h1, h2⟩ := c162_estimated_trend anyChol_routine anyQr_routine (of (correlationMatrix sq1 (fun (i : Fin 2) _ => (i.val : ℝ))))
    (of fun _ _ => 1 : Matrix (Fin 2) (Fin 1) ℝ) const_rank sq1_chol 1 (fun _ => 1) (corrVector sq1 (fun (i : Fin 2) _ => (i.val : ℝ)) (fun _ => 3))
  obtain ⟨Ω, hΩ, P, hP, Y, Z, hY, hG⟩ := c162_process_exists .squaredExponential [1] (by simp) (by simp) (by simp) sq1 sq1_corr
    (fun (i : Fin 2) _ => (i.val : ℝ)) (fun _ => 3) (fun _ (_ : Fin 1) => 1) (fun _ => 7) 1 zero_le_one
  obtain ⟨h3, h4⟩ := h2 P Y Z (fun _ => 7) hG
  refine ⟨m, e, Ω, hΩ, P, Y, Z, hG, h3, h4 _ ?_⟩
  ext i p
  simp [Matrix.mul_apply, Fin.sum_univ_two]

end Verif.Props
