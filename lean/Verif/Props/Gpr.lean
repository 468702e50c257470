import Verif.Proofs.Gpr
import Verif.Props.Kernels

/-!
# C95-C100: predictions of the Gaussian process
-/
namespace Verif.Props

open Matrix MeasureTheory ProbabilityTheory Verif.Model Verif.Spec Verif.Proofs

variable {n N k : ℕ} {chol : Matrix (Fin N) (Fin N) ℝ → Option (Matrix (Fin N) (Fin N) ℝ)}
  {qr : Matrix (Fin N) (Fin k) ℝ → Matrix (Fin N) (Fin k) ℝ × Matrix (Fin k) (Fin k) ℝ}

private theorem G_unit {L : Matrix (Fin N) (Fin N) ℝ} (hL : IsUnit L.det) {F Q : Matrix (Fin N) (Fin k) ℝ} {G : Matrix (Fin k) (Fin k) ℝ}
    (hq : IsQr (L⁻¹ * F) Q G) (hF : FullRank F) : IsUnit G.det := by
  rw [isUnit_iff_ne_zero]
  intro h0
  obtain ⟨b, hb, hGb⟩ := Matrix.exists_mulVec_eq_zero_iff.2 h0
  refine hb (hF b ?_)
  have h1 : (L⁻¹ * F) *ᵥ b = 0 := by rw [← hq.mul, ← mulVec_mulVec, hGb, mulVec_zero]
  have h2 : L *ᵥ ((L⁻¹ * F) *ᵥ b) = F *ᵥ b := by
    rw [mulVec_mulVec, ← Matrix.mul_assoc, mul_nonsing_inv _ hL, Matrix.one_mul]
  rw [← h2, h1, mulVec_zero]

/-- The prediction with estimated coefficients, in terms of weights. -/
theorem predict_none {mode : GpMode} {R0 L : Matrix (Fin N) (Fin N) ℝ} (hc : CholeskyRoutine chol) (hq : QrRoutine qr)
    {F : Matrix (Fin N) (Fin k) ℝ} (hF : FullRank F) (hL : chol (gpMatrix mode R0) = some L) (sigma2 : ℝ) (f : Fin k → ℝ) (r : Fin N → ℝ) :
    ∃ w, (∀ y, ∃ a, computeAux chol qr (gpMatrix mode R0) F none y = some a ∧ gpMean a none f r = w ⬝ᵥ y ∧
        gpMseRaw a none sigma2 f r = errVar (gpMatrix mode R0) r w * sigma2) ∧ Fᵀ *ᵥ w = f ∧
      ∀ w', Fᵀ *ᵥ w' = f → errVar (gpMatrix mode R0) r w ≤ errVar (gpMatrix mode R0) r w' := by
  have h := hc _ _ hL
  have hu := chol_det h
  have hG := G_unit hu (hq (L⁻¹ * F)) hF
  refine ⟨uWeights L F (qr (L⁻¹ * F)).1 (qr (L⁻¹ * F)).2 f r, fun y => ?_, uWeights_unbiased hu (hq _) hG f r,
    fun w' hw' => uWeights_optimal h (hq _) hG f r w' hw'⟩
  refine ⟨_, by unfold computeAux; rw [hL]; rfl, ?_, ?_⟩
  · rw [uWeights_dot (hq _) hG]; rfl
  · rw [uWeights_errVar h (hq _)]; rfl

/-- The prediction with given coefficients. -/
theorem predict_some {mode : GpMode} {R0 L : Matrix (Fin N) (Fin N) ℝ} (hc : CholeskyRoutine chol)
    {F : Matrix (Fin N) (Fin k) ℝ} (hL : chol (gpMatrix mode R0) = some L) (b : Fin k → ℝ) (sigma2 : ℝ) (f : Fin k → ℝ) (r : Fin N → ℝ) :
    ∃ w, (∀ y, ∃ a, computeAux chol qr (gpMatrix mode R0) F (some b) y = some a ∧
        gpMean a (some b) f r = f ⬝ᵥ b + w ⬝ᵥ (y - F *ᵥ b) ∧
        gpMseRaw a (some b) sigma2 f r = errVar (gpMatrix mode R0) r w * sigma2) ∧
      (w = (L⁻¹)ᵀ *ᵥ (L⁻¹ *ᵥ r)) ∧
      ∀ w', errVar (gpMatrix mode R0) r w ≤ errVar (gpMatrix mode R0) r w' := by
  have h := hc _ _ hL
  have hu := chol_det h
  refine ⟨(L⁻¹)ᵀ *ᵥ (L⁻¹ *ᵥ r), fun y => ?_, rfl, fun w' => ?_⟩
  · refine ⟨_, by unfold computeAux; rw [hL]; rfl, ?_, ?_⟩
    · simp only [gpMean, gpBeta, gpGamma]
      congr 1
      rw [← mulVec_sub, dotProduct_comm, transpose_inv_dot, transpose_nonsing_inv, transpose_inv_dot, dotProduct_comm]
    · rw [transpose_nonsing_inv, errVar_complete_square h]
      simp [gpMseRaw, gpU, sum_sq_eq]
  · rw [transpose_nonsing_inv, errVar_complete_square h]
    conv_rhs => rw [← inv_transpose_mulVec hu w']
    rw [errVar_complete_square h, sub_self]
    have := dot_self_nonneg (Lᵀ *ᵥ w' - L⁻¹ *ᵥ r)
    simp only [dotProduct_zero]
    linarith

private theorem gpMse_of_nonneg {a : GpAux N k} {beta : Option (Fin k → ℝ)} {sigma2 : ℝ} {f : Fin k → ℝ} {r : Fin N → ℝ}
    (h : 0 ≤ gpMseRaw a beta sigma2 f r) : gpMse a beta sigma2 f r = gpMseRaw a beta sigma2 f r := if_neg (not_lt.2 h)

private theorem mse_nonneg {Ω : Type*} [MeasurableSpace Ω] (P : Measure Ω) (Y : Fin N → Ω → ℝ) (Z : Ω → ℝ) (m : (Fin N → ℝ) → ℝ) :
    0 ≤ meanSquaredError P Y Z m := integral_nonneg fun _ => sq_nonneg _

/-! ### C95 -/

/-- **C95.**  Estimated trend, no noise: whenever the factorisation succeeds and the trend is identifiable, prediction succeeds for
all observations; it is a linear unbiased predictor; for every process with these correlations, whatever the coefficients of its
trend, the reported value is the mean squared error of the prediction, and no linear unbiased predictor has a smaller one. -/
theorem c95_best_linear_unbiased (hc : CholeskyRoutine chol) (hq : QrRoutine qr) (R : Matrix (Fin N) (Fin N) ℝ)
    (F : Matrix (Fin N) (Fin k) ℝ) (hF : FullRank F) (hR : (chol R).isSome) (sigma2 : ℝ) (f : Fin k → ℝ) (r : Fin N → ℝ) :
    ∃ (m : (Fin N → ℝ) → ℝ) (e : ℝ) (w : Fin N → ℝ),
      (∀ y, gpPredict chol qr .noiseless R F none sigma2 y f r = some (m y, e)) ∧
      (∀ y, m y = ∑ i, w i * y i) ∧ UnbiasedWeights F f w ∧
      ∀ {Ω : Type} [MeasurableSpace Ω] (P : Measure Ω) (Y : Fin N → Ω → ℝ) (Z : Ω → ℝ) (beta : Fin k → ℝ),
        IsProcess P Y Z F f beta R r sigma2 0 →
        meanSquaredError P Y Z m = e ∧
        ∀ w', UnbiasedWeights F f w' → meanSquaredError P Y Z m ≤ meanSquaredError P Y Z (fun y => ∑ i, w' i * y i) := by
  obtain ⟨L, hL⟩ := Option.isSome_iff_exists.1 hR
  obtain ⟨w, hw, hun, hopt⟩ := predict_none (mode := .noiseless) (R0 := R) hc hq hF hL sigma2 f r
  simp only [gpMatrix] at hw hopt
  refine ⟨fun y => w ⬝ᵥ y, if errVar R r w * sigma2 < 0 then 0 else errVar R r w * sigma2, w, fun y => ?_, fun y => rfl,
    unbiased_iff.2 hun, ?_⟩
  · obtain ⟨a, ha, h1, h2⟩ := hw y
    simp only [gpPredict, gpMatrix, ha, Option.map_some, h1, gpMse, h2]
  · intro Ω _ P Y Z beta hp
    have hmse : ∀ w', UnbiasedWeights F f w' → meanSquaredError P Y Z (fun y => w' ⬝ᵥ y) = errVar R r w' * sigma2 := by
      intro w' hw'
      have := mse_affine hp 0 w'
      simp only [zero_add, sub_zero, zero_mul, add_zero] at this
      rw [this]
      have hb : f ⬝ᵥ beta - w' ⬝ᵥ (F *ᵥ beta) = 0 := sub_eq_zero.2 (hw' beta).symm
      rw [hb]; ring
    have h0 := hmse w (unbiased_iff.2 hun)
    have hnn : 0 ≤ errVar R r w * sigma2 := by rw [← h0]; exact mse_nonneg P Y Z _
    refine ⟨by rw [h0, if_neg (not_lt.2 hnn)], fun w' hw' => ?_⟩
    have hs : 0 ≤ sigma2 := by rw [← hp.varZ]; exact variance_nonneg _ _
    have h1 : meanSquaredError P Y Z (fun y => ∑ i, w' i * y i) = errVar R r w' * sigma2 := hmse w' hw'
    rw [h0, h1]
    exact mul_le_mul_of_nonneg_right (hopt w' (unbiased_iff.1 hw')) hs

/-- **C95.**  Given trend coefficients, no noise: for every process with this trend and these correlations the prediction is unbiased,
the reported value is its mean squared error, and no affine predictor has a smaller one. -/
theorem c95_best_affine (hc : CholeskyRoutine chol) (R : Matrix (Fin N) (Fin N) ℝ)
    (F : Matrix (Fin N) (Fin k) ℝ) (b : Fin k → ℝ) (hR : (chol R).isSome) (sigma2 : ℝ) (f : Fin k → ℝ) (r : Fin N → ℝ) :
    ∃ (m : (Fin N → ℝ) → ℝ) (e : ℝ),
      (∀ y, gpPredict chol qr .noiseless R F (some b) sigma2 y f r = some (m y, e)) ∧
      ∀ {Ω : Type} [MeasurableSpace Ω] (P : Measure Ω) (Y : Fin N → Ω → ℝ) (Z : Ω → ℝ),
        IsProcess P Y Z F f b R r sigma2 0 →
        meanSquaredError P Y Z m = e ∧
        ∀ (c : ℝ) (w' : Fin N → ℝ), meanSquaredError P Y Z m ≤ meanSquaredError P Y Z (fun y => c + ∑ i, w' i * y i) := by
  obtain ⟨L, hL⟩ := Option.isSome_iff_exists.1 hR
  obtain ⟨w, hw, -, hopt⟩ := predict_some (qr := qr) (mode := .noiseless) (R0 := R) (F := F) hc hL b sigma2 f r
  simp only [gpMatrix] at hw hopt
  refine ⟨fun y => f ⬝ᵥ b + w ⬝ᵥ (y - F *ᵥ b), if errVar R r w * sigma2 < 0 then 0 else errVar R r w * sigma2, fun y => ?_, ?_⟩
  · obtain ⟨a, ha, h1, h2⟩ := hw y
    simp only [gpPredict, gpMatrix, ha, Option.map_some, h1, gpMse, h2]
  · intro Ω _ P Y Z hp
    have hs : 0 ≤ sigma2 := by rw [← hp.varZ]; exact variance_nonneg _ _
    have e0 : (fun y : Fin N → ℝ => f ⬝ᵥ b + w ⬝ᵥ (y - F *ᵥ b)) = fun y => (f ⬝ᵥ b - w ⬝ᵥ (F *ᵥ b)) + w ⬝ᵥ y := by
      funext y; rw [dotProduct_sub]; ring
    have h0 : meanSquaredError P Y Z (fun y => f ⬝ᵥ b + w ⬝ᵥ (y - F *ᵥ b)) = errVar R r w * sigma2 := by
      rw [e0, mse_affine hp]; ring
    have hnn : 0 ≤ errVar R r w * sigma2 := by rw [← h0]; exact mse_nonneg P Y Z _
    refine ⟨by rw [h0, if_neg (not_lt.2 hnn)], fun c w' => ?_⟩
    have h1 := mse_affine hp c w'
    have h2 : meanSquaredError P Y Z (fun y => c + ∑ i, w' i * y i) = meanSquaredError P Y Z (fun y => c + w' ⬝ᵥ y) := rfl
    rw [h0, h2, h1]
    have := mul_le_mul_of_nonneg_right (hopt w') hs
    nlinarith [sq_nonneg (f ⬝ᵥ b - c - w' ⬝ᵥ (F *ᵥ b))]

/-- Four equally likely outcomes. -/
private noncomputable def uniform4 : Measure (Fin 4) := (1 / 4 : ENNReal) • Measure.count

private theorem integral_uniform4 (g : Fin 4 → ℝ) : ∫ ω, g ω ∂uniform4 = (g 0 + g 1 + g 2 + g 3) / 4 := by
  unfold uniform4
  rw [integral_smul_measure, integral_count, Fin.sum_univ_four]
  simp
  ring

private instance : IsProbabilityMeasure uniform4 := ⟨by
  unfold uniform4
  rw [Measure.smul_apply, Measure.count_univ]
  simp
  exact ENNReal.inv_mul_cancel (by simp) (by simp)⟩

/-- One observation `Y = Z * a + e * b` of a process `Z`, with trend coefficient `c`. -/
private theorem process_example (a b c : ℝ) (R r sigma2 noise : ℝ) (h1 : a ^ 2 + b ^ 2 = sigma2 * R + noise) (h2 : a = sigma2 * r)
    (h3 : sigma2 = 1) :
    IsProcess (N := 1) (k := 1) uniform4 (fun _ => ![c + a + b, c + a - b, c - a + b, c - a - b]) ![c + 1, c + 1, c - 1, c - 1] (of fun _ _ => 1) (fun _ => 1)
      (fun _ => c) (of fun _ _ => R) (fun _ => r) sigma2 noise where
  prob := inferInstance
  memY _ := MemLp.of_discrete
  memZ := MemLp.of_discrete
  meanY i := by
    rw [integral_uniform4]
    simp
    ring
  meanZ := by
    rw [integral_uniform4]
    simp
    ring
  covY i j := by
    have : i = j := Subsingleton.elim _ _
    rw [if_pos this, covariance]
    simp only [integral_uniform4]
    simp
    rw [← h1]
    ring
  covYZ i := by
    rw [covariance]
    simp only [integral_uniform4]
    simp
    rw [← h2]
    ring
  varZ := by
    rw [variance_eq_integral (measurable_of_finite _).aemeasurable, integral_uniform4, integral_uniform4]
    simp
    rw [h3]
    ring

/-- Non-vacuity: routines, an identifiable trend and a process that meet the hypotheses of C95. -/
example : ∃ (chol : Matrix (Fin 1) (Fin 1) ℝ → Option (Matrix (Fin 1) (Fin 1) ℝ))
    (qr : Matrix (Fin 1) (Fin 1) ℝ → Matrix (Fin 1) (Fin 1) ℝ × Matrix (Fin 1) (Fin 1) ℝ) (P : Measure (Fin 4)) (Y : Fin 1 → Fin 4 → ℝ)
    (Z : Fin 4 → ℝ), CholeskyRoutine chol ∧ QrRoutine qr ∧ FullRank (of fun _ _ => 1 : Matrix (Fin 1) (Fin 1) ℝ) ∧ (chol (of fun _ _ => 1)).isSome ∧
      IsProcess P Y Z (of fun _ _ => 1 : Matrix (Fin 1) (Fin 1) ℝ) (fun _ => 1) (fun _ => 7) (of fun _ _ => 1) (fun _ => 3 / 5) 1 0 := by
  classical
  refine ⟨fun A => if A = (of fun _ _ => 1) then some 1 else none, fun A => (1, A), _, _, _, ?_, ?_, ?_, ?_,
    process_example (3 / 5) (4 / 5) 7 1 (3 / 5) 1 0 (by norm_num) (by norm_num) rfl⟩
  · intro A L h
    beta_reduce at h
    split_ifs at h with hA
    subst hA
    cases Option.some.inj h
    refine ⟨fun i j hij => absurd hij (by omega), fun i => by simp, ?_⟩
    rw [transpose_one, Matrix.mul_one]
    funext i j
    rw [Subsingleton.elim i j, one_apply_eq]; rfl
  · intro A
    exact ⟨Matrix.one_mul A, by simp⟩
  · intro b hb
    funext i
    have := congrFun hb 0
    simp only [mulVec, dotProduct, Finset.univ_unique, Finset.sum_singleton, of_apply, one_mul] at this
    rw [Subsingleton.elim i default]
    exact this
  · beta_reduce
    rw [if_pos rfl]; rfl

/-! ### C96 -/

/-- **C96, refuted.**  With noise the reported error is never larger than the mean squared error of the prediction, and it is smaller
by at least the noise variance times `wᵀRw`, where `w` are the weights of the prediction and `R` is the matrix that was factorised
(unless it was cut off at zero): the noise is left out of the correlations with the new point but not of the matrix. -/
theorem c96_noisy_unbiased_partial (hc : CholeskyRoutine chol) (hq : QrRoutine qr) (R0 : Matrix (Fin N) (Fin N) ℝ)
    (F : Matrix (Fin N) (Fin k) ℝ) (hF : FullRank F) (sigma2 noise : ℝ) (hs : 0 < sigma2) (hn : 0 < noise)
    (hR : (chol (gpMatrix (.noisy sigma2 noise) R0)).isSome) (f : Fin k → ℝ) (r : Fin N → ℝ) :
    ∃ (m : (Fin N → ℝ) → ℝ) (e : ℝ) (w : Fin N → ℝ),
      (∀ y, gpPredict chol qr (.noisy sigma2 noise) R0 F none sigma2 y f r = some (m y, e)) ∧
      (∀ y, m y = ∑ i, w i * y i) ∧ UnbiasedWeights F f w ∧
      ∀ {Ω : Type} [MeasurableSpace Ω] (P : Measure Ω) (Y : Fin N → Ω → ℝ) (Z : Ω → ℝ) (beta : Fin k → ℝ),
        IsProcess P Y Z F f beta R0 r sigma2 noise →
        e ≤ meanSquaredError P Y Z m ∧
        (0 < e → meanSquaredError P Y Z m = e + noise * (w ⬝ᵥ (gpMatrix (.noisy sigma2 noise) R0 *ᵥ w))) := by
  obtain ⟨L, hL⟩ := Option.isSome_iff_exists.1 hR
  obtain ⟨w, hw, hun, -⟩ := predict_none (mode := .noisy sigma2 noise) (R0 := R0) hc hq hF hL sigma2 f r
  have hch := hc _ _ hL
  set R := gpMatrix (.noisy sigma2 noise) R0 with hRdef
  refine ⟨fun y => w ⬝ᵥ y, if errVar R r w * sigma2 < 0 then 0 else errVar R r w * sigma2, w, fun y => ?_, fun y => rfl,
    unbiased_iff.2 hun, ?_⟩
  · obtain ⟨a, ha, h1, h2⟩ := hw y
    simp only [gpPredict, ← hRdef, ha, Option.map_some, h1, gpMse, h2]
  · intro Ω _ P Y Z beta hp
    have htot : sigma2 + noise ≠ 0 := by positivity
    have hRw : (sigma2 + noise) * (w ⬝ᵥ (R *ᵥ w)) = sigma2 * (w ⬝ᵥ (R0 *ᵥ w)) + noise * (w ⬝ᵥ w) := by
      rw [hRdef]
      simp only [gpMatrix, smul_mulVec, add_mulVec, one_mulVec, dotProduct_smul, dotProduct_add, smul_eq_mul]
      field_simp
    have hm : meanSquaredError P Y Z (fun y => w ⬝ᵥ y) = errVar R r w * sigma2 + noise * (w ⬝ᵥ (R *ᵥ w)) := by
      have := mse_affine hp 0 w
      simp only [zero_add, sub_zero] at this
      rw [this]
      have hb : f ⬝ᵥ beta - w ⬝ᵥ (F *ᵥ beta) = 0 := sub_eq_zero.2 (unbiased_iff.2 hun beta).symm
      rw [hb]
      unfold errVar
      linear_combination -hRw
    have hnn : 0 ≤ w ⬝ᵥ (R *ᵥ w) := by
      rw [← hch.mul, ← mulVec_mulVec, ← transpose_dot]
      exact dot_self_nonneg _
    have h0 := mse_nonneg P Y Z (fun y => w ⬝ᵥ y)
    rw [hm] at h0 ⊢
    split_ifs with h
    · exact ⟨h0, fun h => absurd h (lt_irrefl 0)⟩
    · exact ⟨by nlinarith [mul_nonneg hn.le hnn], fun _ => rfl⟩

/-- **C96, refuted.**  One observation with noise as large as the process variance, known mean zero: at the sample the model
reports the noisy observation as certain.  The mean squared error of that prediction is one, and half the observation would have
been the better prediction, with error one half. -/
theorem c96_noisy_not_best : ∃ (chol : Matrix (Fin 1) (Fin 1) ℝ → Option (Matrix (Fin 1) (Fin 1) ℝ))
    (P : Measure (Fin 4)) (Y : Fin 1 → Fin 4 → ℝ) (Z : Fin 4 → ℝ),
    CholeskyRoutine chol ∧ IsProcess P Y Z (of fun _ _ => 1 : Matrix (Fin 1) (Fin 1) ℝ) (fun _ => 1) (fun _ => 0) (of fun _ _ => 1) (fun _ => 1) 1 1 ∧
    ∀ qr, ∃ m : (Fin 1 → ℝ) → ℝ, (∀ y, gpPredict (k := 1) chol qr (.noisy 1 1) (of fun _ _ => 1) (of fun _ _ => 1) (some fun _ => 0) 1 y (fun _ => 1) (fun _ => 1) =
        some (m y, 0)) ∧
      meanSquaredError P Y Z m = 1 ∧ meanSquaredError P Y Z (fun y => y 0 / 2) = 1 / 2 := by
  classical
  have hone : gpMatrix (.noisy 1 1) (of fun _ _ => (1 : ℝ)) = (1 : Matrix (Fin 1) (Fin 1) ℝ) := by
    funext i j
    rw [Subsingleton.elim i j]
    simp [gpMatrix]
  refine ⟨fun A => if A = 1 then some 1 else none, _, _, _, ?_, process_example 1 1 0 1 1 1 1 (by norm_num) (by norm_num) rfl,
    fun qr => ⟨fun y => y 0, fun y => ?_, ?_, ?_⟩⟩
  · intro A L h
    beta_reduce at h
    split_ifs at h with hA
    subst hA
    cases Option.some.inj h
    exact ⟨fun i j hij => absurd hij (by omega), fun i => by simp, by simp⟩
  · simp [gpPredict, hone, computeAux, gpMean, gpMse, gpMseRaw, gpU, gpBeta, gpGamma, dotProduct, mulVec]
  · unfold meanSquaredError
    rw [integral_uniform4]
    simp
    norm_num
  · unfold meanSquaredError
    rw [integral_uniform4]
    simp
    norm_num

/-! ### C97 -/

/-- The fitted correlation matrix. -/
theorem matrix_entry {name : CorrName} {theta : List ℝ} (hp : ∀ t ∈ theta, 0 < t) {c : (Fin n → ℝ) → ℝ}
    (h : ∀ d, corr name theta d = some (c d)) (X : Fin N → Fin n → ℝ) (i j : Fin N) :
    correlationMatrix c X i j = c (absDiff (X i) (X j)) := by
  rw [correlationMatrix_apply]
  split_ifs with e
  · subst e
    rw [show absDiff (X i) (X i) = 0 by funext l; simp [absDiff]]
    exact ((c89_correlation_function (n := n) name theta hp).1 _ (h 0)).symm
  · rfl

private theorem corrVector_sample {name : CorrName} {theta : List ℝ} (hp : ∀ t ∈ theta, 0 < t) {c : (Fin n → ℝ) → ℝ}
    (h : ∀ d, corr name theta d = some (c d)) (X : Fin N → Fin n → ℝ) (i : Fin N) :
    corrVector c X (X i) = of (correlationMatrix c X) *ᵥ Pi.single i 1 := by
  funext j
  rw [mulVec_single_one]
  simp only [corrVector, col_apply, of_apply, matrix_entry hp h]
  congr 1
  funext l
  simp only [absDiff, abs_sub_comm]

/-- At a sample, weights with an error of at most zero are those of the sample alone. -/
private theorem weights_sample {R L : Matrix (Fin N) (Fin N) ℝ} (h : IsCholesky R L) (i : Fin N) (hii : R i i = 1) (w : Fin N → ℝ)
    (hw : errVar R (R *ᵥ Pi.single i 1) w ≤ 0) : w = Pi.single i 1 := by
  have hu := chol_det h
  have hrt : L⁻¹ *ᵥ (R *ᵥ Pi.single i 1) = Lᵀ *ᵥ Pi.single i 1 := by
    rw [← h.mul, ← mulVec_mulVec, mulVec_mulVec, nonsing_inv_mul _ hu, one_mulVec]
  have hone : (Lᵀ *ᵥ Pi.single i (1 : ℝ)) ⬝ᵥ (Lᵀ *ᵥ Pi.single i 1) = 1 := by
    rw [transpose_dot, mulVec_mulVec, h.mul, single_one_dotProduct, mulVec_single_one]
    exact hii
  rw [← inv_transpose_mulVec hu w, errVar_complete_square h, hrt, hone] at hw
  have h0 : (Lᵀ *ᵥ w - Lᵀ *ᵥ Pi.single i 1) ⬝ᵥ (Lᵀ *ᵥ w - Lᵀ *ᵥ Pi.single i 1) = 0 :=
    le_antisymm (by linarith) (dot_self_nonneg _)
  rw [dotProduct_self_eq_zero, ← mulVec_sub] at h0
  have h1 := inv_transpose_mulVec hu (w - Pi.single i 1)
  rw [h0, mulVec_zero] at h1
  exact sub_eq_zero.1 h1.symm

/-- **C97.**  Without noise the model interpolates: at a sample the prediction is the observation there and the reported error is zero,
for every correlation, any trend (estimated or given) and all observations. -/
theorem c97_interpolates (hc : CholeskyRoutine chol) (hq : QrRoutine qr) (name : CorrName) (theta : List ℝ) (hp : ∀ t ∈ theta, 0 < t)
    (c : (Fin n → ℝ) → ℝ) (h : ∀ d, corr name theta d = some (c d)) (X : Fin N → Fin n → ℝ) (basis : (Fin n → ℝ) → Fin k → ℝ)
    (beta : Option (Fin k → ℝ)) (hF : beta = none → FullRank (of fun i => basis (X i)))
    (hR : (chol (of (correlationMatrix c X))).isSome) (sigma2 : ℝ) (y : Fin N → ℝ) (i : Fin N) :
    gpPredict chol qr .noiseless (of (correlationMatrix c X)) (of fun i => basis (X i)) beta sigma2 y (basis (X i))
      (corrVector c X (X i)) = some (y i, 0) := by
  obtain ⟨L, hL⟩ := Option.isSome_iff_exists.1 hR
  have hch := hc _ _ hL
  have hii : (of (correlationMatrix c X)) i i = 1 := by
    simp [correlationMatrix_apply]
  have hr : corrVector c X (X i) = of (correlationMatrix c X) *ᵥ Pi.single i 1 := corrVector_sample hp h X i
  have herr : errVar (of (correlationMatrix c X)) (of (correlationMatrix c X) *ᵥ Pi.single i 1) (Pi.single i 1) = 0 := by
    simp only [errVar, single_one_dotProduct, mulVec_single_one, col_apply, hii]
    norm_num
  have key : ∀ w : Fin N → ℝ, errVar (of (correlationMatrix c X)) (of (correlationMatrix c X) *ᵥ Pi.single i 1) w ≤
      errVar (of (correlationMatrix c X)) (of (correlationMatrix c X) *ᵥ Pi.single i 1) (Pi.single i 1) → w = Pi.single i 1 :=
    fun w hw => weights_sample hch i hii w (hw.trans herr.le)
  rw [hr]
  cases beta with
  | none =>
    obtain ⟨w, hw, -, hopt⟩ := predict_none (mode := .noiseless) hc hq (hF rfl) hL sigma2 (basis (X i))
      (of (correlationMatrix c X) *ᵥ Pi.single i 1)
    have hw1 := key w (hopt _ (by rw [mulVec_single_one]; rfl))
    obtain ⟨a, ha, h1, h2⟩ := hw y
    simp only [gpMatrix] at ha h2
    rw [hw1, herr, zero_mul] at h2
    simp only [gpPredict, gpMatrix, ha, Option.map_some, h1, gpMse, h2, hw1, single_one_dotProduct, lt_irrefl, if_false]
  | some b =>
    obtain ⟨w, hw, -, hopt⟩ := predict_some (qr := qr) (mode := .noiseless) (F := of fun i => basis (X i)) hc hL b sigma2 (basis (X i))
      (of (correlationMatrix c X) *ᵥ Pi.single i 1)
    have hw1 := key w (hopt _)
    obtain ⟨a, ha, h1, h2⟩ := hw y
    simp only [gpMatrix] at ha h2
    rw [hw1, herr, zero_mul] at h2
    have e : (of (fun i => basis (X i)) *ᵥ b) i = basis (X i) ⬝ᵥ b := rfl
    simp only [gpPredict, gpMatrix, ha, Option.map_some, h1, gpMse, h2, hw1, single_one_dotProduct, lt_irrefl, if_false,
      Pi.sub_apply, e, add_sub_cancel]

/-! ### C98 -/

private theorem errVar_nonneg {name : CorrName} {theta : List ℝ} (hp : ∀ t ∈ theta, 0 < t) (hcub : name ≠ .cubic)
    (hg : name = .generalizedExponential → theta.getD n 0 ≤ 2) {c : (Fin n → ℝ) → ℝ}
    (h : ∀ d, corr name theta d = some (c d)) (X : Fin N → Fin n → ℝ) (x : Fin n → ℝ) (w : Fin N → ℝ) :
    0 ≤ errVar (of (correlationMatrix c X)) (corrVector c X x) w := by
  have hv := (c90_matrix_valid name theta hp hcub hg c h (Fin.cons x X : Fin (N + 1) → Fin n → ℝ)).2.2.2
    (Fin.cons 1 (fun i => -w i))
  simp only [Fin.sum_univ_succ, Fin.cons_zero, Fin.cons_succ, matrix_entry hp h] at hv
  have h0 : c (absDiff x x) = 1 := by
    rw [show absDiff x x = 0 by funext l; simp [absDiff]]
    exact (c89_correlation_function (n := n) name theta hp).1 _ (h 0)
  have hsym : ∀ i, c (absDiff (X i) x) = c (absDiff x (X i)) := fun i => by
    congr 1; funext l; simp only [absDiff, abs_sub_comm]
  unfold errVar
  simp only [dotProduct, mulVec, corrVector, of_apply, matrix_entry hp h]
  have e1 : ∑ i, w i * c (absDiff x (X i)) = -∑ i, 1 * -w i * c (absDiff x (X i)) := by
    rw [← Finset.sum_neg_distrib]; exact Finset.sum_congr rfl fun i _ => by ring
  have e2 : ∑ i, w i * c (absDiff x (X i)) = -∑ i, -w i * 1 * c (absDiff (X i) x) := by
    rw [← Finset.sum_neg_distrib]; exact Finset.sum_congr rfl fun i _ => by rw [hsym]; ring
  have e3 : ∑ i, w i * ∑ j, c (absDiff (X i) (X j)) * w j = ∑ i, ∑ j, -w i * -w j * c (absDiff (X i) (X j)) :=
    Finset.sum_congr rfl fun i _ => by rw [Finset.mul_sum]; exact Finset.sum_congr rfl fun j _ => by ring
  rw [e3]
  rw [Finset.sum_add_distrib, h0] at hv
  have := e2
  linarith

/-- **C98.**  Without noise the reported error needs no cut-off at zero: for every valid correlation, all samples and every point the formula
is not negative.  With given trend coefficients it is at most the process variance. -/
theorem c98_error_range (hc : CholeskyRoutine chol) (hq : QrRoutine qr) (name : CorrName) (theta : List ℝ) (hp : ∀ t ∈ theta, 0 < t)
    (hcub : name ≠ .cubic) (hg : name = .generalizedExponential → theta.getD n 0 ≤ 2)
    (c : (Fin n → ℝ) → ℝ) (h : ∀ d, corr name theta d = some (c d)) (X : Fin N → Fin n → ℝ) (basis : (Fin n → ℝ) → Fin k → ℝ)
    (beta : Option (Fin k → ℝ)) (hF : beta = none → FullRank (of fun i => basis (X i)))
    (hR : (chol (of (correlationMatrix c X))).isSome) (sigma2 : ℝ) (hs : 0 ≤ sigma2) (y : Fin N → ℝ) (x : Fin n → ℝ) :
    ∃ a, computeAux chol qr (gpMatrix .noiseless (of (correlationMatrix c X))) (of fun i => basis (X i)) beta y = some a ∧
      0 ≤ gpMseRaw a beta sigma2 (basis x) (corrVector c X x) ∧
      gpMse a beta sigma2 (basis x) (corrVector c X x) = gpMseRaw a beta sigma2 (basis x) (corrVector c X x) ∧
      (beta ≠ none → gpMse a beta sigma2 (basis x) (corrVector c X x) ≤ sigma2) := by
  obtain ⟨L, hL⟩ := Option.isSome_iff_exists.1 hR
  cases beta with
  | none =>
    obtain ⟨w, hw, -, -⟩ := predict_none (mode := .noiseless) hc hq (hF rfl) hL sigma2 (basis x) (corrVector c X x)
    obtain ⟨a, ha, -, h2⟩ := hw y
    have hnn : 0 ≤ gpMseRaw a none sigma2 (basis x) (corrVector c X x) := by
      rw [h2]; exact mul_nonneg (errVar_nonneg hp hcub hg h X x w) hs
    exact ⟨a, ha, hnn, gpMse_of_nonneg hnn, fun hne => absurd rfl hne⟩
  | some b =>
    obtain ⟨w, hw, -, hopt⟩ := predict_some (qr := qr) (mode := .noiseless) (F := of fun i => basis (X i)) hc hL b sigma2 (basis x)
      (corrVector c X x)
    obtain ⟨a, ha, -, h2⟩ := hw y
    have hnn : 0 ≤ gpMseRaw a (some b) sigma2 (basis x) (corrVector c X x) := by
      rw [h2]; exact mul_nonneg (errVar_nonneg hp hcub hg h X x w) hs
    refine ⟨a, ha, hnn, gpMse_of_nonneg hnn, fun _ => ?_⟩
    rw [gpMse_of_nonneg hnn, h2]
    have h0 := hopt 0
    have e0 : errVar (gpMatrix .noiseless (of (correlationMatrix c X))) (corrVector c X x) 0 = 1 := by simp [errVar]
    rw [e0] at h0
    calc _ ≤ 1 * sigma2 := mul_le_mul_of_nonneg_right h0 hs
      _ = sigma2 := one_mul _

/-! ### C99 -/

/-- **C99.**  More data never make the model less certain: if every sample of one model is also a sample of another with the same correlation,
trend and variance (no noise), the error that the second reports is at most that of the first, at every point. -/
theorem c99_more_data_less_error {M : ℕ} {chol' : Matrix (Fin M) (Fin M) ℝ → Option (Matrix (Fin M) (Fin M) ℝ)}
    {qr' : Matrix (Fin M) (Fin k) ℝ → Matrix (Fin M) (Fin k) ℝ × Matrix (Fin k) (Fin k) ℝ}
    (hc : CholeskyRoutine chol) (hq : QrRoutine qr) (hc' : CholeskyRoutine chol') (hq' : QrRoutine qr')
    (name : CorrName) (theta : List ℝ) (hp : ∀ t ∈ theta, 0 < t)
    (hcub : name ≠ .cubic) (hg : name = .generalizedExponential → theta.getD n 0 ≤ 2)
    (c : (Fin n → ℝ) → ℝ) (h : ∀ d, corr name theta d = some (c d)) (X : Fin N → Fin n → ℝ) (X' : Fin M → Fin n → ℝ)
    (hsub : ∀ i, ∃ j, X' j = X i) (basis : (Fin n → ℝ) → Fin k → ℝ)
    (beta : Option (Fin k → ℝ)) (hF : beta = none → FullRank (of fun i => basis (X i)))
    (hR : (chol (of (correlationMatrix c X))).isSome) (hR' : (chol' (of (correlationMatrix c X'))).isSome)
    (sigma2 : ℝ) (hs : 0 ≤ sigma2) (y : Fin N → ℝ) (y' : Fin M → ℝ) (x : Fin n → ℝ) :
    ∃ m e m' e',
      gpPredict chol qr .noiseless (of (correlationMatrix c X)) (of fun i => basis (X i)) beta sigma2 y (basis x) (corrVector c X x) =
        some (m, e) ∧
      gpPredict chol' qr' .noiseless (of (correlationMatrix c X')) (of fun i => basis (X' i)) beta sigma2 y' (basis x) (corrVector c X' x) =
        some (m', e') ∧
      e' ≤ e := by
  choose e he using hsub
  have hF' : beta = none → FullRank (of fun i => basis (X' i)) := by
    intro hb b h0
    refine hF hb b (funext fun i => ?_)
    have := congrFun h0 (e i)
    have e1 : (of (fun i => basis (X' i)) *ᵥ b) (e i) = (of (fun i => basis (X i)) *ᵥ b) i := by
      simp only [mulVec, of_apply, he]
    rw [← e1, this]; rfl
  obtain ⟨a, ha, hnn, hm, -⟩ := c98_error_range hc hq name theta hp hcub hg c h X basis beta hF hR sigma2 hs y x
  obtain ⟨a', ha', hnn', hm', -⟩ := c98_error_range hc' hq' name theta hp hcub hg c h X' basis beta hF' hR' sigma2 hs y' x
  refine ⟨_, _, _, _, by unfold gpPredict; rw [ha]; rfl, by unfold gpPredict; rw [ha']; rfl, ?_⟩
  rw [hm, hm']
  -- the weights of the smaller model, carried over
  let up : (Fin N → ℝ) → Fin M → ℝ := fun w j => ∑ i, if e i = j then w i else 0
  have hup : ∀ (w : Fin N → ℝ) (g : Fin M → ℝ), up w ⬝ᵥ g = w ⬝ᵥ (fun i => g (e i)) := by
    intro w g
    simp only [up, dotProduct, Finset.sum_mul, ite_mul, zero_mul]
    rw [Finset.sum_comm]
    refine Finset.sum_congr rfl fun i _ => ?_
    rw [Finset.sum_ite_eq]
    simp
  have herr : ∀ w, errVar (of (correlationMatrix c X')) (corrVector c X' x) (up w) = errVar (of (correlationMatrix c X)) (corrVector c X x) w := by
    intro w
    unfold errVar
    rw [hup, hup]
    have e1 : (fun i => corrVector c X' x (e i)) = corrVector c X x := by funext i; simp only [corrVector, he]
    have e2 : (fun i => (of (correlationMatrix c X') *ᵥ up w) (e i)) = of (correlationMatrix c X) *ᵥ w := by
      funext i
      have : (of (correlationMatrix c X') *ᵥ up w) (e i) = up w ⬝ᵥ (fun j => correlationMatrix c X' (e i) j) := by
        rw [dotProduct_comm]; rfl
      rw [this, hup]
      simp only [matrix_entry hp h, he, mulVec, of_apply]
      rw [dotProduct_comm]
    rw [e1, e2]
  obtain ⟨L, hL⟩ := Option.isSome_iff_exists.1 hR
  obtain ⟨L', hL'⟩ := Option.isSome_iff_exists.1 hR'
  cases beta with
  | none =>
    obtain ⟨w, hw, hun, -⟩ := predict_none (mode := .noiseless) hc hq (hF rfl) hL sigma2 (basis x) (corrVector c X x)
    obtain ⟨w', hw', -, hopt'⟩ := predict_none (mode := .noiseless) hc' hq' (hF' rfl) hL' sigma2 (basis x) (corrVector c X' x)
    obtain ⟨b, hb, -, hb2⟩ := hw y
    obtain ⟨b', hb', -, hb2'⟩ := hw' y'
    rw [ha] at hb; rw [ha'] at hb'
    cases Option.some.inj hb
    cases Option.some.inj hb'
    rw [hb2, hb2']
    have hun' : (of fun i => basis (X' i))ᵀ *ᵥ up w = basis x := by
      rw [← hun]
      funext p
      have e1 : ((of fun i => basis (X' i))ᵀ *ᵥ up w) p = up w ⬝ᵥ (fun j => basis (X' j) p) := by rw [dotProduct_comm]; rfl
      have e2 : ((of fun i => basis (X i))ᵀ *ᵥ w) p = w ⬝ᵥ (fun j => basis (X j) p) := by rw [dotProduct_comm]; rfl
      rw [e1, e2, hup]
      simp only [he]
    have := hopt' (up w) hun'
    simp only [gpMatrix] at this ⊢
    rw [herr] at this
    exact mul_le_mul_of_nonneg_right this hs
  | some b0 =>
    obtain ⟨w, hw, -, -⟩ := predict_some (qr := qr) (mode := .noiseless) (F := of fun i => basis (X i)) hc hL b0 sigma2 (basis x)
      (corrVector c X x)
    obtain ⟨w', hw', -, hopt'⟩ := predict_some (qr := qr') (mode := .noiseless) (F := of fun i => basis (X' i)) hc' hL' b0 sigma2 (basis x)
      (corrVector c X' x)
    obtain ⟨b, hb, -, hb2⟩ := hw y
    obtain ⟨b', hb', -, hb2'⟩ := hw' y'
    rw [ha] at hb; rw [ha'] at hb'
    cases Option.some.inj hb
    cases Option.some.inj hb'
    rw [hb2, hb2']
    have := hopt' (up w)
    simp only [gpMatrix] at this ⊢
    rw [herr] at this
    exact mul_le_mul_of_nonneg_right this hs

/-! ### C100 -/

private theorem hasDerivAt_dot {m : ℕ} {u v : ℝ → Fin m → ℝ} {u' v' : Fin m → ℝ} {t : ℝ} (hu : ∀ i, HasDerivAt (fun s => u s i) (u' i) t)
    (hv : ∀ i, HasDerivAt (fun s => v s i) (v' i) t) : HasDerivAt (fun s => u s ⬝ᵥ v s) (u' ⬝ᵥ v t + u t ⬝ᵥ v') t := by
  have h : ∀ i ∈ Finset.univ, HasDerivAt (fun s => u s i * v s i) (u' i * v t i + u t i * v' i) t := fun i _ => (hu i).mul (hv i)
  have := HasDerivAt.fun_sum h
  rw [Finset.sum_add_distrib] at this
  exact this

private theorem hasDerivAt_mulVec {m l : ℕ} (A : Matrix (Fin l) (Fin m) ℝ) {v : ℝ → Fin m → ℝ} {v' : Fin m → ℝ} {t : ℝ}
    (hv : ∀ i, HasDerivAt (fun s => v s i) (v' i) t) (j : Fin l) : HasDerivAt (fun s => (A *ᵥ v s) j) ((A *ᵥ v') j) t := by
  have h := hasDerivAt_dot (u := fun _ => A j) (u' := 0) (fun i => hasDerivAt_const t (A j i)) hv
  simp only [zero_dotProduct, zero_add] at h
  exact h

private theorem vecMul_apply' {m l : ℕ} (v : Fin m → ℝ) (A : Matrix (Fin m) (Fin l) ℝ) (j : Fin l) : (v ᵥ* A) j = v ⬝ᵥ (fun i => A i j) := rfl

/-- The derivatives of the mean and of the error, for any derivatives of the trend and of the correlations. -/
private theorem gradient_general {R : Matrix (Fin N) (Fin N) ℝ} (hq : QrRoutine qr)
    {F : Matrix (Fin N) (Fin k) ℝ} {beta : Option (Fin k → ℝ)} {y : Fin N → ℝ} {a : GpAux N k} (ha : computeAux chol qr R F beta y = some a)
    (sigma2 : ℝ) (f : ℝ → Fin k → ℝ) (r : ℝ → Fin N → ℝ) (fDx : Matrix (Fin k) (Fin n) ℝ) (rDx : Matrix (Fin N) (Fin n) ℝ) (l : Fin n) (t : ℝ)
    (hf : ∀ p, HasDerivAt (fun s => f s p) (fDx p l) t) (hr : ∀ i, HasDerivAt (fun s => r s i) (rDx i l) t) :
    HasDerivAt (fun s => gpMean a beta (f s) (r s)) (gpMeanDx a beta fDx rDx l) t ∧
    HasDerivAt (fun s => gpMseRaw a beta sigma2 (f s) (r s)) (gpMseDx a beta sigma2 (f t) (r t) fDx rDx l) t := by
  constructor
  · have h1 := hasDerivAt_dot hf (v := fun _ => gpBeta a beta) (v' := 0) (fun i => hasDerivAt_const t _)
    have h2 := hasDerivAt_dot hr (v := fun _ => gpGamma a) (v' := 0) (fun i => hasDerivAt_const t _)
    have := h1.add h2
    simp only [dotProduct_zero, add_zero] at this
    simp only [gpMeanDx, Pi.add_apply, vecMul_apply']
    rw [dotProduct_comm (gpBeta a beta), dotProduct_comm (gpGamma a)]
    exact this
  · have hrt := hasDerivAt_mulVec a.L⁻¹ hr
    have h1 := hasDerivAt_dot hrt hrt
    cases beta with
    | some b =>
      have := ((hasDerivAt_const t (1 : ℝ)).sub h1).mul_const sigma2
      have ez : ∀ s, gpMseRaw a (some b) sigma2 (f s) (r s) = (1 - (a.L⁻¹ *ᵥ r s) ⬝ᵥ (a.L⁻¹ *ᵥ r s)) * sigma2 := by
        intro s; simp [gpMseRaw, gpU, sum_sq_eq]
      simp only [ez, gpMseDx]
      simp only [Pi.smul_apply, vecMul_apply', smul_eq_mul]
      have e : (fun i => (a.L⁻¹ * rDx) i l) = a.L⁻¹ *ᵥ (fun i => rDx i l) := rfl
      rw [e]
      refine this.congr_deriv ?_
      rw [dotProduct_comm (a.L⁻¹ *ᵥ fun i => rDx i l)]
      ring
    | none =>
      have hFt := hasDerivAt_mulVec a.Ftᵀ hrt
      have hu0 : ∀ p, HasDerivAt (fun s => (a.Ftᵀ *ᵥ (a.L⁻¹ *ᵥ r s) - f s) p) ((a.Ftᵀ *ᵥ (a.L⁻¹ *ᵥ (fun i => rDx i l)) - fun p => fDx p l) p) t :=
        fun p => (hFt p).sub (hf p)
      have hu := hasDerivAt_mulVec a.Gᵀ⁻¹ hu0
      have h2 := hasDerivAt_dot hu hu
      have := (((hasDerivAt_const t (1 : ℝ)).sub h1).add h2).mul_const sigma2
      have hGG : (a.Ftᵀ * a.Ft)⁻¹ = a.G⁻¹ * a.Gᵀ⁻¹ := by
        unfold computeAux at ha
        obtain ⟨L, -, hL⟩ := Option.map_eq_some_iff.1 ha
        subst hL
        have h := hq (L⁻¹ * F)
        show ((L⁻¹ * F)ᵀ * (L⁻¹ * F))⁻¹ = _
        conv_lhs => rw [← h.mul, transpose_mul, Matrix.mul_assoc, ← Matrix.mul_assoc _ (qr (L⁻¹ * F)).1, h.orth, Matrix.one_mul]
        rw [Matrix.mul_inv_rev]
      simp only [gpMseRaw, gpU, sum_sq_eq, gpMseDx]
      refine this.congr_deriv ?_
      simp only [Pi.add_apply, Pi.smul_apply, vecMul_apply', smul_eq_mul, hGG]
      have e : (fun i => (a.L⁻¹ * rDx) i l) = a.L⁻¹ *ᵥ (fun i => rDx i l) := rfl
      have e' : (fun i => (a.Ftᵀ * (a.L⁻¹ * rDx) - fDx) i l) = a.Ftᵀ *ᵥ (a.L⁻¹ *ᵥ (fun i => rDx i l)) - fun p => fDx p l := rfl
      rw [e, e', ← vecMul_vecMul, ← dotProduct_mulVec, ← mulVec_transpose, transpose_nonsing_inv,
        dotProduct_comm (a.L⁻¹ *ᵥ fun i => rDx i l),
        dotProduct_comm (a.Gᵀ⁻¹ *ᵥ (a.Ftᵀ *ᵥ (a.L⁻¹ *ᵥ fun i => rDx i l) - fun p => fDx p l))]
      ring

/-- **C100, the part that holds.**  The gradient of the prediction: in every coordinate it is the derivative of the mean and of the
error (where that is positive), for the squared exponential at every point, for the Matérn correlation away from the samples, for
the absolute exponential where the coordinate differs from those of all samples. -/
theorem c100_gradient_partial (hq : QrRoutine qr) (name : CorrName) (theta : List ℝ) (hp : ∀ t ∈ theta, 0 < t)
    (hn : name = .squaredExponential ∨ name = .matern .threeHalves ∨ name = .absoluteExponential)
    (c : (Fin n → ℝ) → ℝ) (h : ∀ d, corr name theta d = some (c d)) (X : Fin N → Fin n → ℝ) (basis : (Fin n → ℝ) → Fin k → ℝ)
    (beta : Option (Fin k → ℝ)) (mode : GpMode) (y : Fin N → ℝ) (a : GpAux N k)
    (ha : computeAux chol qr (gpMatrix mode (of (correlationMatrix c X))) (of fun i => basis (X i)) beta y = some a)
    (sigma2 : ℝ) (x : Fin n → ℝ) (fDx : Matrix (Fin k) (Fin n) ℝ)
    (hf : ∀ p l, HasDerivAt (fun t => basis (Function.update x l t) p) (fDx p l) (x l)) :
    ∃ g, corrDx name theta X x (corrVector c X x) = some g ∧
      ∀ l, (name = .matern .threeHalves → ∀ j, x ≠ X j) → (name = .absoluteExponential → ∀ i, x l ≠ X i l) →
        HasDerivAt (fun t => gpMean a beta (basis (Function.update x l t)) (corrVector c X (Function.update x l t)))
          (gpMeanDx a beta fDx (of fun i l => g l i) l) (x l) ∧
        (0 < gpMse a beta sigma2 (basis x) (corrVector c X x) →
          HasDerivAt (fun t => gpMse a beta sigma2 (basis (Function.update x l t)) (corrVector c X (Function.update x l t)))
            (gpMseDx a beta sigma2 (basis x) (corrVector c X x) fDx (of fun i l => g l i) l) (x l)) := by
  obtain ⟨g, hg, hd⟩ := c93_gradient_partial name theta hp hn c h X x
  refine ⟨g, hg, fun l hm hab => ?_⟩
  have hux : Function.update x l (x l) = x := Function.update_eq_self l x
  obtain ⟨h1, h2⟩ := gradient_general hq ha sigma2 (fun t => basis (Function.update x l t)) (fun t => corrVector c X (Function.update x l t))
    fDx (of fun i l => g l i) l (x l) (fun p => hf p l) (fun i => hd l i hm fun e => hab e i)
  simp only [hux] at h2
  refine ⟨h1, fun hpos => ?_⟩
  have hraw : 0 < gpMseRaw a beta sigma2 (basis x) (corrVector c X x) := by
    unfold gpMse at hpos
    split_ifs at hpos with hlt
    · exact absurd hpos (lt_irrefl _)
    · exact hpos
  refine h2.congr_of_eventuallyEq ?_
  have hcont := h2.continuousAt
  have : ∀ᶠ t in nhds (x l), 0 < gpMseRaw a beta sigma2 (basis (Function.update x l t)) (corrVector c X (Function.update x l t)) :=
    hcont.eventually (lt_mem_nhds (by simpa only [hux] using hraw))
  filter_upwards [this] with t ht
  exact gpMse_of_nonneg ht.le

/-- **C100 does not hold at the samples for the Matérn correlation**: for any samples that differ in a coordinate there are observations for
which the gradient reported at a sample is zero there and zero is not the derivative of the mean. -/
theorem c100_matern_gradient_wrong_at_sample (hc : CholeskyRoutine chol) (theta : List ℝ) (hp : ∀ t ∈ theta, 0 < t)
    (c : (Fin n → ℝ) → ℝ) (h : ∀ d, corr (.matern .threeHalves) theta d = some (c d)) (X : Fin N → Fin n → ℝ)
    (hR : (chol (of (correlationMatrix c X))).isSome) (i j : Fin N) (l : Fin n) (hl : X i l ≠ X j l) :
    ∃ (y : Fin N → ℝ) (a : GpAux N 1) (g : Fin n → Fin N → ℝ),
      computeAux chol (fun A => (A, 1)) (of (correlationMatrix c X)) (of fun _ _ => 1) (some 0) y = some a ∧
      corrDx (.matern .threeHalves) theta X (X i) (corrVector c X (X i)) = some g ∧
      gpMeanDx a (some 0) 0 (of fun i l => g l i) l = 0 ∧
      ¬ HasDerivAt (fun t => gpMean a (some 0) (fun _ => 1) (corrVector c X (Function.update (X i) l t)))
          (gpMeanDx a (some 0) 0 (of fun i l => g l i) l) (X i l) := by
  obtain ⟨L, hL⟩ := Option.isSome_iff_exists.1 hR
  have hch := hc _ _ hL
  have hu := chol_det hch
  obtain ⟨g, hg, hg0, hnot⟩ := c93_matern_gradient_wrong_at_sample theta hp c h X i j l hl
  set R : Matrix (Fin N) (Fin N) ℝ := of (correlationMatrix c X) with hRd
  have hrho : ∀ a : GpAux N 1, computeAux chol (fun A => (A, 1)) R (of fun _ _ => 1) (some 0) (R *ᵥ Pi.single j 1) = some a →
      gpGamma a = Pi.single j 1 := by
    intro a ha
    unfold computeAux at ha
    rw [hL] at ha
    simp only [Option.map_some, Option.some.injEq] at ha
    subst ha
    simp only [gpGamma, mulVec_zero, sub_zero]
    have e : L⁻¹ *ᵥ (R *ᵥ Pi.single j 1) = Lᵀ *ᵥ Pi.single j 1 := by
      rw [← hch.mul, ← mulVec_mulVec, mulVec_mulVec, nonsing_inv_mul _ hu, one_mulVec]
    rw [e, inv_transpose_mulVec hu]
  obtain ⟨a, ha⟩ : ∃ a, computeAux chol (fun A => (A, 1)) R (of fun (_ : Fin N) (_ : Fin 1) => (1 : ℝ)) (some 0) (R *ᵥ Pi.single j 1) = some a := by
    unfold computeAux; rw [hL]; exact ⟨_, rfl⟩
  have hga := hrho a ha
  have hdx : gpMeanDx a (some 0) 0 (of fun i l => g l i) l = g l j := by
    simp only [gpMeanDx, gpBeta, hga, Pi.add_apply, vecMul_apply', zero_dotProduct, zero_add, single_one_dotProduct, of_apply]
  refine ⟨_, a, g, ha, hg, by rw [hdx, hg0], ?_⟩
  rw [hdx]
  intro hd
  apply hnot
  refine hd.congr_of_eventuallyEq (Filter.Eventually.of_forall fun t => ?_)
  simp only [gpMean, gpBeta, hga, dotProduct_zero, zero_add, dotProduct_single_one]

/-! ### Non-vacuity of C97-C100: two samples on a line, a constant trend -/

open Classical in
/-- Some Cholesky routine. -/
noncomputable def anyChol (A : Matrix (Fin 2) (Fin 2) ℝ) : Option (Matrix (Fin 2) (Fin 2) ℝ) :=
  if h : ∃ L, IsCholesky A L then some h.choose else none

theorem anyChol_routine : CholeskyRoutine anyChol := by
  intro A L h
  unfold anyChol at h
  split_ifs at h with hex
  · cases Option.some.inj h
    exact hex.choose_spec

private theorem two_chol {A : Matrix (Fin 2) (Fin 2) ℝ} (h00 : A 0 0 = 1) (h11 : A 1 1 = 1) (hs : A 1 0 = A 0 1) (h1 : (A 0 1) ^ 2 < 1) :
    (anyChol A).isSome := by
  have : ∃ L, IsCholesky A L := by
    have hpos : 0 < 1 - A 0 1 ^ 2 := by linarith
    refine ⟨of ![![1, 0], ![A 0 1, Real.sqrt (1 - A 0 1 ^ 2)]], ?_, ?_, ?_⟩
    · intro i j hij
      fin_cases i <;> fin_cases j <;> simp at hij ⊢
    · intro i
      fin_cases i <;> simp [h1]
    · ext i j
      have hsq := Real.mul_self_sqrt hpos.le
      fin_cases i <;> fin_cases j <;> simp [Matrix.mul_apply, Fin.sum_univ_two, h00, h11, hs]
      rw [hsq]; ring
  unfold anyChol
  rw [dif_pos this]; rfl

private theorem exists_qr (A : Matrix (Fin 2) (Fin 1) ℝ) : ∃ q : Matrix (Fin 2) (Fin 1) ℝ × Matrix (Fin 1) (Fin 1) ℝ, IsQr A q.1 q.2 := by
  have hnn : 0 ≤ A 0 0 ^ 2 + A 1 0 ^ 2 := by positivity
  by_cases h : A 0 0 ^ 2 + A 1 0 ^ 2 = 0
  · refine ⟨(of ![![1], ![0]], 0), ?_, ?_⟩
    · have h0 : A 0 0 = 0 := by nlinarith [sq_nonneg (A 0 0), sq_nonneg (A 1 0)]
      have h1 : A 1 0 = 0 := by nlinarith [sq_nonneg (A 0 0), sq_nonneg (A 1 0)]
      ext i j
      fin_cases i <;> fin_cases j <;> simp [h0, h1]
    · ext i j
      fin_cases i; fin_cases j
      simp [Matrix.mul_apply]
  · have hs : Real.sqrt (A 0 0 ^ 2 + A 1 0 ^ 2) ≠ 0 := (Real.sqrt_pos.2 (lt_of_le_of_ne hnn (Ne.symm h))).ne'
    refine ⟨((Real.sqrt (A 0 0 ^ 2 + A 1 0 ^ 2))⁻¹ • A, Real.sqrt (A 0 0 ^ 2 + A 1 0 ^ 2) • 1), ?_, ?_⟩
    · simp only [Matrix.smul_mul, Matrix.mul_smul, Matrix.mul_one, smul_smul, mul_inv_cancel₀ hs, one_smul]
    · ext i j
      fin_cases i; fin_cases j
      simp only [transpose_smul, Matrix.smul_mul, Matrix.mul_smul, smul_smul, Matrix.mul_apply, Fin.sum_univ_two,
        Matrix.smul_apply, smul_eq_mul, transpose_apply, Fin.zero_eta, one_apply_eq, Fin.isValue]
      have key : ∀ s a b : ℝ, s * s = a ^ 2 + b ^ 2 → s ≠ 0 → s⁻¹ * a * (s⁻¹ * a) + s⁻¹ * b * (s⁻¹ * b) = 1 := by
        intro s a b h1 h2
        field_simp
        linarith
      exact key _ _ _ (Real.mul_self_sqrt hnn) hs

/-- Some QR routine. -/
noncomputable def anyQr (A : Matrix (Fin 2) (Fin 1) ℝ) : Matrix (Fin 2) (Fin 1) ℝ × Matrix (Fin 1) (Fin 1) ℝ := (exists_qr A).choose

theorem anyQr_routine : QrRoutine anyQr := fun A => (exists_qr A).choose_spec

/-- The squared exponential correlation with parameter 1. -/
noncomputable def sq1 (d : Fin 1 → ℝ) : ℝ := Real.exp (-(1 * ∑ k, d k ^ 2))

theorem sq1_corr (d : Fin 1 → ℝ) : corr .squaredExponential [1] d = some (sq1 d) := by
  simp [corr, weightedSum, sq1]

theorem sq1_chol : (anyChol (of (correlationMatrix sq1 (fun i _ => (i.val : ℝ))))).isSome := by
  have h01 : ∀ i j : Fin 2, correlationMatrix sq1 (fun i _ => (i.val : ℝ)) i j = sq1 (absDiff (fun _ => (i.val : ℝ)) (fun _ => (j.val : ℝ))) :=
    fun i j => matrix_entry (name := .squaredExponential) (theta := [1]) (by simp) sq1_corr _ i j
  refine two_chol ?_ ?_ ?_ ?_
  · simp [h01, sq1, absDiff]
  · simp [h01, sq1, absDiff]
  · simp [h01, sq1, absDiff]
  · have : Real.exp (-1) < 1 := by rw [Real.exp_lt_one_iff]; norm_num
    have hp := Real.exp_pos (-1)
    simp only [of_apply, h01]
    have e : sq1 (absDiff (fun _ => (((0 : Fin 2).val : ℕ) : ℝ)) (fun _ => (((1 : Fin 2).val : ℕ) : ℝ))) = Real.exp (-1) := by
      simp [sq1, absDiff]
    rw [e]
    nlinarith

theorem const_rank : FullRank (of fun (_ : Fin 2) (_ : Fin 1) => (1 : ℝ)) := by
  intro b hb
  funext p
  have := congrFun hb 0
  simpa [mulVec, dotProduct, Subsingleton.elim p 0] using this

/-- C97: the constant trend is estimated, and the model still returns the observation 7 at the second sample. -/
example : gpPredict anyChol anyQr .noiseless (of (correlationMatrix sq1 (fun i _ => (i.val : ℝ)))) (of fun _ _ => 1) none 1
    (fun i => if i = 0 then -3 else 7) (fun _ => 1) (corrVector sq1 (fun (i : Fin 2) _ => (i.val : ℝ)) (fun _ => 1)) = some (7, 0) := by
  have := c97_interpolates anyChol_routine anyQr_routine .squaredExponential [1] (by simp) sq1 sq1_corr (fun (i : Fin 2) _ => (i.val : ℝ))
    (fun _ _ => 1) none (fun _ => const_rank) sq1_chol 1 (fun i => if i = 0 then -3 else 7) 1
  simpa using this

/-- C98 and C100 have their hypotheses met by the same model. -/
example (y : Fin 2 → ℝ) (x : Fin 1 → ℝ) : ∃ a, computeAux anyChol anyQr (gpMatrix .noiseless (of (correlationMatrix sq1 (fun i _ => (i.val : ℝ)))))
      (of fun _ _ => 1) none y = some a ∧
    0 ≤ gpMseRaw a none 2 (fun _ => 1) (corrVector sq1 (fun (i : Fin 2) _ => (i.val : ℝ)) x) ∧
    ∃ g, corrDx .squaredExponential [1] (fun (i : Fin 2) _ => (i.val : ℝ)) x (corrVector sq1 (fun (i : Fin 2) _ => (i.val : ℝ)) x) = some g ∧
      HasDerivAt (fun t => gpMean a none (fun _ => 1) (corrVector sq1 (fun (i : Fin 2) _ => (i.val : ℝ)) (Function.update x 0 t)))
        (gpMeanDx a none 0 (of fun i l => g l i) 0) (x 0) := by
  obtain ⟨a, ha, h0, -⟩ := c98_error_range anyChol_routine anyQr_routine .squaredExponential [1] (by simp) (by simp) (by simp) sq1 sq1_corr
    (fun (i : Fin 2) _ => (i.val : ℝ)) (fun _ _ => 1) none (fun _ => const_rank) sq1_chol 2 (by norm_num) y x
  obtain ⟨g, hg, hd⟩ := c100_gradient_partial anyQr_routine .squaredExponential [1] (by simp) (.inl rfl) sq1 sq1_corr
    (fun (i : Fin 2) _ => (i.val : ℝ)) (fun _ _ => 1) none .noiseless y a ha 2 x 0 (fun p l => hasDerivAt_const _ _)
  exact ⟨a, ha, h0, g, hg, (hd 0 (by simp) (by simp)).1⟩

end Verif.Props
