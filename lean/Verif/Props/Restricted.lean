import Verif.Props.Likelihood
import Verif.Proofs.Restricted

/-!
# C108-C109: the restricted likelihood
-/
namespace Verif.Props

open Matrix Verif.Model Verif.Spec Verif.Proofs

variable {N k m : ℕ} {chol : Matrix (Fin N) (Fin N) ℝ → Option (Matrix (Fin N) (Fin N) ℝ)}
  {qr : Matrix (Fin N) (Fin k) ℝ → Matrix (Fin N) (Fin k) ℝ × Matrix (Fin k) (Fin k) ℝ}

private theorem restricted_none {R0 : Matrix (Fin N) (Fin N) ℝ} {F : Matrix (Fin N) (Fin k) ℝ} {y : Fin N → ℝ} {sigma2 noise v : ℝ}
    {e : LlfEnv N k} (h : llfRestricted chol qr R0 F none y sigma2 noise = some (v, e)) :
    computeAux chol qr (gpMatrix (.noisy sigma2 noise) R0) F none y = some e.aux ∧ e.sigma2 = sigma2 ∧ e.noiseVar = noise ∧
      v = -(1 / 2) * (((N : ℝ) - k) * Real.log (2 * Real.pi * (sigma2 + noise)) - Real.log (Fᵀ * F).det + twiceLogDiag e.aux.L +
          Real.log ((∏ p, e.aux.G p p) ^ 2) + sumSquares e.aux.rho / (sigma2 + noise)) := by
  unfold llfRestricted at h
  obtain ⟨a, ha, h1⟩ := Option.bind_eq_some_iff.1 h
  simp only at h1
  split_ifs at h1
  cases Option.some.inj h1
  exact ⟨ha, rfl, rfl, by norm_num⟩

private theorem restricted_some {R0 : Matrix (Fin N) (Fin N) ℝ} {F : Matrix (Fin N) (Fin k) ℝ} {b : Fin k → ℝ} {y : Fin N → ℝ}
    {sigma2 noise v : ℝ} {e : LlfEnv N k} (h : llfRestricted chol qr R0 F (some b) y sigma2 noise = some (v, e)) :
    computeAux chol qr (gpMatrix (.noisy sigma2 noise) R0) F (some b) y = some e.aux ∧ e.sigma2 = sigma2 ∧ e.noiseVar = noise ∧
      v = -(1 / 2) * (N * Real.log (2 * Real.pi * (sigma2 + noise)) - twiceLogDiag e.aux.L + sumSquares e.aux.rho / (sigma2 + noise)) := by
  unfold llfRestricted at h
  obtain ⟨a, ha, h1⟩ := Option.bind_eq_some_iff.1 h
  simp only at h1
  split_ifs at h1
  cases Option.some.inj h1
  exact ⟨ha, rfl, rfl, by norm_num⟩

private theorem gpMatrix_noisy {R0 : Matrix (Fin N) (Fin N) ℝ} {sigma2 noise : ℝ} (h : 0 < sigma2 + noise) :
    (sigma2 + noise) • gpMatrix (.noisy sigma2 noise) R0 = sigma2 • R0 + noise • (1 : Matrix (Fin N) (Fin N) ℝ) := by
  simp only [gpMatrix, smul_smul, mul_inv_cancel₀ h.ne', one_smul]

/-! ### C108 -/

/-- **C108, the part that holds.**  With estimated coefficients the restricted likelihood is the Gaussian log density of the error contrasts, for
every complete orthonormal set of these. -/
theorem c108_contrasts_partial (hc : CholeskyRoutine chol) (hq : QrRoutine qr) (hu : UpperFactor qr) (R0 : Matrix (Fin N) (Fin N) ℝ)
    (F : Matrix (Fin N) (Fin k) ℝ) (hF : FullRank F) (y : Fin N → ℝ) (sigma2 noise v : ℝ) (hs : 0 < sigma2) (hn : 0 ≤ noise) (e : LlfEnv N k)
    (hv : llfRestricted chol qr R0 F none y sigma2 noise = some (v, e)) (A : Matrix (Fin N) (Fin m) ℝ) (hA : IsContrasts F A) :
    v = gaussianLogDensity 0 (Aᵀ * (sigma2 • R0 + noise • (1 : Matrix (Fin N) (Fin N) ℝ)) * A) (Aᵀ *ᵥ y) := by
  obtain ⟨ha, -, -, rfl⟩ := restricted_none hv
  obtain ⟨hch, hqr, hGe⟩ := aux_none hc hq ha
  obtain ⟨-, -, -, hrho⟩ := aux_spec hc hq (fun _ => hF) ha
  have htot : 0 < sigma2 + noise := by positivity
  generalize hR : gpMatrix (.noisy sigma2 noise) R0 = R at *
  have hC : sigma2 • R0 + noise • (1 : Matrix (Fin N) (Fin N) ℝ) = (sigma2 + noise) • R := by rw [← hR, gpMatrix_noisy htot]
  have hG := qr_unit (chol_det hch) hqr hF
  have hGG : (Fᵀ * R⁻¹ * F).det = (∏ p, e.aux.G p p) ^ 2 := by
    rw [trend_gram hch hqr, det_mul, det_transpose, det_upper (by rw [hGe]; exact hu _), sq]
  have hGpos : 0 < (Fᵀ * R⁻¹ * F).det := by
    rw [trend_gram hch hqr, det_mul, det_transpose]
    exact mul_self_pos.2 hG.ne_zero
  obtain ⟨hld, hRpos⟩ := log_det_chol hch
  have hFF := full_gram hF
  have hdet := contrasts_det hA (chol_symm hch) hRpos.ne'.isUnit hGpos.ne'
  have hApos : 0 < (Aᵀ * R * A).det := by
    have : 0 < (Aᵀ * R * A).det * (Fᵀ * F).det := by rw [hdet]; positivity
    exact pos_of_mul_pos_left this hFF.le
  have hz := normal_equations hc hq hF ha
  have hquad := contrasts_quad hA hRpos.ne'.isUnit hFF.ne'.isUnit hApos.ne'.isUnit hz
  rw [inv_quadratic hch, hrho, mulVec_sub, mulVec_mulVec _ Aᵀ F, hA.free, zero_mulVec, sub_zero] at hquad
  have hmk : (m : ℝ) = N - k := by
    rw [← hA.complete]; push_cast; ring
  have hAC : Aᵀ * ((sigma2 + noise) • R) * A = (sigma2 + noise) • (Aᵀ * R * A) := by rw [Matrix.mul_smul, Matrix.smul_mul]
  have hinv : ((sigma2 + noise) • (Aᵀ * R * A))⁻¹ = (sigma2 + noise)⁻¹ • (Aᵀ * R * A)⁻¹ := by
    refine inv_eq_right_inv ?_
    rw [Matrix.smul_mul, Matrix.mul_smul, smul_smul, mul_inv_cancel₀ htot.ne', one_smul, mul_nonsing_inv _ hApos.ne'.isUnit]
  unfold gaussianLogDensity
  rw [← hGG, hC, hAC, hinv, sub_zero, smul_mulVec, dotProduct_smul, hquad, smul_eq_mul, det_smul, Fintype.card_fin,
    Real.log_mul (pow_pos htot _).ne' hApos.ne', Real.log_pow, Real.log_mul (by positivity) htot.ne', ← hld]
  have hl := congrArg Real.log hdet
  rw [Real.log_mul hApos.ne' hFF.ne', Real.log_mul hGpos.ne' hRpos.ne'] at hl
  rw [show Real.log (Aᵀ * R * A).det = Real.log (Fᵀ * R⁻¹ * F).det + Real.log R.det - Real.log (Fᵀ * F).det by linarith, hmk]
  ring

/-- **C108 does not hold for given coefficients** (where restricted and ordinary likelihood are the same): the returned value is the Gaussian log density
plus the logarithm of the determinant of the scaled covariance matrix, which has the wrong sign in the code. -/
theorem c108_given_trend_exact (hc : CholeskyRoutine chol) (hq : QrRoutine qr) (R0 : Matrix (Fin N) (Fin N) ℝ)
    (F : Matrix (Fin N) (Fin k) ℝ) (b : Fin k → ℝ) (y : Fin N → ℝ) (sigma2 noise v : ℝ) (hs : 0 < sigma2) (hn : 0 ≤ noise) (e : LlfEnv N k)
    (hv : llfRestricted chol qr R0 F (some b) y sigma2 noise = some (v, e)) :
    v = gaussianLogDensity (F *ᵥ b) (sigma2 • R0 + noise • (1 : Matrix (Fin N) (Fin N) ℝ)) y +
      Real.log ((sigma2 + noise)⁻¹ • (sigma2 • R0 + noise • (1 : Matrix (Fin N) (Fin N) ℝ))).det := by
  obtain ⟨ha, -, -, rfl⟩ := restricted_some hv
  obtain ⟨hch, -, hgiven, hrho⟩ := aux_spec hc hq (by simp) ha
  have htot : 0 < sigma2 + noise := by positivity
  rw [hgiven b rfl] at hrho
  rw [← gpMatrix_noisy htot, density_eq hch htot, hrho, smul_smul, inv_mul_cancel₀ htot.ne', one_smul, (log_det_chol hch).1]
  ring

private theorem pair_det {s : ℝ} : (pairMatrix s).det = 1 - s ^ 2 := by simp [pairMatrix, det_fin_two, sq]

/-- A concrete case: two observations with correlation 1/3, variance at least 1, and no noise. -/
private theorem pair_restricted (beta : Option (Fin 1 → ℝ)) (hb : beta = none ∨ beta = some 0) {s2 : ℝ} (hs2 : 1 ≤ s2) :
    (llfRestricted idealChol idealQr (pairMatrix (1 / 3)) ones2 beta ![1, -1] s2 0).isSome := by
  have hm : gpMatrix (.noisy s2 0) (pairMatrix (1 / 3)) = pairMatrix (1 / 3) := by
    simp [gpMatrix, smul_smul, inv_mul_cancel₀ (show s2 ≠ 0 by linarith)]
  obtain ⟨a, ha, hS, hL, hlog⟩ := pair_bounds (s := 1 / 3) (by norm_num [abs_of_pos]) beta
  have hq : QrRoutine (idealQr (N := 2) (k := 1)) := idealQr_routine (by norm_num)
  have hlp : (1 : ℝ) ≤ Real.log (2 * Real.pi * (s2 + 0)) := by
    rw [Real.le_log_iff_exp_le (by positivity)]
    nlinarith [Real.exp_one_lt_d9, Real.pi_gt_three]
  have hsq : 0 ≤ sumSquares a.rho / (s2 + 0) := div_nonneg (Finset.sum_nonneg fun i _ => sq_nonneg _) (by linarith)
  unfold llfRestricted
  rw [hm, ha, Option.bind_some]
  rcases hb with rfl | rfl
  · obtain ⟨hch, hqr, hGe⟩ := aux_none idealChol_routine hq ha
    have hG2 : (∏ p, a.G p p) ^ 2 = (ones2ᵀ * (pairMatrix (1 / 3))⁻¹ * ones2).det := by
      rw [trend_gram hch hqr, det_mul, det_transpose, det_upper (by rw [hGe]; exact (idealQr_spec (by norm_num) _).2), sq]
    have hval : (ones2ᵀ * (pairMatrix (1 / 3))⁻¹ * ones2).det = 3 / 2 := by
      have h1 := pair_inv (s := 1 / 3) (by norm_num [abs_of_pos]) ![1, 1]
      rw [det_fin_one]
      have h2 : (ones2ᵀ * (pairMatrix (1 / 3))⁻¹ * ones2) 0 0 = ![1, 1] ⬝ᵥ ((pairMatrix (1 / 3))⁻¹ *ᵥ ![1, 1]) := by
        simp [mul_apply, ones2, dotProduct, mulVec, Fin.sum_univ_two]; ring
      rw [h2, h1]
      norm_num
    have hgram : (ones2ᵀ * ones2).det = 2 := by
      rw [det_fin_one]; simp [mul_apply, ones2]
    simp only
    rw [if_neg, Option.isSome_some]
    rw [not_lt, Real.exp_le_one_iff, hG2, hval, hgram]
    have h2 : Real.log 2 ≤ Real.log (2 * Real.pi * (s2 + 0)) := Real.log_le_log (by norm_num) (by nlinarith [Real.pi_gt_three])
    have h3 : 0 ≤ twiceLogDiag a.L + Real.log (3 / 2) := by
      rw [← (log_det_chol hch).1, pair_det, ← Real.log_mul (by norm_num) (by norm_num)]
      exact Real.log_nonneg (by norm_num)
    norm_num at *
    nlinarith
  · have hd : twiceLogDiag a.L ≤ 0 := by
      rw [← (log_det_chol (aux_spec idealChol_routine hq (by simp) ha).1).1, pair_det]
      exact Real.log_nonpos (by norm_num) (by norm_num)
    simp only
    rw [if_neg, Option.isSome_some]
    rw [not_lt, Real.exp_le_one_iff]
    norm_num at *
    nlinarith

/-- **C108 does not hold**: two observations with correlation 1/3 and mean zero. -/
theorem c108_given_trend_refuted : ∃ (v : ℝ) (e : LlfEnv 2 1),
    llfRestricted idealChol idealQr !![1, 1 / 3; 1 / 3, 1] (of fun _ _ => 1) (some 0) ![1, -1] 1 0 = some (v, e) ∧
    v ≠ gaussianLogDensity 0 !![1, 1 / 3; 1 / 3, 1] ![1, -1] := by
  obtain ⟨⟨v, e⟩, hv⟩ := Option.isSome_iff_exists.1 (pair_restricted (some 0) (Or.inr rfl) le_rfl)
  refine ⟨v, e, hv, ?_⟩
  have h := c108_given_trend_exact idealChol_routine (idealQr_routine (by norm_num)) _ _ _ _ 1 0 v (by norm_num) le_rfl e hv
  simp only [mulVec_zero, one_smul, zero_smul, add_zero, inv_one] at h
  rw [h]
  intro h0
  have h1 : Real.log (pairMatrix (1 / 3)).det = 0 := by
    have : gaussianLogDensity 0 !![1, 1 / 3; 1 / 3, 1] ![1, -1] = gaussianLogDensity 0 (pairMatrix (1 / 3)) ![1, -1] := rfl
    linarith
  rw [pair_det] at h1
  have := Real.log_neg (x := 1 - (1 / 3 : ℝ) ^ 2) (by norm_num) (by norm_num)
  linarith

/-- The hypotheses of `c108_contrasts_partial` are met, by two observations and one contrast. -/
example : ∃ (v : ℝ) (A : Matrix (Fin 2) (Fin 1) ℝ), IsContrasts ones2 A ∧
    v = gaussianLogDensity 0 (Aᵀ * ((1 : ℝ) • pairMatrix (1 / 3) + (0 : ℝ) • (1 : Matrix (Fin 2) (Fin 2) ℝ)) * A) (Aᵀ *ᵥ ![1, -1]) := by
  obtain ⟨⟨v, e⟩, hv⟩ := Option.isSome_iff_exists.1 (pair_restricted none (Or.inl rfl) le_rfl)
  obtain ⟨A, hA⟩ := contrasts_exist (show 1 ≤ 2 by norm_num) ones2
  exact ⟨v, A, hA, c108_contrasts_partial idealChol_routine (idealQr_routine (by norm_num)) (fun A => (idealQr_spec (by norm_num) A).2) _ _ ones2_full _ 1 0 v
    (by norm_num) le_rfl e hv A hA⟩

/-! ### C109 -/

private theorem restricted_all {R0 : ℝ → Matrix (Fin N) (Fin N) ℝ} {s2 : ℝ → ℝ} {noise : ℝ} (hc : CholeskyRoutine chol) (hq : QrRoutine qr)
    (hu : UpperFactor qr) {F : Matrix (Fin N) (Fin k) ℝ} {y : Fin N → ℝ} {t : ℝ} {v : ℝ → ℝ} {e : ℝ → LlfEnv N k}
    {R' : Matrix (Fin N) (Fin N) ℝ} {s2' : ℝ} (hF : FullRank F)
    (hp : ∀ i j, HasDerivAt (fun s => gpMatrix (.noisy (s2 s) noise) (R0 s) i j) (R' i j) t) (hs : HasDerivAt s2 s2' t) (htot : 0 < s2 t + noise)
    (hv : ∀ᶠ s in nhds t, llfRestricted chol qr (R0 s) F none y (s2 s) noise = some (v s, e s)) :
    HasDerivAt v (-(1 / 2) * (N * s2' / (s2 t + noise) + ((gpMatrix (.noisy (s2 t) noise) (R0 t))⁻¹ * R').trace -
        gpGamma (e t).aux ⬝ᵥ (R' *ᵥ gpGamma (e t).aux) / (s2 t + noise) - sumSquares (e t).aux.rho * s2' / (s2 t + noise) ^ 2) +
      k / 2 * s2' / (s2 t + noise) + 1 / 2 * (((e t).aux.Lᵀ⁻¹ * (e t).aux.Q) * ((e t).aux.Lᵀ⁻¹ * (e t).aux.Q)ᵀ * R').trace) t := by
  have hall := hv.mono fun s hs => restricted_none hs
  obtain ⟨hat, -⟩ := hall.self_of_nhds
  obtain ⟨hch, hqr, hGe⟩ := aux_none hc hq hat
  have hG := qr_unit (chol_det hch) hqr hF
  have hm : HasDerivAt (fun s => s2 s + noise) s2' t := hs.add_const noise
  have h1 := hasDerivAt_fixed hc hq hp (fun _ => hF) (hall.mono fun s hs => hs.1) (m := fun s => s2 s + noise) htot hm
    (v := fun s => -(1 / 2) * (N * Real.log (2 * Real.pi * (s2 s + noise)) + twiceLogDiag (e s).aux.L + sumSquares (e s).aux.rho / (s2 s + noise)))
    (Filter.Eventually.of_forall fun _ => rfl)
  have h2 := hasDerivAt_trend_det hp hch hqr hG
  have h3 := ((hm.const_mul (2 * Real.pi)).log (by positivity)).const_mul ((k : ℝ) / 2)
  have h4 := (((h1.add h3).add_const (1 / 2 * Real.log (Fᵀ * F).det)).sub (h2.const_mul (1 / 2)))
  refine (h4.congr_of_eventuallyEq ?_).congr_deriv ?_
  · filter_upwards [hall] with s hs
    obtain ⟨ha, -, -, hvs⟩ := hs
    obtain ⟨hch', hqr', hGe'⟩ := aux_none hc hq ha
    have hGG : (Fᵀ * (gpMatrix (.noisy (s2 s) noise) (R0 s))⁻¹ * F).det = (∏ p, (e s).aux.G p p) ^ 2 := by
      rw [trend_gram hch' hqr', det_mul, det_transpose, det_upper (by rw [hGe']; exact hu _), sq]
    rw [hvs]
    simp only [Pi.add_apply, Pi.sub_apply, hGG]
    ring
  · have : (2 * Real.pi) ≠ 0 := by positivity
    field_simp
    ring

/-- **C109, exact relations.**  The restricted likelihood with estimated coefficients: in the variance the returned component differs from the
derivative by the missing division of one term by the total variance; in a correlation parameter moreover by the factor
`sigma2 / (sigma2 + noise)`. -/
theorem c109_restricted_gradient_exact (hc : CholeskyRoutine chol) (hq : QrRoutine qr) (hu : UpperFactor qr) (F : Matrix (Fin N) (Fin k) ℝ)
    (hF : FullRank F) (y : Fin N → ℝ) (noise : ℝ) (hn : 0 ≤ noise) (t : ℝ) :
    (∀ (R0 : Matrix (Fin N) (Fin N) ℝ) (v : ℝ → ℝ) (e : ℝ → LlfEnv N k), (∀ i j, R0 i j = R0 j i) → 0 < t →
      (∀ᶠ s in nhds t, llfRestricted chol qr R0 F none y s noise = some (v s, e s)) →
      HasDerivAt v (llfGradRestricted none (e t) R0 - (1 / 2) * (1 - (t + noise)⁻¹) *
        (((e t).aux.Lᵀ⁻¹ * (e t).aux.Q) * ((e t).aux.Lᵀ⁻¹ * (e t).aux.Q)ᵀ * R0).trace) t) ∧
    ∀ (R : ℝ → Matrix (Fin N) (Fin N) ℝ) (R' : Matrix (Fin N) (Fin N) ℝ) (sigma2 : ℝ) (v : ℝ → ℝ) (e : ℝ → LlfEnv N k), 0 < sigma2 →
      (∀ i j, HasDerivAt (fun s => R s i j) (R' i j) t) → (∀ s i j, R s i j = R s j i) →
      (∀ᶠ s in nhds t, llfRestricted chol qr (R s) F none y sigma2 noise = some (v s, e s)) →
      HasDerivAt v (sigma2 / (sigma2 + noise) * (llfGradRestricted none (e t) (restrictedDTheta (e t) R') - (1 / 2) * (sigma2 + noise - 1) *
        (((e t).aux.Lᵀ⁻¹ * (e t).aux.Q) * ((e t).aux.Lᵀ⁻¹ * (e t).aux.Q)ᵀ * R').trace)) t := by
  constructor
  · intro R0 v e hsym ht hv
    obtain ⟨hat, hs2, hnz, -⟩ := restricted_none hv.self_of_nhds
    obtain ⟨hch, hqr, hGe⟩ := aux_none hc hq hat
    have htot : 0 < t + noise := by positivity
    have hp : ∀ i j, HasDerivAt (fun s => gpMatrix (.noisy s noise) R0 i j)
        (((t + noise)⁻¹ • (R0 - gpMatrix (.noisy t noise) R0)) i j) t := fun i j => by
      have hsum : HasDerivAt (fun s => s + noise) 1 t := (hasDerivAt_id t).add_const noise
      have h1 := (hsum.inv htot.ne').mul (((hasDerivAt_id t).mul_const (R0 i j)).add_const (noise * (1 : Matrix (Fin N) (Fin N) ℝ) i j))
      refine h1.congr_deriv ?_
      simp only [gpMatrix, Matrix.smul_apply, Matrix.sub_apply, Matrix.add_apply, smul_eq_mul, id_eq, Pi.inv_apply]
      field_simp
      ring
    have hd := restricted_all (R0 := fun _ => R0) (s2 := fun s => s) hc hq hu hF hp (hasDerivAt_id t) htot hv
    refine hd.congr_deriv ?_
    have hui := (log_det_chol hch).2.ne'.isUnit
    have htr : ((gpMatrix (.noisy t noise) R0)⁻¹ * ((t + noise)⁻¹ • (R0 - gpMatrix (.noisy t noise) R0))).trace =
        (t + noise)⁻¹ * (((gpMatrix (.noisy t noise) R0)⁻¹ * R0).trace - N) := by
      rw [Matrix.mul_smul, trace_smul, Matrix.mul_sub, nonsing_inv_mul _ hui, trace_sub, trace_one, Fintype.card_fin, smul_eq_mul]
    have hq1 : gpGamma (e t).aux ⬝ᵥ (((t + noise)⁻¹ • (R0 - gpMatrix (.noisy t noise) R0)) *ᵥ gpGamma (e t).aux) =
        (t + noise)⁻¹ * (gpGamma (e t).aux ⬝ᵥ (R0 *ᵥ gpGamma (e t).aux) - sumSquares (e t).aux.rho) := by
      rw [smul_mulVec, sub_mulVec, dotProduct_smul, dotProduct_sub, gamma_quadratic hc hq (fun _ => hF) hat, smul_eq_mul]
    rw [htr, hq1, Matrix.mul_smul, trace_smul, Matrix.mul_sub, trace_sub, trend_term_trace hch hqr, smul_eq_mul]
    simp only [llfGradRestricted, hs2, hnz, choInverse_eq hch, Matrix.smul_apply, smul_eq_mul]
    rw [mulVec_smul, smul_dotProduct, dotProduct_smul, smul_eq_mul, smul_eq_mul, sum_mul_eq_trace hsym]
    have e1 : ∑ i, ∑ j, (t + noise)⁻¹ * (gpMatrix (.noisy t noise) R0)⁻¹ i j * R0 i j =
        (t + noise)⁻¹ * ((gpMatrix (.noisy t noise) R0)⁻¹ * R0).trace := by
      rw [← sum_mul_eq_trace hsym, Finset.mul_sum]
      refine Finset.sum_congr rfl fun i _ => ?_
      rw [Finset.mul_sum]
      exact Finset.sum_congr rfl fun j _ => by ring
    rw [e1]
    norm_num
    field_simp
    ring
  · intro R R' sigma2 v e hs h hsym hv
    obtain ⟨hat, hs2, hnz, -⟩ := restricted_none hv.self_of_nhds
    obtain ⟨hch, hqr, hGe⟩ := aux_none hc hq hat
    have htot : 0 < sigma2 + noise := by positivity
    have hp : ∀ i j, HasDerivAt (fun s => gpMatrix (.noisy sigma2 noise) (R s) i j)
        (((sigma2 + noise)⁻¹ • (sigma2 • R')) i j) t := fun i j => by
      simp only [gpMatrix]
      exact (((h i j).const_mul sigma2).add_const _).const_mul _
    have hd := restricted_all (R0 := R) (s2 := fun _ => sigma2) hc hq hu hF hp (hasDerivAt_const t sigma2) htot hv
    refine hd.congr_deriv ?_
    have hsy : ∀ i j, R' i j = R' j i := fun i j => by
      have h1 := h i j
      simp only [hsym _ i j] at h1
      exact h1.unique (h j i)
    simp only [llfGradRestricted, restrictedDTheta, hs2, hnz, choInverse_eq hch, Matrix.smul_apply, smul_eq_mul]
    have e1 : ∑ i, ∑ j, (sigma2 + noise)⁻¹ * (gpMatrix (.noisy sigma2 noise) (R t))⁻¹ i j * ((sigma2 + noise) * R' i j) =
        ((gpMatrix (.noisy sigma2 noise) (R t))⁻¹ * R').trace := by
      rw [← sum_mul_eq_trace hsy]
      refine Finset.sum_congr rfl fun i _ => Finset.sum_congr rfl fun j _ => by field_simp
    have e2 : ∀ M : Matrix (Fin N) (Fin N) ℝ, ∑ i, ∑ j, M i j * ((sigma2 + noise) * R' i j) = (sigma2 + noise) * (M * R').trace := fun M => by
      rw [← sum_mul_eq_trace hsy, Finset.mul_sum]
      refine Finset.sum_congr rfl fun i _ => ?_
      rw [Finset.mul_sum]
      exact Finset.sum_congr rfl fun j _ => by ring
    rw [e1, e2]
    simp only [mulVec_smul, smul_mulVec, smul_dotProduct, dotProduct_smul, smul_eq_mul, Matrix.mul_smul, trace_smul]
    norm_num
    field_simp
    ring

/-- **C109, the part that holds.**  With estimated coefficients and without noise, at variance 1 the returned components are the partial derivatives. -/
theorem c109_unit_variance_partial (hc : CholeskyRoutine chol) (hq : QrRoutine qr) (hu : UpperFactor qr) (F : Matrix (Fin N) (Fin k) ℝ)
    (hF : FullRank F) (y : Fin N → ℝ) :
    (∀ (R0 : Matrix (Fin N) (Fin N) ℝ) (v : ℝ → ℝ) (e : ℝ → LlfEnv N k), (∀ i j, R0 i j = R0 j i) →
      (∀ᶠ s in nhds 1, llfRestricted chol qr R0 F none y s 0 = some (v s, e s)) → HasDerivAt v (llfGradRestricted none (e 1) R0) 1) ∧
    ∀ (t : ℝ) (R : ℝ → Matrix (Fin N) (Fin N) ℝ) (R' : Matrix (Fin N) (Fin N) ℝ) (v : ℝ → ℝ) (e : ℝ → LlfEnv N k),
      (∀ i j, HasDerivAt (fun s => R s i j) (R' i j) t) → (∀ s i j, R s i j = R s j i) →
      (∀ᶠ s in nhds t, llfRestricted chol qr (R s) F none y 1 0 = some (v s, e s)) →
      HasDerivAt v (llfGradRestricted none (e t) (restrictedDTheta (e t) R')) t := by
  refine ⟨fun R0 v e hsym hv => ?_, fun t R R' v e h hsym hv => ?_⟩
  · refine ((c109_restricted_gradient_exact hc hq hu F hF y 0 le_rfl 1).1 R0 v e hsym one_pos hv).congr_deriv ?_
    norm_num
  · refine ((c109_restricted_gradient_exact hc hq hu F hF y 0 le_rfl t).2 R R' 1 v e one_pos h hsym hv).congr_deriv ?_
    norm_num

/-- **C109 does not hold**: two observations with correlation 1/3 and an unknown mean, without noise, at variance 2.  The likelihood has a derivative
in the variance, and it is not the returned one. -/
theorem c109_restricted_gradient_refuted : ∃ (v : ℝ → ℝ) (e : ℝ → LlfEnv 2 1) (d : ℝ),
    (∀ᶠ s in nhds 2, llfRestricted idealChol idealQr !![1, 1 / 3; 1 / 3, 1] (of fun _ _ => 1) none ![1, -1] s 0 = some (v s, e s)) ∧
    HasDerivAt v d 2 ∧ d ≠ llfGradRestricted none (e 2) !![1, 1 / 3; 1 / 3, 1] := by
  obtain ⟨v, e, hv⟩ := eventually_some (X := fun s => llfRestricted idealChol idealQr (pairMatrix (1 / 3)) ones2 none ![1, -1] s 0) 2
    ((eventually_gt_nhds (show (1 : ℝ) < 2 by norm_num)).mono fun s hs => pair_restricted none (Or.inl rfl) hs.le)
  have hq : QrRoutine (idealQr (N := 2) (k := 1)) := idealQr_routine (by norm_num)
  have hd := (c109_restricted_gradient_exact idealChol_routine hq (fun A => (idealQr_spec (by norm_num) A).2) _ ones2_full _ 0 le_rfl 2).1
    (pairMatrix (1 / 3)) v e (fun i j => by fin_cases i <;> fin_cases j <;> rfl) (by norm_num) hv
  refine ⟨v, e, _, hv, hd, fun h => ?_⟩
  obtain ⟨hat, -⟩ := restricted_none hv.self_of_nhds
  obtain ⟨hch, hqr, -⟩ := aux_none idealChol_routine hq hat
  have htr := trend_term_trace hch hqr
  rw [show gpMatrix (.noisy 2 0) (pairMatrix (1 / 3)) = pairMatrix (1 / 3) by simp [gpMatrix, smul_smul]] at htr
  rw [htr] at h
  have : llfGradRestricted none (e 2) (pairMatrix (1 / 3)) = llfGradRestricted none (e 2) !![1, 1 / 3; 1 / 3, 1] := rfl
  norm_num [this] at h

/-- The hypotheses of `c109_unit_variance_partial` are met. -/
example : ∃ (v : ℝ → ℝ) (e : ℝ → LlfEnv 2 1), HasDerivAt v (llfGradRestricted none (e 2) (restrictedDTheta (e 2) 0)) 2 := by
  obtain ⟨v, e, hv⟩ := eventually_some (X := fun _ => llfRestricted idealChol idealQr (pairMatrix (1 / 3)) ones2 none ![1, -1] 1 0) 2
    (Filter.Eventually.of_forall fun s => pair_restricted none (Or.inl rfl) le_rfl)
  exact ⟨v, e, (c109_unit_variance_partial idealChol_routine (idealQr_routine (by norm_num)) (fun A => (idealQr_spec (by norm_num) A).2) _ ones2_full _).2 2
    (fun _ => pairMatrix (1 / 3)) 0 v e (fun i j => hasDerivAt_const _ _) (fun _ i j => by fin_cases i <;> fin_cases j <;> rfl) hv⟩

end Verif.Props
