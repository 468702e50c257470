import Verif.Proofs.LikelihoodGrad
import Verif.Proofs.CholeskyExists
import Verif.Proofs.QrExists
import Verif.Props.Gpr
import Mathlib.Analysis.Complex.ExponentialBounds
import Mathlib.Analysis.Real.Pi.Bounds

/-!
# C101-C104: the likelihood of the hyper-parameters
-/
namespace Verif.Props

open Matrix Verif.Model Verif.Spec Verif.Proofs

variable {n N k : ℕ} {chol : Matrix (Fin N) (Fin N) ℝ → Option (Matrix (Fin N) (Fin N) ℝ)}
  {qr : Matrix (Fin N) (Fin k) ℝ → Matrix (Fin N) (Fin k) ℝ × Matrix (Fin k) (Fin k) ℝ}

/-! ### C101 -/

private theorem scaled_greatest (hc : CholeskyRoutine chol) (hq : QrRoutine qr) {R : Matrix (Fin N) (Fin N) ℝ} {F : Matrix (Fin N) (Fin k) ℝ}
    {beta : Option (Fin k → ℝ)} (hF : beta = none → FullRank F) {y : Fin N → ℝ} {a : GpAux N k}
    (ha : computeAux chol qr R F beta y = some a) (hS : 0 < sumSquares a.rho) (hN : 0 < N) :
    IsGreatest (scaledLikelihoods F beta R y)
      (-(1 / 2) * (N * Real.log (2 * Real.pi * (sumSquares a.rho / N)) + twiceLogDiag a.L + N)) := by
  obtain ⟨hch, hmin, hgiven, hrho⟩ := aux_spec hc hq hF ha
  have hN' : (0 : ℝ) < N := Nat.cast_pos.2 hN
  constructor
  · refine ⟨gpBeta a beta, sumSquares a.rho / N, hgiven, by positivity, ?_⟩
    rw [density_eq hch (by positivity), hrho]
    field_simp
  · rintro v ⟨b, s, hb, hs, rfl⟩
    rw [density_eq hch hs]
    have h1 := scale_min hN hS hs
    have h2 : sumSquares a.rho / s ≤ sumSquares (a.L⁻¹ *ᵥ (y - F *ᵥ b)) / s := by
      have := hmin b hb
      gcongr
    linarith

/-- **C101.**  Without noise: the concentrated likelihood differs from the largest Gaussian log likelihood, over all variances and
all coefficients of the trend (if these are not given), by a constant that depends on the numbers of samples and coefficients only:
it ranks the correlation parameters as the maximal likelihood does. -/
theorem c101_noiseless (N k : ℕ) (beta : Option (Fin k → ℝ)) : ∃ const : ℝ, (beta ≠ none → const = 0) ∧
    ∀ (chol : Matrix (Fin N) (Fin N) ℝ → Option (Matrix (Fin N) (Fin N) ℝ))
      (qr : Matrix (Fin N) (Fin k) ℝ → Matrix (Fin N) (Fin k) ℝ × Matrix (Fin k) (Fin k) ℝ), CholeskyRoutine chol → QrRoutine qr →
    ∀ (R : Matrix (Fin N) (Fin N) ℝ) (F : Matrix (Fin N) (Fin k) ℝ), (beta = none → FullRank F) →
    ∀ (y : Fin N → ℝ) (v : ℝ) (e : LlfEnv N k), llfConcentrated chol qr .noiseless R F beta y = some (v, e) →
      IsGreatest (scaledLikelihoods F beta R y) (v + const) := by
  refine ⟨1 / 2 * (N * (Real.log N - Real.log (N - trendRank k beta))), fun hb => ?_, ?_⟩
  · cases beta with
    | none => exact absurd rfl hb
    | some b => simp [trendRank]
  intro chol qr hc hq R F hF y v e hv
  obtain ⟨a, ha, hk, hS, rfl, rfl, -⟩ := llf_noiseless_some.1 hv
  have hN : 0 < N := by omega
  have hN' : (0 : ℝ) < N := Nat.cast_pos.2 hN
  have hk' : (0 : ℝ) < N - trendRank k beta := sub_pos.2 (Nat.cast_lt.2 hk)
  have h := scaled_greatest hc hq hF ha hS hN
  convert h using 1
  have e : ∀ x : ℝ, 0 < x → Real.log (2 * Real.pi * (sumSquares a.rho / x)) =
      Real.log (2 * Real.pi) + (Real.log (sumSquares a.rho) - Real.log x) := fun x hx => by
    rw [Real.log_mul (by positivity) (by positivity), Real.log_div hS.ne' hx.ne']
  rw [e _ hk', e _ hN']
  ring

/-- **C101.**  With an unknown share of noise: the concentrated likelihood is the largest Gaussian log likelihood over all total
variances and all coefficients. -/
theorem c101_noise_estim (hc : CholeskyRoutine chol) (hq : QrRoutine qr) (R0 : Matrix (Fin N) (Fin N) ℝ) (F : Matrix (Fin N) (Fin k) ℝ)
    (beta : Option (Fin k → ℝ)) (hF : beta = none → FullRank F) (y : Fin N → ℝ) (alpha v : ℝ) (e : LlfEnv N k)
    (hv : llfConcentrated chol qr (.noiseEstim alpha) R0 F beta y = some (v, e)) :
    IsGreatest (scaledLikelihoods F beta (alpha • R0 + (1 - alpha) • (1 : Matrix (Fin N) (Fin N) ℝ)) y) v := by
  obtain ⟨a, ha, hN, hS, -, rfl, -⟩ := llf_noise_estim_some.1 hv
  exact scaled_greatest hc hq hF ha hS hN

/-- **C101.**  With known noise: the concentrated likelihood is the largest Gaussian log likelihood over all coefficients of the trend,
for the covariance matrix of noisy observations. -/
theorem c101_noisy (hc : CholeskyRoutine chol) (hq : QrRoutine qr) (R0 : Matrix (Fin N) (Fin N) ℝ) (F : Matrix (Fin N) (Fin k) ℝ)
    (beta : Option (Fin k → ℝ)) (hF : beta = none → FullRank F) (y : Fin N → ℝ) (sigma2 noise v : ℝ) (hs : 0 < sigma2) (hn : 0 ≤ noise)
    (e : LlfEnv N k) (hv : llfConcentrated chol qr (.noisy sigma2 noise) R0 F beta y = some (v, e)) :
    IsGreatest (trendLikelihoods F beta (sigma2 • R0 + noise • (1 : Matrix (Fin N) (Fin N) ℝ)) y) v := by
  obtain ⟨a, ha, -, rfl, -⟩ := llf_noisy_some.1 hv
  obtain ⟨hch, hmin, hgiven, hrho⟩ := aux_spec hc hq hF ha
  have htot : 0 < sigma2 + noise := by linarith
  have hC : (sigma2 + noise) • gpMatrix (.noisy sigma2 noise) R0 = sigma2 • R0 + noise • (1 : Matrix (Fin N) (Fin N) ℝ) := by
    simp only [gpMatrix, smul_smul, mul_inv_cancel₀ htot.ne', one_smul]
  rw [← hC]
  constructor
  · refine ⟨gpBeta a beta, hgiven, ?_⟩
    rw [density_eq hch htot, hrho]
  · rintro v ⟨b, hb, rfl⟩
    rw [density_eq hch htot]
    have h2 : sumSquares a.rho / (sigma2 + noise) ≤ sumSquares (a.L⁻¹ *ᵥ (y - F *ᵥ b)) / (sigma2 + noise) := by
      have := hmin b hb
      gcongr
    linarith

/-! ### C102 -/

/-- **C102 does not hold.**  The factorisation succeeds and the data are not degenerate, but the Gaussian log likelihood is positive, so that
the parameters are treated as invalid.  This happens for every correlation matrix, trend and data once the unit of the observations is chosen large
enough. -/
theorem c102_small_observations_rejected (R : Matrix (Fin N) (Fin N) ℝ)
    (F : Matrix (Fin N) (Fin k) ℝ) (hR : (chol R).isSome) (hk : k < N) (y : Fin N → ℝ) :
    ∃ c0 : ℝ, 0 < c0 ∧ ∀ c : ℝ, 0 < c → c < c0 → llfConcentrated chol qr .noiseless R F none (c • y) = none := by
  obtain ⟨L, hL⟩ := Option.isSome_iff_exists.1 hR
  have hN : 0 < N := by omega
  have hN' : (0 : ℝ) < N := Nat.cast_pos.2 hN
  have hk' : (0 : ℝ) < (N : ℝ) - k := sub_pos.2 (Nat.cast_lt.2 hk)
  obtain ⟨a, ha⟩ : ∃ a, computeAux chol qr R F none y = some a := by unfold computeAux; rw [hL]; exact ⟨_, rfl⟩
  have haL : a.L = L := by
    unfold computeAux at ha; rw [hL] at ha; cases Option.some.inj ha; rfl
  have hscale : ∀ c : ℝ, ∀ a', computeAux chol qr R F none (c • y) = some a' → a'.L = L ∧ sumSquares a'.rho = c ^ 2 * sumSquares a.rho := by
    intro c a' ha'
    unfold computeAux at ha ha'
    rw [hL] at ha ha'
    cases Option.some.inj ha
    cases Option.some.inj ha'
    refine ⟨rfl, ?_⟩
    simp only [sumSquares, mulVec_smul, Pi.sub_apply, Pi.smul_apply, smul_eq_mul, Finset.mul_sum]
    exact Finset.sum_congr rfl fun i _ => by ring
  refine ⟨Real.exp (-(N * Real.log (2 * Real.pi * (sumSquares a.rho / ((N : ℝ) - k))) + twiceLogDiag L + N) / (2 * N)), Real.exp_pos _,
    fun c hc0 hc1 => ?_⟩
  by_contra hne
  obtain ⟨⟨v, e⟩, hv⟩ := Option.ne_none_iff_exists'.1 hne
  obtain ⟨a', ha', -, hS, -, hveq, hv0⟩ := llf_noiseless_some.1 hv
  obtain ⟨hL', hS'⟩ := hscale c a' ha'
  have hSa : 0 < sumSquares a.rho := by
    rw [hS'] at hS
    exact pos_of_mul_pos_right hS (sq_nonneg c)
  have hlog : Real.log c < -(N * Real.log (2 * Real.pi * (sumSquares a.rho / ((N : ℝ) - k))) + twiceLogDiag L + N) / (2 * N) := by
    rw [← Real.log_exp (-(N * Real.log (2 * Real.pi * (sumSquares a.rho / ((N : ℝ) - k))) + twiceLogDiag L + N) / (2 * N))]
    exact Real.log_lt_log hc0 hc1
  rw [lt_div_iff₀ (by positivity)] at hlog
  have e1 : Real.log (2 * Real.pi * (sumSquares a'.rho / ((N : ℝ) - trendRank k (none : Option (Fin k → ℝ))))) =
      2 * Real.log c + Real.log (2 * Real.pi * (sumSquares a.rho / ((N : ℝ) - k))) := by
    rw [hS', show 2 * Real.pi * (c ^ 2 * sumSquares a.rho / ((N : ℝ) - trendRank k (none : Option (Fin k → ℝ)))) =
      c ^ 2 * (2 * Real.pi * (sumSquares a.rho / ((N : ℝ) - k))) by simp only [trendRank]; ring,
      Real.log_mul (by positivity) (by positivity), Real.log_pow]
    norm_num
  rw [e1, hL'] at hveq
  nlinarith

private theorem quad_eq (R : Fin N → Fin N → ℝ) (w : Fin N → ℝ) : w ⬝ᵥ (of R *ᵥ w) = ∑ i, ∑ j, w i * w j * R i j := by
  simp only [dotProduct, mulVec, of_apply, Finset.mul_sum]
  exact Finset.sum_congr rfl fun i _ => Finset.sum_congr rfl fun j _ => by ring

private theorem noisy_quad {R0 : Fin N → Fin N → ℝ} (h : IsCorrelationMatrix R0) {sigma2 noise : ℝ} (hs : 0 < sigma2) (hn : 0 < noise)
    (w : Fin N → ℝ) : noise / (sigma2 + noise) * (w ⬝ᵥ w) ≤ w ⬝ᵥ (gpMatrix (.noisy sigma2 noise) (of R0) *ᵥ w) := by
  have h4 := h.2.2.2 w
  rw [← quad_eq] at h4
  simp only [gpMatrix, smul_mulVec, add_mulVec, one_mulVec, dotProduct_smul, dotProduct_add, smul_eq_mul]
  have htot : 0 < sigma2 + noise := by positivity
  rw [div_eq_inv_mul, mul_assoc]
  refine mul_le_mul_of_nonneg_left ?_ (by positivity)
  nlinarith

private theorem noisy_chol (hcc : CompleteCholesky chol) {R0 : Fin N → Fin N → ℝ} (h : IsCorrelationMatrix R0) {sigma2 noise : ℝ}
    (hs : 0 < sigma2) (hn : 0 < noise) : (chol (gpMatrix (.noisy sigma2 noise) (of R0))).isSome := by
  refine hcc _ (fun i j => ?_) fun w hw => ?_
  · simp [gpMatrix, h.1 i j, one_apply, eq_comm]
  · refine lt_of_lt_of_le ?_ (noisy_quad h hs hn w)
    have : 0 < w ⬝ᵥ w := lt_of_le_of_ne (dot_self_nonneg w) fun h0 => hw (dotProduct_self_eq_zero.1 h0.symm)
    positivity

/-- **C102, the part that holds.**  With known noise of variance at least `1 / (2 π)` the likelihood of every choice of parameters is
accepted: for every valid correlation matrix, process variance, trend and data. -/
theorem c102_noisy_accepted_partial (hc : CholeskyRoutine chol) (hcc : CompleteCholesky chol) (R0 : Fin N → Fin N → ℝ)
    (h : IsCorrelationMatrix R0) (F : Matrix (Fin N) (Fin k) ℝ) (beta : Option (Fin k → ℝ)) (y : Fin N → ℝ) (sigma2 noise : ℝ)
    (hs : 0 < sigma2) (hn : 1 / (2 * Real.pi) ≤ noise) : (llfConcentrated chol qr (.noisy sigma2 noise) (of R0) F beta y).isSome := by
  have hn0 : 0 < noise := lt_of_lt_of_le (by positivity) hn
  obtain ⟨L, hL⟩ := Option.isSome_iff_exists.1 (noisy_chol hcc h hs hn0)
  have hch := hc _ _ hL
  obtain ⟨a, ha, haL⟩ : ∃ a, computeAux chol qr (gpMatrix (.noisy sigma2 noise) (of R0)) F beta y = some a ∧ a.L = L := by
    unfold computeAux; rw [hL]
    cases beta
    · exact ⟨_, rfl, rfl⟩
    · exact ⟨_, rfl, rfl⟩
  rw [Option.isSome_iff_exists]
  refine ⟨(_, _), llf_noisy_some.2 ⟨a, ha, rfl, rfl, ?_⟩⟩
  have htot : 0 < sigma2 + noise := by positivity
  have hb : 0 < noise / (sigma2 + noise) := by positivity
  have hdiag : ∀ i, Real.log (noise / (sigma2 + noise)) ≤ 2 * Real.log (L i i) := by
    intro i
    have h1 := Real.log_le_log hb (diag_ge hch (noisy_quad h hs hn0) hb.le i)
    rw [Real.log_pow] at h1
    exact_mod_cast h1
  have hsum : (N : ℝ) * Real.log (noise / (sigma2 + noise)) ≤ twiceLogDiag L := by
    unfold twiceLogDiag
    rw [Finset.mul_sum]
    calc (N : ℝ) * Real.log (noise / (sigma2 + noise)) = ∑ _i : Fin N, Real.log (noise / (sigma2 + noise)) := by simp
      _ ≤ _ := Finset.sum_le_sum fun i _ => hdiag i
  have hlog : Real.log (2 * Real.pi * (sigma2 + noise)) + Real.log (noise / (sigma2 + noise)) = Real.log (2 * Real.pi * noise) := by
    rw [← Real.log_mul (by positivity) hb.ne']
    congr 1
    field_simp
  have hlog0 : 0 ≤ Real.log (2 * Real.pi * noise) := by
    refine Real.log_nonneg ?_
    rw [div_le_iff₀ (by positivity)] at hn
    linarith
  have hS : 0 ≤ sumSquares a.rho / (sigma2 + noise) := div_nonneg (sumSquares_nonneg _) htot.le
  have hN : (0 : ℝ) ≤ N := Nat.cast_nonneg N
  rw [haL]
  nlinarith [mul_nonneg hN hlog0]

/-! ### C103 -/

private theorem deriv_symm {R : ℝ → Matrix (Fin N) (Fin N) ℝ} {R' : Matrix (Fin N) (Fin N) ℝ} {t : ℝ}
    (h : ∀ i j, HasDerivAt (fun s => R s i j) (R' i j) t) (hsym : ∀ s i j, R s i j = R s j i) (i j : Fin N) : R' i j = R' j i := by
  have h1 := h i j
  simp only [hsym _ i j] at h1
  exact h1.unique (h j i)

private theorem deriv_diag {R : ℝ → Matrix (Fin N) (Fin N) ℝ} {R' : Matrix (Fin N) (Fin N) ℝ} {t : ℝ}
    (h : ∀ i j, HasDerivAt (fun s => R s i j) (R' i j) t) (hdiag : ∀ s i, R s i i = 1) (i : Fin N) : R' i i = 0 := by
  have h1 := h i i
  simp only [hdiag] at h1
  exact h1.unique (hasDerivAt_const t 1)

private theorem upper_parts {A R L R' : Matrix (Fin N) (Fin N) ℝ} (hA : A = R⁻¹) (h : IsCholesky R L) (hs : ∀ i j, R' i j = R' j i)
    (h0 : ∀ i, R' i i = 0) (g : Fin N → ℝ) :
    upperSum (outer g) R' = 1 / 2 * (g ⬝ᵥ (R' *ᵥ g)) ∧ upperSum A R' = 1 / 2 * (R⁻¹ * R').trace := by
  constructor
  · rw [upperSum_eq (fun i j => by simp only [outer, of_apply, mul_comm]) hs h0, sum_outer]
  · rw [upperSum_eq (fun i j => ?_) hs h0, sum_mul_eq_trace hs, hA]
    have := congrFun (congrFun (inv_symm h) i) j
    rw [hA]
    exact this.symm

/-- The noise-free likelihood along any differentiable path of correlation matrices: its derivative, compared with what the code returns.
They differ by a multiple of the number of estimated coefficients. -/
theorem c103_noiseless_exact (hc : CholeskyRoutine chol) (hq : QrRoutine qr) (R : ℝ → Matrix (Fin N) (Fin N) ℝ)
    (R' : Matrix (Fin N) (Fin N) ℝ) (t : ℝ) (h : ∀ i j, HasDerivAt (fun s => R s i j) (R' i j) t)
    (hsym : ∀ s i j, R s i j = R s j i) (hdiag : ∀ s i, R s i i = 1) (F : Matrix (Fin N) (Fin k) ℝ) (beta : Option (Fin k → ℝ))
    (hF : beta = none → FullRank F) (y : Fin N → ℝ) (v : ℝ → ℝ) (e : ℝ → LlfEnv N k)
    (hv : ∀ᶠ s in nhds t, llfConcentrated chol qr .noiseless (R s) F beta y = some (v s, e s)) :
    HasDerivAt v (llfGradNoiseless (e t) R' +
      trendRank k beta / 2 * (gpGamma (e t).aux ⬝ᵥ (R' *ᵥ gpGamma (e t).aux)) / sumSquares (e t).aux.rho) t := by
  have hall : ∀ᶠ s in nhds t, computeAux chol qr (R s) F beta y = some (e s).aux ∧ trendRank k beta < N ∧ 0 < sumSquares (e s).aux.rho ∧
      (e s).sigma2 = sumSquares (e s).aux.rho / ((N : ℝ) - trendRank k beta) ∧
      v s = -(1 / 2) * (N * Real.log (2 * Real.pi * (sumSquares (e s).aux.rho / ((N : ℝ) - trendRank k beta))) + twiceLogDiag (e s).aux.L + N) := by
    filter_upwards [hv] with s hs
    obtain ⟨a, ha, hk, hS, he, hvs, -⟩ := llf_noiseless_some.1 hs
    rw [he]
    exact ⟨ha, hk, hS, rfl, hvs⟩
  obtain ⟨hat, hk, hS, hsig, -⟩ := hall.self_of_nhds
  have hk' : (0 : ℝ) < N - trendRank k beta := sub_pos.2 (Nat.cast_lt.2 hk)
  have hch := (aux_spec hc hq hF hat).1
  have hd := hasDerivAt_scaled hc hq h hF (hall.mono fun s hs => hs.1) hk' hS (hall.mono fun s hs => hs.2.2.2.2)
  obtain ⟨e1, e2⟩ := upper_parts (choInverse_eq hch) hch (deriv_symm h hsym) (deriv_diag h hdiag) (gpGamma (e t).aux)
  refine hd.congr_deriv ?_
  unfold llfGradNoiseless
  rw [e1, e2, hsig]
  field_simp
  ring

/-- **C103, the part that holds.**  Given trend coefficients, no noise: the gradient that the code returns is the derivative of the
likelihood, along every differentiable path of correlation matrices. -/
theorem c103_simple_kriging_partial (hc : CholeskyRoutine chol) (hq : QrRoutine qr) (R : ℝ → Matrix (Fin N) (Fin N) ℝ)
    (R' : Matrix (Fin N) (Fin N) ℝ) (t : ℝ) (h : ∀ i j, HasDerivAt (fun s => R s i j) (R' i j) t)
    (hsym : ∀ s i j, R s i j = R s j i) (hdiag : ∀ s i, R s i i = 1) (F : Matrix (Fin N) (Fin k) ℝ) (b : Fin k → ℝ)
    (y : Fin N → ℝ) (v : ℝ → ℝ) (e : ℝ → LlfEnv N k)
    (hv : ∀ᶠ s in nhds t, llfConcentrated chol qr .noiseless (R s) F (some b) y = some (v s, e s)) :
    HasDerivAt v (llfGradNoiseless (e t) R') t := by
  have := c103_noiseless_exact hc hq R R' t h hsym hdiag F (some b) (by simp) y v e hv
  simpa [trendRank] using this

/-- **C103 does not hold with an estimated trend**: whenever the quadratic form below is not zero. -/
theorem c103_estimated_trend_wrong (hc : CholeskyRoutine chol) (hq : QrRoutine qr) (R : ℝ → Matrix (Fin N) (Fin N) ℝ)
    (R' : Matrix (Fin N) (Fin N) ℝ) (t : ℝ) (h : ∀ i j, HasDerivAt (fun s => R s i j) (R' i j) t)
    (hsym : ∀ s i j, R s i j = R s j i) (hdiag : ∀ s i, R s i i = 1) (F : Matrix (Fin N) (Fin k) ℝ) (hk : 0 < k)
    (hF : FullRank F) (y : Fin N → ℝ) (v : ℝ → ℝ) (e : ℝ → LlfEnv N k)
    (hv : ∀ᶠ s in nhds t, llfConcentrated chol qr .noiseless (R s) F none y = some (v s, e s))
    (hne : gpGamma (e t).aux ⬝ᵥ (R' *ᵥ gpGamma (e t).aux) ≠ 0) :
    ¬ HasDerivAt v (llfGradNoiseless (e t) R') t := by
  intro hd
  have h1 := c103_noiseless_exact hc hq R R' t h hsym hdiag F none (fun _ => hF) y v e hv
  have h2 := hd.unique h1
  obtain ⟨a, -, -, hS, he, -⟩ := llf_noiseless_some.1 hv.self_of_nhds
  have hS' : 0 < sumSquares (e t).aux.rho := by rw [he]; exact hS
  have h3 : (trendRank k (none : Option (Fin k → ℝ)) : ℝ) / 2 * (gpGamma (e t).aux ⬝ᵥ (R' *ᵥ gpGamma (e t).aux)) / sumSquares (e t).aux.rho = 0 := by
    linarith
  have hk' : (trendRank k (none : Option (Fin k → ℝ)) : ℝ) / 2 ≠ 0 := by
    have : (0 : ℝ) < k := Nat.cast_pos.2 hk
    simp only [trendRank]
    positivity
  exact (div_ne_zero (mul_ne_zero hk' hne) hS'.ne') h3

/-- **C103, the part that holds.**  With an unknown share of noise the gradient is right in the correlation parameters and in the share, for
either kind of trend. -/
theorem c103_noise_estim_partial (hc : CholeskyRoutine chol) (hq : QrRoutine qr) (F : Matrix (Fin N) (Fin k) ℝ) (beta : Option (Fin k → ℝ))
    (hF : beta = none → FullRank F) (y : Fin N → ℝ) (t : ℝ) :
    (∀ (R : ℝ → Matrix (Fin N) (Fin N) ℝ) (R' : Matrix (Fin N) (Fin N) ℝ) (alpha : ℝ) (v : ℝ → ℝ) (e : ℝ → LlfEnv N k),
      (∀ i j, HasDerivAt (fun s => R s i j) (R' i j) t) → (∀ s i j, R s i j = R s j i) → (∀ s i, R s i i = 1) →
      (∀ᶠ s in nhds t, llfConcentrated chol qr (.noiseEstim alpha) (R s) F beta y = some (v s, e s)) →
      HasDerivAt v (llfGradNoiseEstimTheta (e t) alpha R') t) ∧
    ∀ (R0 : Matrix (Fin N) (Fin N) ℝ) (v : ℝ → ℝ) (e : ℝ → LlfEnv N k), (∀ i j, R0 i j = R0 j i) →
      (∀ᶠ s in nhds t, llfConcentrated chol qr (.noiseEstim s) R0 F beta y = some (v s, e s)) →
      HasDerivAt v (llfGradNoiseEstimAlpha (e t) R0) t := by
  constructor
  · intro R R' alpha v e h hsym hdiag hv
    have hall : ∀ᶠ s in nhds t, computeAux chol qr (gpMatrix (.noiseEstim alpha) (R s)) F beta y = some (e s).aux ∧ 0 < N ∧
        0 < sumSquares (e s).aux.rho ∧
        v s = -(1 / 2) * (N * Real.log (2 * Real.pi * (sumSquares (e s).aux.rho / N)) + twiceLogDiag (e s).aux.L + N) := by
      filter_upwards [hv] with s hs
      obtain ⟨a, ha, hk, hS, he, hvs, -⟩ := llf_noise_estim_some.1 hs
      rw [he]
      exact ⟨ha, hk, hS, hvs⟩
    obtain ⟨hat, hN, hS, -⟩ := hall.self_of_nhds
    have hN' : (0 : ℝ) < N := Nat.cast_pos.2 hN
    have hch := (aux_spec hc hq hF hat).1
    have hp : ∀ i j, HasDerivAt (fun s => gpMatrix (.noiseEstim alpha) (R s) i j) ((alpha • R') i j) t := fun i j => by
      simp only [gpMatrix]
      exact ((h i j).const_mul alpha).add_const _
    have hd := hasDerivAt_scaled hc hq hp hF (hall.mono fun s hs => hs.1) hN' hS (hall.mono fun s hs => hs.2.2.2)
    have hsy := deriv_symm h hsym
    have hdi := deriv_diag h hdiag
    obtain ⟨e1, e2⟩ := upper_parts (R' := alpha • R') (choInverse_eq hch) hch (fun i j => by simp [hsy i j]) (fun i => by simp [hdi i])
      (gpGamma (e t).aux)
    refine hd.congr_deriv ?_
    unfold llfGradNoiseEstimTheta
    rw [e1, e2]
    field_simp
    ring
  · intro R0 v e hsym hv
    have hall : ∀ᶠ s in nhds t, computeAux chol qr (gpMatrix (.noiseEstim s) R0) F beta y = some (e s).aux ∧ 0 < N ∧
        0 < sumSquares (e s).aux.rho ∧
        v s = -(1 / 2) * (N * Real.log (2 * Real.pi * (sumSquares (e s).aux.rho / N)) + twiceLogDiag (e s).aux.L + N) := by
      filter_upwards [hv] with s hs
      obtain ⟨a, ha, hk, hS, he, hvs, -⟩ := llf_noise_estim_some.1 hs
      rw [he]
      exact ⟨ha, hk, hS, hvs⟩
    obtain ⟨hat, hN, hS, -⟩ := hall.self_of_nhds
    have hN' : (0 : ℝ) < N := Nat.cast_pos.2 hN
    have hch := (aux_spec hc hq hF hat).1
    have hp : ∀ i j, HasDerivAt (fun s => gpMatrix (.noiseEstim s) R0 i j) ((R0 - 1) i j) t := fun i j => by
      have h1 := ((hasDerivAt_id t).mul_const (R0 i j)).add (((hasDerivAt_id t).const_sub 1).mul_const ((1 : Matrix (Fin N) (Fin N) ℝ) i j))
      refine h1.congr_deriv ?_
      rw [Matrix.sub_apply]; ring
    have hd := hasDerivAt_scaled hc hq hp hF (hall.mono fun s hs => hs.1) hN' hS (hall.mono fun s hs => hs.2.2.2)
    refine hd.congr_deriv ?_
    have hsy : ∀ i j, (R0 - 1) i j = (R0 - 1) j i := fun i j => by
      rw [Matrix.sub_apply, Matrix.sub_apply, hsym i j, one_apply, one_apply]
      simp only [eq_comm]
    simp only [llfGradNoiseEstimAlpha]
    rw [choInverse_eq hch, sum_mul_eq_trace hsy]
    norm_num
    field_simp

private theorem noisy_all {m : ℝ → GpMode} {R0 : ℝ → Matrix (Fin N) (Fin N) ℝ} {s2 nz : ℝ → ℝ} (hm : ∀ s, m s = .noisy (s2 s) (nz s))
    {F : Matrix (Fin N) (Fin k) ℝ} {beta : Option (Fin k → ℝ)} {y : Fin N → ℝ} {t : ℝ} {v : ℝ → ℝ} {e : ℝ → LlfEnv N k}
    (hv : ∀ᶠ s in nhds t, llfConcentrated chol qr (m s) (R0 s) F beta y = some (v s, e s)) :
    ∀ᶠ s in nhds t, computeAux chol qr (gpMatrix (.noisy (s2 s) (nz s)) (R0 s)) F beta y = some (e s).aux ∧
      (e s).sigma2 = s2 s ∧ (e s).noiseVar = nz s ∧
      v s = -(1 / 2) * (N * Real.log (2 * Real.pi * (s2 s + nz s)) + twiceLogDiag (e s).aux.L + sumSquares (e s).aux.rho / (s2 s + nz s)) := by
  filter_upwards [hv] with s hs
  rw [hm] at hs
  obtain ⟨a, ha, he, hvs, -⟩ := llf_noisy_some.1 hs
  rw [he]
  exact ⟨ha, rfl, rfl, hvs⟩

/-- **C103, known noise.**  The component of the process variance is right; those of the correlation parameters are too large by the
factor `(sigma2 + noise) / sigma2`. -/
theorem c103_noisy_exact (hc : CholeskyRoutine chol) (hq : QrRoutine qr) (F : Matrix (Fin N) (Fin k) ℝ) (beta : Option (Fin k → ℝ))
    (hF : beta = none → FullRank F) (y : Fin N → ℝ) (noise : ℝ) (hn : 0 ≤ noise) (t : ℝ) :
    (∀ (R0 : Matrix (Fin N) (Fin N) ℝ) (v : ℝ → ℝ) (e : ℝ → LlfEnv N k), (∀ i j, R0 i j = R0 j i) → 0 < t →
      (∀ᶠ s in nhds t, llfConcentrated chol qr (.noisy s noise) R0 F beta y = some (v s, e s)) →
      HasDerivAt v (llfGradNoisySigma2 (e t) R0) t) ∧
    ∀ (R : ℝ → Matrix (Fin N) (Fin N) ℝ) (R' : Matrix (Fin N) (Fin N) ℝ) (sigma2 : ℝ) (v : ℝ → ℝ) (e : ℝ → LlfEnv N k), 0 < sigma2 →
      (∀ i j, HasDerivAt (fun s => R s i j) (R' i j) t) → (∀ s i j, R s i j = R s j i) →
      (∀ᶠ s in nhds t, llfConcentrated chol qr (.noisy sigma2 noise) (R s) F beta y = some (v s, e s)) →
      HasDerivAt v (sigma2 / (sigma2 + noise) * llfGradNoisyTheta (e t) R') t := by
  constructor
  · intro R0 v e hsym ht hv
    have hall := noisy_all (m := fun s => .noisy s noise) (R0 := fun _ => R0) (s2 := fun s => s) (nz := fun _ => noise) (fun _ => rfl) hv
    obtain ⟨hat, hs2, hnz, -⟩ := hall.self_of_nhds
    have hch := (aux_spec hc hq hF hat).1
    have htot : 0 < t + noise := by positivity
    have hp : ∀ i j, HasDerivAt (fun s => gpMatrix (.noisy s noise) R0 i j)
        (((t + noise)⁻¹ • (R0 - gpMatrix (.noisy t noise) R0)) i j) t := fun i j => by
      have hsum : HasDerivAt (fun s => s + noise) 1 t := (hasDerivAt_id t).add_const noise
      have h1 := (hsum.inv htot.ne').mul (((hasDerivAt_id t).mul_const (R0 i j)).add_const (noise * (1 : Matrix (Fin N) (Fin N) ℝ) i j))
      refine h1.congr_deriv ?_
      simp only [gpMatrix, Matrix.smul_apply, Matrix.sub_apply, Matrix.add_apply, smul_eq_mul, id_eq, Pi.inv_apply]
      field_simp
      ring
    have hd := hasDerivAt_fixed hc hq hp hF (hall.mono fun s hs => hs.1) htot ((hasDerivAt_id t).add_const noise) (hall.mono fun s hs => hs.2.2.2)
    refine hd.congr_deriv ?_
    have hu := (log_det_chol hch).2.ne'.isUnit
    have htr : ((gpMatrix (.noisy t noise) R0)⁻¹ * ((t + noise)⁻¹ • (R0 - gpMatrix (.noisy t noise) R0))).trace =
        (t + noise)⁻¹ * (((gpMatrix (.noisy t noise) R0)⁻¹ * R0).trace - N) := by
      rw [Matrix.mul_smul, trace_smul, Matrix.mul_sub, nonsing_inv_mul _ hu, trace_sub, trace_one, Fintype.card_fin, smul_eq_mul]
    have hq1 : gpGamma (e t).aux ⬝ᵥ (((t + noise)⁻¹ • (R0 - gpMatrix (.noisy t noise) R0)) *ᵥ gpGamma (e t).aux) =
        (t + noise)⁻¹ * (gpGamma (e t).aux ⬝ᵥ (R0 *ᵥ gpGamma (e t).aux) - sumSquares (e t).aux.rho) := by
      rw [smul_mulVec, sub_mulVec, dotProduct_smul, dotProduct_sub, gamma_quadratic hc hq hF hat, smul_eq_mul]
    rw [htr, hq1]
    simp only [llfGradNoisySigma2, llfGradNoisy, hs2, hnz, choInverse_eq hch, Matrix.smul_apply, smul_eq_mul]
    rw [mulVec_smul, smul_dotProduct, dotProduct_smul, smul_eq_mul, smul_eq_mul]
    have e1 : ∑ i, ∑ j, (t + noise)⁻¹ * (gpMatrix (.noisy t noise) R0)⁻¹ i j * R0 i j =
        (t + noise)⁻¹ * ((gpMatrix (.noisy t noise) R0)⁻¹ * R0).trace := by
      rw [← sum_mul_eq_trace hsym, Finset.mul_sum]
      refine Finset.sum_congr rfl fun i _ => ?_
      rw [Finset.mul_sum]
      exact Finset.sum_congr rfl fun j _ => by ring
    rw [e1]
    simp only [id_eq]
    norm_num
    field_simp
    ring
  · intro R R' sigma2 v e hs h hsym hv
    have hall := noisy_all (m := fun _ => .noisy sigma2 noise) (R0 := R) (s2 := fun _ => sigma2) (nz := fun _ => noise) (fun _ => rfl) hv
    obtain ⟨hat, hs2, hnz, -⟩ := hall.self_of_nhds
    have hch := (aux_spec hc hq hF hat).1
    have htot : 0 < sigma2 + noise := by positivity
    have hp : ∀ i j, HasDerivAt (fun s => gpMatrix (.noisy sigma2 noise) (R s) i j)
        (((sigma2 + noise)⁻¹ • (sigma2 • R')) i j) t := fun i j => by
      simp only [gpMatrix]
      exact (((h i j).const_mul sigma2).add_const _).const_mul _
    have hd := hasDerivAt_fixed hc hq hp hF (hall.mono fun s hs => hs.1) htot (hasDerivAt_const t (sigma2 + noise))
      (hall.mono fun s hs => hs.2.2.2)
    refine hd.congr_deriv ?_
    simp only [llfGradNoisyTheta, llfGradNoisy, hs2, hnz, choInverse_eq hch, Matrix.smul_apply, smul_eq_mul]
    have e1 : ∑ i, ∑ j, (sigma2 + noise)⁻¹ * (gpMatrix (.noisy sigma2 noise) (R t))⁻¹ i j * ((sigma2 + noise) * R' i j) =
        ((gpMatrix (.noisy sigma2 noise) (R t))⁻¹ * R').trace := by
      rw [← sum_mul_eq_trace (deriv_symm h hsym)]
      refine Finset.sum_congr rfl fun i _ => Finset.sum_congr rfl fun j _ => by field_simp
    rw [e1]
    simp only [mulVec_smul, smul_mulVec, smul_dotProduct, dotProduct_smul, smul_eq_mul, Matrix.mul_smul, trace_smul]
    norm_num
    field_simp

/-- With known noise the gradient in a correlation parameter is wrong unless it is zero. -/
theorem c103_noisy_wrong (hc : CholeskyRoutine chol) (hq : QrRoutine qr) (F : Matrix (Fin N) (Fin k) ℝ) (beta : Option (Fin k → ℝ))
    (hF : beta = none → FullRank F) (y : Fin N → ℝ) (noise : ℝ) (hn : 0 < noise) (t : ℝ) (R : ℝ → Matrix (Fin N) (Fin N) ℝ)
    (R' : Matrix (Fin N) (Fin N) ℝ) (sigma2 : ℝ) (v : ℝ → ℝ) (e : ℝ → LlfEnv N k) (hs : 0 < sigma2)
    (h : ∀ i j, HasDerivAt (fun s => R s i j) (R' i j) t) (hsym : ∀ s i j, R s i j = R s j i)
    (hv : ∀ᶠ s in nhds t, llfConcentrated chol qr (.noisy sigma2 noise) (R s) F beta y = some (v s, e s)) :
    HasDerivAt v (llfGradNoisyTheta (e t) R') t ↔ llfGradNoisyTheta (e t) R' = 0 := by
  have h1 := (c103_noisy_exact hc hq F beta hF y noise hn.le t).2 R R' sigma2 v e hs h hsym hv
  constructor
  · intro hd
    have h2 := hd.unique h1
    have : sigma2 / (sigma2 + noise) < 1 := by rw [div_lt_one (by positivity)]; linarith
    have h3 : (1 - sigma2 / (sigma2 + noise)) * llfGradNoisyTheta (e t) R' = 0 := by linarith
    rcases mul_eq_zero.1 h3 with h4 | h4
    · linarith
    · exact h4
  · intro h0
    rw [h0] at h1 ⊢
    simpa using h1

private theorem matrix_sym (c : (Fin n → ℝ) → ℝ) (X : Fin N → Fin n → ℝ) (i j : Fin N) :
    of (correlationMatrix c X) i j = of (correlationMatrix c X) j i := by
  simp only [of_apply, correlationMatrix_apply]
  by_cases h : i = j
  · simp [h]
  · rw [if_neg h, if_neg (Ne.symm h)]
    congr 1
    funext l
    simp only [absDiff, abs_sub_comm]

private theorem matrix_diag (c : (Fin n → ℝ) → ℝ) (X : Fin N → Fin n → ℝ) (i : Fin N) : of (correlationMatrix c X) i i = 1 := by
  simp [correlationMatrix_apply]

/-- **C103, the part that holds, from the parameters to the likelihood.**  With given coefficients of the trend, one correlation parameter for each
coordinate and one of three correlation functions: component `l` of the returned gradient is the derivative of the likelihood in
parameter `l`. -/
theorem c103_end_to_end_partial (hc : CholeskyRoutine chol) (hq : QrRoutine qr) (name : CorrName) (theta : List ℝ)
    (hp : ∀ t ∈ theta, 0 < t) (hl : theta.length = n)
    (hn : name = .squaredExponential ∨ name = .matern .threeHalves ∨ name = .absoluteExponential) (X : Fin N → Fin n → ℝ)
    (F : Matrix (Fin N) (Fin k) ℝ) (b : Fin k → ℝ) (y : Fin N → ℝ) (l : Fin n) (v : ℝ → ℝ) (e : ℝ → LlfEnv N k)
    (hv : ∀ᶠ t in nhds (theta.getD l.val 0), llfConcentrated chol qr .noiseless
      (of (correlationMatrix (fun d => (corr name (theta.set l.val t) d).getD 0) X)) F (some b) y = some (v t, e t)) :
    ∃ g, corrGradTheta name theta X (correlationMatrix (fun d => (corr name theta d).getD 0) X) = some g ∧
      HasDerivAt v (llfGradNoiseless (e (theta.getD l.val 0)) (of fun i j => g i j l)) (theta.getD l.val 0) := by
  obtain ⟨g, hg, hd⟩ := c94_parameter_gradient_partial name theta hp hl hn X
  exact ⟨g, hg, c103_simple_kriging_partial hc hq (fun t => of (correlationMatrix (fun d => (corr name (theta.set l.val t) d).getD 0) X))
    (of fun i j => g i j l) _ (fun i j => hd i j l) (fun s i j => matrix_sym _ X i j)
    (fun s i => matrix_diag _ X i) F b y v e hv⟩

/-! A concrete case for the theorems above: two observations `1` and `-1`, correlation `s`. -/

def pairMatrix (s : ℝ) : Matrix (Fin 2) (Fin 2) ℝ := !![1, s; s, 1]
def ones2 : Matrix (Fin 2) (Fin 1) ℝ := of fun _ _ => 1

theorem ones2_full : FullRank ones2 := by
  intro b hb
  have := congrFun hb 0
  funext i
  have hi : i = 0 := Subsingleton.elim _ _
  subst hi
  simpa [ones2, mulVec, dotProduct] using this

theorem pair_pos {s : ℝ} (hs : |s| < 1) (w : Fin 2 → ℝ) (hw : w ≠ 0) : 0 < w ⬝ᵥ (pairMatrix s *ᵥ w) := by
  obtain ⟨h1, h2⟩ := abs_lt.1 hs
  have e : w ⬝ᵥ (pairMatrix s *ᵥ w) = (1 - s) / 2 * (w 0 - w 1) ^ 2 + (1 + s) / 2 * (w 0 + w 1) ^ 2 := by
    simp [dotProduct, mulVec, pairMatrix, Fin.sum_univ_two]
    ring
  rw [e]
  by_contra hle
  have a1 : 0 ≤ (1 - s) / 2 * (w 0 - w 1) ^ 2 := mul_nonneg (by linarith) (sq_nonneg _)
  have a2 : 0 ≤ (1 + s) / 2 * (w 0 + w 1) ^ 2 := mul_nonneg (by linarith) (sq_nonneg _)
  have b1 : (1 - s) / 2 * (w 0 - w 1) ^ 2 = 0 := by linarith
  have b2 : (1 + s) / 2 * (w 0 + w 1) ^ 2 = 0 := by linarith
  have c1 : w 0 - w 1 = 0 := by
    rcases mul_eq_zero.1 b1 with h | h
    · linarith
    · exact pow_eq_zero_iff (two_ne_zero) |>.1 h
  have c2 : w 0 + w 1 = 0 := by
    rcases mul_eq_zero.1 b2 with h | h
    · linarith
    · exact pow_eq_zero_iff (two_ne_zero) |>.1 h
  refine hw (funext fun i => ?_)
  fin_cases i
  · show w 0 = 0; linarith
  · show w 1 = 0; linarith

theorem pair_chol {s : ℝ} (hs : |s| < 1) : ∃ L, IsCholesky (pairMatrix s) L :=
  cholesky_exists (fun i j => by fin_cases i <;> fin_cases j <;> rfl) (pair_pos hs)

theorem pair_inv {s : ℝ} (hs : |s| < 1) (w : Fin 2 → ℝ) :
    w ⬝ᵥ ((pairMatrix s)⁻¹ *ᵥ w) = (w 0 ^ 2 + w 1 ^ 2 - 2 * s * w 0 * w 1) / (1 - s ^ 2) := by
  have hd : (pairMatrix s).det = 1 - s ^ 2 := by simp [pairMatrix, det_fin_two, sq]
  have hne : (1 : ℝ) - s ^ 2 ≠ 0 := by
    have := (sq_lt_one_iff_abs_lt_one s).2 hs
    linarith
  have hi : (pairMatrix s)⁻¹ = (1 - s ^ 2)⁻¹ • !![1, -s; -s, 1] := by
    rw [inv_def, hd, Ring.inverse_eq_inv', pairMatrix, adjugate_fin_two_of]
  rw [hi]
  simp [dotProduct, mulVec, Fin.sum_univ_two]
  field_simp
  ring

theorem pair_aux {s : ℝ} (hs : |s| < 1) (beta : Option (Fin 1 → ℝ)) (y : Fin 2 → ℝ) :
    ∃ a, computeAux idealChol idealQr (pairMatrix s) ones2 beta y = some a ∧ sumSquares a.rho =
      ((y 0 - gpBeta a beta 0) ^ 2 + (y 1 - gpBeta a beta 0) ^ 2 - 2 * s * (y 0 - gpBeta a beta 0) * (y 1 - gpBeta a beta 0)) / (1 - s ^ 2) ∧
      Real.log (1 - s ^ 2) = twiceLogDiag a.L := by
  obtain ⟨L, hL⟩ := Option.isSome_iff_exists.1 (idealChol_complete (pair_chol hs))
  obtain ⟨a, ha⟩ : ∃ a, computeAux idealChol idealQr (pairMatrix s) ones2 beta y = some a := by
    unfold computeAux; rw [hL]; exact ⟨_, rfl⟩
  obtain ⟨hch, -, -, hrho⟩ := aux_spec idealChol_routine (idealQr_routine (by norm_num)) (fun _ => ones2_full) ha
  refine ⟨a, ha, ?_, ?_⟩
  · rw [← hrho, ← inv_quadratic hch, pair_inv hs]
    simp [mulVec, ones2, dotProduct]
  · rw [← (log_det_chol hch).1]
    simp [pairMatrix, det_fin_two, sq]

theorem pair_bounds {s : ℝ} (hs : |s| < 1 / 2) (beta : Option (Fin 1 → ℝ)) :
    ∃ a, computeAux idealChol idealQr (pairMatrix s) ones2 beta ![1, -1] = some a ∧ 4 / 3 ≤ sumSquares a.rho ∧ -1 ≤ twiceLogDiag a.L ∧
      ∀ m : ℝ, 0 < m → m ≤ 2 → 0 ≤ Real.log (2 * Real.pi * (sumSquares a.rho / m)) := by
  obtain ⟨a, ha, hS, hL⟩ := pair_aux (lt_trans hs (by norm_num)) beta ![1, -1]
  obtain ⟨h1, h2⟩ := abs_lt.1 hs
  have hsq : (0 : ℝ) < 1 - s ^ 2 := by nlinarith
  have hS1 : 4 / 3 ≤ sumSquares a.rho := by
    rw [hS, le_div_iff₀ hsq]
    simp only [Matrix.cons_val_zero, Matrix.cons_val_one]
    generalize gpBeta a beta 0 = b
    nlinarith [mul_nonneg (sq_nonneg b) (show (0 : ℝ) ≤ 1 - s by linarith)]
  refine ⟨a, ha, hS1, ?_, fun m hm hm2 => Real.log_nonneg ?_⟩
  · rw [← hL]
    have := Real.one_sub_inv_le_log_of_pos hsq
    have h3 : (1 - s ^ 2)⁻¹ ≤ 2 := by
      rw [inv_le_comm₀ hsq (by norm_num)]; nlinarith
    linarith
  · have : 2 / 3 ≤ sumSquares a.rho / m := by
      rw [le_div_iff₀ hm]; linarith
    nlinarith [Real.pi_gt_three]

theorem eventually_some {X : ℝ → Option (ℝ × LlfEnv 2 1)} (t : ℝ) (h : ∀ᶠ s in nhds t, (X s).isSome) :
    ∃ (v : ℝ → ℝ) (e : ℝ → LlfEnv 2 1), ∀ᶠ s in nhds t, X s = some (v s, e s) := by
  obtain ⟨q, -⟩ := Option.isSome_iff_exists.1 h.self_of_nhds
  refine ⟨fun s => ((X s).getD q).1, fun s => ((X s).getD q).2, ?_⟩
  filter_upwards [h] with s hs
  obtain ⟨r, hr⟩ := Option.isSome_iff_exists.1 hs
  rw [hr, Option.getD_some]

theorem near_zero : ∀ᶠ s in nhds (0 : ℝ), |s| < 1 / 2 := by
  have : Metric.ball (0 : ℝ) (1 / 2) ∈ nhds (0 : ℝ) := Metric.ball_mem_nhds _ (by norm_num)
  filter_upwards [this] with s hs
  simpa using hs

/-- Near `s = 0` the likelihood of the pair is accepted, with estimated or with zero mean. -/
theorem pair_accepted (beta : Option (Fin 1 → ℝ)) : ∃ (v : ℝ → ℝ) (e : ℝ → LlfEnv 2 1),
    ∀ᶠ s in nhds (0 : ℝ), llfConcentrated idealChol idealQr .noiseless (pairMatrix s) ones2 beta ![1, -1] = some (v s, e s) := by
  refine eventually_some 0 ?_
  filter_upwards [near_zero] with s hs
  obtain ⟨a, ha, hS, hL, hlog⟩ := pair_bounds hs beta
  have hr : trendRank 1 beta < 2 ∧ (0 : ℝ) < (2 : ℕ) - trendRank 1 beta ∧ ((2 : ℕ) : ℝ) - trendRank 1 beta ≤ 2 := by
    rcases beta with _ | b <;> norm_num [trendRank]
  refine Option.isSome_iff_exists.2 ⟨(_, _), llf_noiseless_some.2 ⟨a, ha, hr.1, by linarith, rfl, rfl, ?_⟩⟩
  have := hlog _ hr.2.1 hr.2.2
  push_cast at *
  nlinarith

theorem pair_mix (s alpha : ℝ) : gpMatrix (.noiseEstim alpha) (pairMatrix s) = pairMatrix (alpha * s) := by
  ext i j
  fin_cases i <;> fin_cases j <;> simp [gpMatrix, pairMatrix]

theorem pair_estim_accepted (s alpha : ℝ) (h : |alpha * s| < 1 / 2) (beta : Option (Fin 1 → ℝ)) :
    (llfConcentrated idealChol idealQr (.noiseEstim alpha) (pairMatrix s) ones2 beta ![1, -1]).isSome := by
  obtain ⟨a, ha, hS, hL, hlog⟩ := pair_bounds h beta
  rw [← pair_mix] at ha
  refine Option.isSome_iff_exists.2 ⟨(_, _), llf_noise_estim_some.2 ⟨a, ha, by norm_num, by linarith, rfl, rfl, ?_⟩⟩
  have := hlog 2 (by norm_num) le_rfl
  push_cast at *
  nlinarith

theorem pair_correlation {s : ℝ} (h0 : 0 ≤ s) (hs : |s| < 1) : IsCorrelationMatrix (fun i j => pairMatrix s i j) := by
  refine ⟨fun i j => by fin_cases i <;> fin_cases j <;> rfl, fun i => by fin_cases i <;> rfl, fun i j => ?_, fun w => ?_⟩
  · obtain ⟨h1, h2⟩ := abs_lt.1 hs
    fin_cases i <;> fin_cases j <;> simp [pairMatrix, h0, h2.le]
  · by_cases hw : w = 0
    · simp [hw]
    · have := pair_pos hs w hw
      rw [show pairMatrix s = of (fun i j => pairMatrix s i j) from rfl, quad_eq] at this
      exact this.le

theorem idealChol_all : CompleteCholesky (idealChol (N := N)) := fun _ hs hp => idealChol_complete (cholesky_exists hs hp)

/-- The hypotheses of the three parts of C101 and of C102 are met. -/
example : (∃ c : ℝ, ∃ v, IsGreatest (scaledLikelihoods ones2 none (pairMatrix 0) ![1, -1]) (v + c)) ∧
    (∃ v, IsGreatest (scaledLikelihoods ones2 none ((1 / 2 : ℝ) • pairMatrix (1 / 3) + (1 - 1 / 2 : ℝ) • (1 : Matrix (Fin 2) (Fin 2) ℝ)) ![1, -1]) v) ∧
    (∃ v, IsGreatest (trendLikelihoods ones2 none ((2 : ℝ) • pairMatrix (1 / 3) + (1 : ℝ) • (1 : Matrix (Fin 2) (Fin 2) ℝ)) ![1, -1]) v) ∧
    ∃ c0 : ℝ, 0 < c0 ∧ ∀ c : ℝ, 0 < c → c < c0 →
      llfConcentrated idealChol idealQr .noiseless (pairMatrix (1 / 3)) ones2 none (c • ![1, -1]) = none := by
  have hq : QrRoutine (idealQr (N := 2) (k := 1)) := idealQr_routine (by norm_num)
  refine ⟨?_, ?_, ?_, ?_⟩
  · obtain ⟨v, e, hv⟩ := pair_accepted none
    obtain ⟨c, -, h⟩ := c101_noiseless 2 1 none
    exact ⟨c, v 0, h _ _ idealChol_routine hq _ _ (fun _ => ones2_full) _ _ _ hv.self_of_nhds⟩
  · obtain ⟨⟨v, e⟩, hv⟩ := Option.isSome_iff_exists.1 (pair_estim_accepted (1 / 3) (1 / 2) (by norm_num [abs_of_pos]) none)
    exact ⟨v, c101_noise_estim idealChol_routine hq _ _ none (fun _ => ones2_full) _ _ _ _ hv⟩
  · have h1 : 1 / (2 * Real.pi) ≤ 1 := by
      rw [div_le_one (by positivity)]; nlinarith [Real.pi_gt_three]
    obtain ⟨⟨v, e⟩, hv⟩ := Option.isSome_iff_exists.1 (c102_noisy_accepted_partial (qr := idealQr) idealChol_routine idealChol_all _
      (pair_correlation (s := 1 / 3) (by norm_num) (by norm_num [abs_of_pos])) ones2 none ![1, -1] 2 1 (by norm_num) h1)
    exact ⟨v, c101_noisy idealChol_routine hq _ _ none (fun _ => ones2_full) _ 2 1 _ (by norm_num) (by norm_num) _ hv⟩
  · exact c102_small_observations_rejected _ _ (idealChol_complete (pair_chol (by norm_num [abs_of_pos]))) (by norm_num) _

private theorem pair_deriv (t : ℝ) (i j : Fin 2) :
    HasDerivAt (fun s => pairMatrix s i j) ((!![0, 1; 1, 0] : Matrix (Fin 2) (Fin 2) ℝ) i j) t := by
  fin_cases i <;> fin_cases j
  · exact hasDerivAt_const _ _
  · exact hasDerivAt_id _
  · exact hasDerivAt_id _
  · exact hasDerivAt_const _ _

/-- The hypotheses of `c103_simple_kriging_partial` are met: a pair of observations. -/
example : ∃ (v : ℝ → ℝ) (e : ℝ → LlfEnv 2 1), HasDerivAt v (llfGradNoiseless (e 0) !![0, 1; 1, 0]) 0 := by
  obtain ⟨v, e, hv⟩ := pair_accepted (some 0)
  exact ⟨v, e, c103_simple_kriging_partial idealChol_routine (idealQr_routine (by norm_num)) pairMatrix _ 0 (pair_deriv 0)
    (fun s i j => by fin_cases i <;> fin_cases j <;> rfl) (fun s i => by fin_cases i <;> rfl) ones2 0 ![1, -1] v e hv⟩

/-- The hypotheses of `c103_noise_estim_partial`, `c103_noisy_exact` and `c103_noisy_wrong` are met. -/
example : (∃ (v : ℝ → ℝ) (e : ℝ → LlfEnv 2 1), HasDerivAt v (llfGradNoiseEstimTheta (e 0) (1 / 2) !![0, 1; 1, 0]) 0) ∧
    (∃ (v : ℝ → ℝ) (e : ℝ → LlfEnv 2 1), HasDerivAt v (llfGradNoiseEstimAlpha (e (1 / 2)) (pairMatrix (1 / 3))) (1 / 2)) ∧
    ∃ (v : ℝ → ℝ) (e : ℝ → LlfEnv 2 1), HasDerivAt v ((2 : ℝ) / (2 + 1) * llfGradNoisyTheta (e (1 / 4)) !![0, 1; 1, 0]) (1 / 4) := by
  have hq : QrRoutine (idealQr (N := 2) (k := 1)) := idealQr_routine (by norm_num)
  have h1 : 1 / (2 * Real.pi) ≤ 1 := by
    rw [div_le_one (by positivity)]; nlinarith [Real.pi_gt_three]
  refine ⟨?_, ?_, ?_⟩
  · obtain ⟨v, e, hv⟩ := eventually_some (X := fun s => llfConcentrated idealChol idealQr (.noiseEstim (1 / 2)) (pairMatrix s) ones2 none ![1, -1]) 0 (by
      filter_upwards [near_zero] with s hs
      refine pair_estim_accepted s _ ?_ none
      rw [abs_mul, abs_of_pos (by norm_num : (0 : ℝ) < 1 / 2)]
      linarith [abs_nonneg s])
    exact ⟨v, e, (c103_noise_estim_partial idealChol_routine hq ones2 none (fun _ => ones2_full) ![1, -1] 0).1 pairMatrix _ _ v e (pair_deriv _)
      (fun s i j => by fin_cases i <;> fin_cases j <;> rfl) (fun s i => by fin_cases i <;> rfl) hv⟩
  · obtain ⟨v, e, hv⟩ := eventually_some (X := fun s => llfConcentrated idealChol idealQr (.noiseEstim s) (pairMatrix (1 / 3)) ones2 none ![1, -1]) (1 / 2) (by
      filter_upwards [Metric.ball_mem_nhds (1 / 2 : ℝ) (show (0 : ℝ) < 1 / 2 by norm_num)] with s hs
      refine pair_estim_accepted _ s ?_ none
      rw [Metric.mem_ball, Real.dist_eq, abs_lt] at hs
      rw [abs_lt]
      constructor <;> linarith [hs.1, hs.2])
    exact ⟨v, e, (c103_noise_estim_partial idealChol_routine hq ones2 none (fun _ => ones2_full) ![1, -1] _).2 _ v e
      (fun i j => by fin_cases i <;> fin_cases j <;> rfl) hv⟩
  · obtain ⟨v, e, hv⟩ := eventually_some (X := fun s => llfConcentrated idealChol idealQr (.noisy 2 1) (pairMatrix s) ones2 none ![1, -1]) (1 / 4) (by
      filter_upwards [Metric.ball_mem_nhds (1 / 4 : ℝ) (show (0 : ℝ) < 1 / 4 by norm_num)] with s hs
      rw [Metric.mem_ball, Real.dist_eq, abs_lt] at hs
      exact c102_noisy_accepted_partial (qr := idealQr) idealChol_routine idealChol_all _
        (pair_correlation (by linarith [hs.1]) (abs_lt.2 ⟨by linarith [hs.1], by linarith [hs.2]⟩)) ones2 none ![1, -1] 2 1 (by norm_num) h1)
    exact ⟨v, e, (c103_noisy_exact idealChol_routine hq ones2 none (fun _ => ones2_full) ![1, -1] 1 (by norm_num) _).2 pairMatrix _ 2 v e (by norm_num) (pair_deriv _)
      (fun s i j => by fin_cases i <;> fin_cases j <;> rfl) hv⟩

/-- **C103 does not hold**: for a pair of observations and an estimated constant mean the returned gradient is not the derivative. -/
theorem c103_estimated_trend_refuted : ∃ (v : ℝ → ℝ) (e : ℝ → LlfEnv 2 1),
    (∀ᶠ s in nhds (0 : ℝ), llfConcentrated idealChol idealQr .noiseless !![1, s; s, 1] (of fun _ _ => 1) none ![1, -1] = some (v s, e s)) ∧
    ¬ HasDerivAt v (llfGradNoiseless (e 0) !![0, 1; 1, 0]) 0 := by
  obtain ⟨v, e, hv⟩ := pair_accepted none
  refine ⟨v, e, hv, ?_⟩
  have hq : QrRoutine (idealQr (N := 2) (k := 1)) := idealQr_routine (by norm_num)
  refine c103_estimated_trend_wrong idealChol_routine hq pairMatrix _ 0 (pair_deriv 0)
    (fun s i j => by fin_cases i <;> fin_cases j <;> rfl) (fun s i => by fin_cases i <;> rfl) ones2 (by norm_num) ones2_full ![1, -1] v e hv ?_
  obtain ⟨a, ha, -, -, he, -⟩ := llf_noiseless_some.1 hv.self_of_nhds
  have h1 : pairMatrix 0 = 1 := by ext i j; fin_cases i <;> fin_cases j <;> simp [pairMatrix]
  have hg := gamma_eq idealChol_routine hq (fun _ => ones2_full) ha
  obtain ⟨hch, hmin, -, hrho⟩ := aux_spec idealChol_routine hq (fun _ => ones2_full) ha
  have hb := hmin 0 (by simp)
  rw [← hrho, ← inv_quadratic hch, ← inv_quadratic hch, pair_inv (by norm_num), pair_inv (by norm_num)] at hb
  have hb0 : gpBeta a none 0 = 0 := by
    simp [mulVec, ones2, dotProduct] at hb
    nlinarith [sq_nonneg (gpBeta a none 0)]
  rw [he]
  simp only
  rw [hg, h1, inv_one, one_mulVec]
  simp [mulVec, ones2, dotProduct, Fin.sum_univ_two, hb0]

/-! ### C104 -/

/-- **C104 does not hold as the code is written; this is the exact relation.**  If the likelihood returns its own derivatives, then the derivative of the function
that the optimiser minimises is the returned gradient times `param * ln 10`, which the code leaves out. -/
theorem c104_search_gradient_exact {p : ℕ} (llf : (Fin p → ℝ) → Option (ℝ × (Fin p → ℝ))) (u : Fin p → ℝ) (i : Fin p) (v : ℝ → ℝ)
    (g : Fin p → ℝ) (hg : ∃ w, llf (fun j => (10 : ℝ) ^ (u j)) = some (w, g))
    (hv : ∀ᶠ x in nhds ((10 : ℝ) ^ (u i)), ∃ g', llf (Function.update (fun j => (10 : ℝ) ^ (u j)) i x) = some (v x, g'))
    (hd : HasDerivAt v (g i) ((10 : ℝ) ^ (u i))) (w : ℝ → ℝ)
    (hw : ∀ᶠ t in nhds (u i), (searchObjective llf (Function.update u i t)).1 = some (w t)) :
    HasDerivAt w ((searchObjective llf u).2 i * ((10 : ℝ) ^ (u i) * Real.log 10)) (u i) := by
  have hpow : HasDerivAt (fun t : ℝ => (10 : ℝ) ^ t) ((10 : ℝ) ^ (u i) * Real.log 10) (u i) := by
    have := Real.hasStrictDerivAt_const_rpow (show (0 : ℝ) < 10 by norm_num) (u i)
    exact this.hasDerivAt
  have hcomp := (HasDerivAt.comp (u i) hd hpow).neg
  have hev : w =ᶠ[nhds (u i)] fun t => -(v ((10 : ℝ) ^ t)) := by
    have hv' := hpow.continuousAt.eventually hv
    filter_upwards [hv', hw] with t ht hwt
    obtain ⟨g', hg'⟩ := ht
    have e : (fun j => (10 : ℝ) ^ (Function.update u i t j)) = Function.update (fun j => (10 : ℝ) ^ (u j)) i ((10 : ℝ) ^ t) := by
      funext j
      by_cases hj : j = i
      · subst hj; simp
      · simp [hj]
    unfold searchObjective at hwt
    rw [e, hg'] at hwt
    have := Option.some.inj hwt
    simp only at this
    linarith
  obtain ⟨w0, hw0⟩ := hg
  refine (hcomp.congr_of_eventuallyEq hev).congr_deriv ?_
  unfold searchObjective
  rw [hw0]
  simp only
  ring

/-- **C104, the part that holds.**  The components passed to the optimiser have the signs of the derivatives of what it minimises; in particular they
vanish together.  They are equal only where that derivative is zero or the parameter is `1 / ln 10`. -/
theorem c104_same_sign_partial {p : ℕ} (llf : (Fin p → ℝ) → Option (ℝ × (Fin p → ℝ))) (u : Fin p → ℝ) (i : Fin p) (v : ℝ → ℝ)
    (g : Fin p → ℝ) (hg : ∃ w, llf (fun j => (10 : ℝ) ^ (u j)) = some (w, g))
    (hv : ∀ᶠ x in nhds ((10 : ℝ) ^ (u i)), ∃ g', llf (Function.update (fun j => (10 : ℝ) ^ (u j)) i x) = some (v x, g'))
    (hd : HasDerivAt v (g i) ((10 : ℝ) ^ (u i))) (w : ℝ → ℝ)
    (hw : ∀ᶠ t in nhds (u i), (searchObjective llf (Function.update u i t)).1 = some (w t)) :
    (0 < (searchObjective llf u).2 i ↔ 0 < deriv w (u i)) ∧ ((searchObjective llf u).2 i < 0 ↔ deriv w (u i) < 0) ∧
    ((searchObjective llf u).2 i = deriv w (u i) ↔ deriv w (u i) = 0 ∨ (10 : ℝ) ^ (u i) = 1 / Real.log 10) := by
  rw [(c104_search_gradient_exact llf u i v g hg hv hd w hw).deriv]
  have hlog : 0 < Real.log 10 := Real.log_pos (by norm_num)
  have hc : (0 : ℝ) < (10 : ℝ) ^ (u i) * Real.log 10 := mul_pos (Real.rpow_pos_of_pos (by norm_num) _) hlog
  refine ⟨⟨fun h => mul_pos h hc, fun h => pos_of_mul_pos_left h hc.le⟩, ?_, ?_⟩
  · constructor
    · intro h; exact mul_neg_of_neg_of_pos h hc
    · intro h; exact neg_of_mul_neg_left h hc.le
  · rw [eq_div_iff hlog.ne', mul_eq_zero, or_iff_left hc.ne']
    constructor
    · intro h
      by_cases h0 : (searchObjective llf u).2 i = 0
      · exact Or.inl h0
      · right
        have : (searchObjective llf u).2 i * (1 - (10 : ℝ) ^ (u i) * Real.log 10) = 0 := by linarith
        rcases mul_eq_zero.1 this with h1 | h1
        · exact absurd h1 h0
        · linarith
    · rintro (h | h)
      · rw [h, zero_mul]
      · rw [h, mul_one]

/-- **C104 does not hold**: the likelihood `-x` (with derivative `-1`) at the parameter `1`. -/
theorem c104_refuted : ∃ (llf : (Fin 1 → ℝ) → Option (ℝ × (Fin 1 → ℝ))) (u : Fin 1 → ℝ) (w : ℝ → ℝ),
    (∀ x, ∃ g, llf (fun _ => x) = some (-x, g) ∧ HasDerivAt (fun x => -x) (g 0) x) ∧
    (∀ t, (searchObjective llf (Function.update u 0 t)).1 = some (w t)) ∧ ¬ HasDerivAt w ((searchObjective llf u).2 0) (u 0) := by
  refine ⟨fun x => some (-x 0, fun _ => -1), fun _ => 0, fun t => (10 : ℝ) ^ t, fun x => ⟨fun _ => -1, rfl, (hasDerivAt_id x).neg⟩,
    fun t => by simp [searchObjective], fun h => ?_⟩
  have h1 := (Real.hasStrictDerivAt_const_rpow (show (0 : ℝ) < 10 by norm_num) 0).hasDerivAt
  have h2 := h.unique h1
  simp [searchObjective] at h2
  have : Real.log 10 > 1 := by
    rw [gt_iff_lt, Real.lt_log_iff_exp_lt (by norm_num)]
    exact lt_trans Real.exp_one_lt_d9 (by norm_num)
  linarith

end Verif.Props
