import Verif.Proofs.Gpr
import Verif.Model.Likelihood
import Verif.Spec.Likelihood

/-!
# Likelihoods in terms of the Cholesky factor
-/
namespace Verif.Proofs

open Matrix Verif.Model Verif.Spec

variable {N k : ℕ}

theorem log_det_chol {R L : Matrix (Fin N) (Fin N) ℝ} (h : IsCholesky R L) : Real.log R.det = twiceLogDiag L ∧ 0 < R.det := by
  have hd : L.det = ∏ i, L i i := det_of_isLowerTriangular L (fun i j hij => h.lower i j hij)
  have hpos : 0 < L.det := by rw [hd]; exact Finset.prod_pos fun i _ => h.pos i
  have hR : R.det = L.det * L.det := by rw [← h.mul, det_mul, det_transpose]
  refine ⟨?_, by rw [hR]; positivity⟩
  rw [hR, Real.log_mul hpos.ne' hpos.ne', hd, Real.log_prod fun i _ => (h.pos i).ne']
  unfold twiceLogDiag
  ring

theorem inv_quadratic {R L : Matrix (Fin N) (Fin N) ℝ} (h : IsCholesky R L) (z : Fin N → ℝ) :
    z ⬝ᵥ (R⁻¹ *ᵥ z) = sumSquares (L⁻¹ *ᵥ z) := by
  rw [← h.mul, Matrix.mul_inv_rev, ← mulVec_mulVec, dotProduct_comm, transpose_inv_dot]
  unfold sumSquares
  rw [sum_sq_eq]

theorem log_det_smul {R L : Matrix (Fin N) (Fin N) ℝ} (h : IsCholesky R L) {s : ℝ} (hs : 0 < s) :
    Real.log (s • R).det = N * Real.log s + twiceLogDiag L := by
  obtain ⟨h1, h2⟩ := log_det_chol h
  rw [det_smul, Fintype.card_fin, Real.log_mul (pow_pos hs N).ne' h2.ne', Real.log_pow, h1]

theorem smul_inv_real {R L : Matrix (Fin N) (Fin N) ℝ} (h : IsCholesky R L) {s : ℝ} (hs : 0 < s) : (s • R)⁻¹ = s⁻¹ • R⁻¹ := by
  have hu : IsUnit R.det := (log_det_chol h).2.ne'.isUnit
  refine inv_eq_right_inv ?_
  rw [Matrix.smul_mul, Matrix.mul_smul, smul_smul, mul_inv_cancel₀ hs.ne', one_smul, mul_nonsing_inv _ hu]

/-- The density of a scaled covariance matrix through the Cholesky factor. -/
theorem density_eq {R L : Matrix (Fin N) (Fin N) ℝ} (h : IsCholesky R L) {s : ℝ} (hs : 0 < s) (mu y : Fin N → ℝ) :
    gaussianLogDensity mu (s • R) y =
      -(1 / 2) * (N * Real.log (2 * Real.pi * s) + twiceLogDiag L + sumSquares (L⁻¹ *ᵥ (y - mu)) / s) := by
  unfold gaussianLogDensity
  rw [log_det_smul h hs, smul_inv_real h hs, smul_mulVec, dotProduct_smul, inv_quadratic h, smul_eq_mul,
    Real.log_mul (by positivity) hs.ne']
  ring

theorem sumSquares_nonneg (v : Fin N → ℝ) : 0 ≤ sumSquares v := Finset.sum_nonneg fun _ _ => sq_nonneg _

/-- The residual of the code is the smallest one. -/
theorem residual_min {L : Matrix (Fin N) (Fin N) ℝ} {F Q : Matrix (Fin N) (Fin k) ℝ} {G : Matrix (Fin k) (Fin k) ℝ}
    (hq : IsQr (L⁻¹ * F) Q G) (y : Fin N → ℝ) (b : Fin k → ℝ) :
    sumSquares (L⁻¹ *ᵥ y - (Q * Qᵀ) *ᵥ (L⁻¹ *ᵥ y)) ≤ sumSquares (L⁻¹ *ᵥ (y - F *ᵥ b)) := by
  have eF : L⁻¹ *ᵥ (F *ᵥ b) = Q *ᵥ (G *ᵥ b) := by rw [mulVec_mulVec, ← hq.mul, ← mulVec_mulVec]
  rw [mulVec_sub, eF]
  generalize L⁻¹ *ᵥ y = z
  have eQ : (Q * Qᵀ) *ᵥ z = Q *ᵥ (Qᵀ *ᵥ z) := (mulVec_mulVec _ _ _).symm
  have eQQ : ∀ v : Fin k → ℝ, Qᵀ *ᵥ (Q *ᵥ v) = v := fun v => by rw [mulVec_mulVec, hq.orth, one_mulVec]
  have e : z - Q *ᵥ (G *ᵥ b) = (z - (Q * Qᵀ) *ᵥ z) + Q *ᵥ (Qᵀ *ᵥ z - G *ᵥ b) := by
    rw [mulVec_sub, eQ]
    abel
  have orth : (z - (Q * Qᵀ) *ᵥ z) ⬝ᵥ (Q *ᵥ (Qᵀ *ᵥ z - G *ᵥ b)) = 0 := by
    rw [← transpose_dot, mulVec_sub, eQ, eQQ, sub_self, zero_dotProduct]
  unfold sumSquares
  rw [sum_sq_eq, sum_sq_eq, e, add_dotProduct, dotProduct_add, dotProduct_add, orth, dotProduct_comm (Q *ᵥ _), orth]
  have := dot_self_nonneg (Q *ᵥ (Qᵀ *ᵥ z - G *ᵥ b))
  linarith

theorem residual_attained {L : Matrix (Fin N) (Fin N) ℝ} {F Q : Matrix (Fin N) (Fin k) ℝ} {G : Matrix (Fin k) (Fin k) ℝ}
    (hq : IsQr (L⁻¹ * F) Q G) (hG : IsUnit G.det) (y : Fin N → ℝ) :
    L⁻¹ *ᵥ (y - F *ᵥ (G⁻¹ *ᵥ (Qᵀ *ᵥ (L⁻¹ *ᵥ y)))) = L⁻¹ *ᵥ y - (Q * Qᵀ) *ᵥ (L⁻¹ *ᵥ y) := by
  have eF : ∀ b, L⁻¹ *ᵥ (F *ᵥ b) = Q *ᵥ (G *ᵥ b) := fun b => by rw [mulVec_mulVec, ← hq.mul, ← mulVec_mulVec]
  rw [mulVec_sub, eF]
  generalize L⁻¹ *ᵥ y = z
  rw [mulVec_mulVec (Qᵀ *ᵥ z), mul_nonsing_inv _ hG, one_mulVec, mulVec_mulVec]

theorem qr_unit {L : Matrix (Fin N) (Fin N) ℝ} (hL : IsUnit L.det) {F Q : Matrix (Fin N) (Fin k) ℝ} {G : Matrix (Fin k) (Fin k) ℝ}
    (hq : IsQr (L⁻¹ * F) Q G) (hF : FullRank F) : IsUnit G.det := by
  rw [isUnit_iff_ne_zero]
  intro h0
  obtain ⟨b, hb, hGb⟩ := Matrix.exists_mulVec_eq_zero_iff.2 h0
  refine hb (hF b ?_)
  have h1 : (L⁻¹ * F) *ᵥ b = 0 := by rw [← hq.mul, ← mulVec_mulVec, hGb, mulVec_zero]
  have h2 : L *ᵥ ((L⁻¹ * F) *ᵥ b) = F *ᵥ b := by
    rw [mulVec_mulVec, ← Matrix.mul_assoc, mul_nonsing_inv _ hL, Matrix.one_mul]
  rw [← h2, h1, mulVec_zero]

/-- What the auxiliary variables are, for either kind of trend. -/
theorem aux_spec {chol : Matrix (Fin N) (Fin N) ℝ → Option (Matrix (Fin N) (Fin N) ℝ)}
    {qr : Matrix (Fin N) (Fin k) ℝ → Matrix (Fin N) (Fin k) ℝ × Matrix (Fin k) (Fin k) ℝ} (hc : CholeskyRoutine chol) (hq : QrRoutine qr)
    {R : Matrix (Fin N) (Fin N) ℝ} {F : Matrix (Fin N) (Fin k) ℝ} {beta : Option (Fin k → ℝ)} (hF : beta = none → FullRank F)
    {y : Fin N → ℝ} {a : GpAux N k} (ha : computeAux chol qr R F beta y = some a) :
    IsCholesky R a.L ∧ (∀ b, (∀ b0, beta = some b0 → b = b0) → sumSquares a.rho ≤ sumSquares (a.L⁻¹ *ᵥ (y - F *ᵥ b))) ∧
    (∀ b0, beta = some b0 → gpBeta a beta = b0) ∧ a.L⁻¹ *ᵥ (y - F *ᵥ gpBeta a beta) = a.rho := by
  unfold computeAux at ha
  obtain ⟨L, hL, rfl⟩ := Option.map_eq_some_iff.1 ha
  have h := hc _ _ hL
  cases beta with
  | none =>
    have hG := qr_unit (chol_det h) (hq _) (hF rfl)
    exact ⟨h, fun b _ => residual_min (hq _) y b, fun b0 hb => (by cases hb), residual_attained (hq _) hG y⟩
  | some b =>
    refine ⟨h, fun b' hb => ?_, fun b0 hb => Option.some.inj hb, mulVec_sub _ _ _⟩
    rw [hb b rfl, mulVec_sub]

/-- The best scale. -/
theorem scale_min {S s : ℝ} (hN : 0 < N) (hS : 0 < S) (hs : 0 < s) :
    N * Real.log (2 * Real.pi * (S / N)) + N ≤ N * Real.log (2 * Real.pi * s) + S / s := by
  have hN' : (0 : ℝ) < N := Nat.cast_pos.2 hN
  have hu : 0 < S / N / s := by positivity
  have h := Real.log_le_sub_one_of_pos hu
  rw [Real.log_div (by positivity) hs.ne'] at h
  rw [Real.log_mul (by positivity) (by positivity), Real.log_mul (by positivity) hs.ne']
  have e : S / s = N * (S / N / s) := by field_simp
  rw [e]
  nlinarith

theorem llf_noiseless_some {chol : Matrix (Fin N) (Fin N) ℝ → Option (Matrix (Fin N) (Fin N) ℝ)}
    {qr : Matrix (Fin N) (Fin k) ℝ → Matrix (Fin N) (Fin k) ℝ × Matrix (Fin k) (Fin k) ℝ}
    {R : Matrix (Fin N) (Fin N) ℝ} {F : Matrix (Fin N) (Fin k) ℝ} {beta : Option (Fin k → ℝ)} {y : Fin N → ℝ} {v : ℝ} {e : LlfEnv N k} :
    llfConcentrated chol qr .noiseless R F beta y = some (v, e) ↔
    ∃ a, computeAux chol qr R F beta y = some a ∧ trendRank k beta < N ∧ 0 < sumSquares a.rho ∧
      e = { sigma2 := sumSquares a.rho / ((N : ℝ) - trendRank k beta), noiseVar := 0, aux := a } ∧
      v = -(1 / 2) * (N * Real.log (2 * Real.pi * (sumSquares a.rho / ((N : ℝ) - trendRank k beta))) + twiceLogDiag a.L + N) ∧ v ≤ 0 := by
  have h05 : (-0.5 : ℝ) = -(1 / 2) := by norm_num
  simp only [llfConcentrated, rejectPositive, llfNoiseless, Option.bind_eq_some_iff]
  constructor
  · rintro ⟨⟨v', e'⟩, ⟨a, ha, h1⟩, h2⟩
    split_ifs at h2 with h0
    cases Option.some.inj h2
    split_ifs at h1 with h3
    push Not at h3
    cases Option.some.inj h1
    refine ⟨a, ha, h3.1, lt_of_le_of_ne (sumSquares_nonneg _) fun h => h3.2 (by rw [← h, zero_div]), rfl, by rw [h05], not_lt.1 h0⟩
  · rintro ⟨a, ha, hk, hS, rfl, hv, hv0⟩
    refine ⟨(v, _), ⟨a, ha, ?_⟩, if_neg (not_lt.2 hv0)⟩
    have hk' : (0 : ℝ) < N - trendRank k beta := sub_pos.2 (Nat.cast_lt.2 hk)
    rw [if_neg, hv, h05]
    push Not
    exact ⟨hk, (div_pos hS hk').ne'⟩

theorem llf_noise_estim_some {chol : Matrix (Fin N) (Fin N) ℝ → Option (Matrix (Fin N) (Fin N) ℝ)}
    {qr : Matrix (Fin N) (Fin k) ℝ → Matrix (Fin N) (Fin k) ℝ × Matrix (Fin k) (Fin k) ℝ}
    {R : Matrix (Fin N) (Fin N) ℝ} {F : Matrix (Fin N) (Fin k) ℝ} {beta : Option (Fin k → ℝ)} {y : Fin N → ℝ} {alpha v : ℝ} {e : LlfEnv N k} :
    llfConcentrated chol qr (.noiseEstim alpha) R F beta y = some (v, e) ↔
    ∃ a, computeAux chol qr (gpMatrix (.noiseEstim alpha) R) F beta y = some a ∧ 0 < N ∧ 0 < sumSquares a.rho ∧
      e = { sigma2 := alpha * (sumSquares a.rho / N), noiseVar := (1 - alpha) * (sumSquares a.rho / N), aux := a } ∧
      v = -(1 / 2) * (N * Real.log (2 * Real.pi * (sumSquares a.rho / N)) + twiceLogDiag a.L + N) ∧ v ≤ 0 := by
  have h05 : (-0.5 : ℝ) = -(1 / 2) := by norm_num
  simp only [llfConcentrated, rejectPositive, llfNoiseEstim, Option.bind_eq_some_iff]
  constructor
  · rintro ⟨⟨v', e'⟩, ⟨a, ha, h1⟩, h2⟩
    split_ifs at h2 with h0
    cases Option.some.inj h2
    split_ifs at h1 with h3
    cases Option.some.inj h1
    have hN : 0 < N := by
      rcases Nat.eq_zero_or_pos N with rfl | h
      · simp at h3
      · exact h
    refine ⟨a, ha, hN, lt_of_le_of_ne (sumSquares_nonneg _) fun h => h3 (by rw [← h, zero_div]), rfl, by rw [h05], not_lt.1 h0⟩
  · rintro ⟨a, ha, hN, hS, rfl, hv, hv0⟩
    refine ⟨(v, _), ⟨a, ha, ?_⟩, if_neg (not_lt.2 hv0)⟩
    have hN' : (0 : ℝ) < N := Nat.cast_pos.2 hN
    rw [if_neg (div_pos hS hN').ne', hv, h05]

theorem llf_noisy_some {chol : Matrix (Fin N) (Fin N) ℝ → Option (Matrix (Fin N) (Fin N) ℝ)}
    {qr : Matrix (Fin N) (Fin k) ℝ → Matrix (Fin N) (Fin k) ℝ × Matrix (Fin k) (Fin k) ℝ}
    {R : Matrix (Fin N) (Fin N) ℝ} {F : Matrix (Fin N) (Fin k) ℝ} {beta : Option (Fin k → ℝ)} {y : Fin N → ℝ} {sigma2 noise v : ℝ}
    {e : LlfEnv N k} :
    llfConcentrated chol qr (.noisy sigma2 noise) R F beta y = some (v, e) ↔
    ∃ a, computeAux chol qr (gpMatrix (.noisy sigma2 noise) R) F beta y = some a ∧
      e = { sigma2, noiseVar := noise, aux := a } ∧
      v = -(1 / 2) * (N * Real.log (2 * Real.pi * (sigma2 + noise)) + twiceLogDiag a.L + sumSquares a.rho / (sigma2 + noise)) ∧ v ≤ 0 := by
  have h05 : (-0.5 : ℝ) = -(1 / 2) := by norm_num
  simp only [llfConcentrated, rejectPositive, llfNoisy, Option.bind_eq_some_iff, Option.map_eq_some_iff]
  constructor
  · rintro ⟨⟨v', e'⟩, ⟨a, ha, h1⟩, h2⟩
    split_ifs at h2 with h0
    cases Option.some.inj h2
    cases h1
    exact ⟨a, ha, rfl, by rw [h05], not_lt.1 h0⟩
  · rintro ⟨a, ha, rfl, hv, hv0⟩
    exact ⟨(v, _), ⟨a, ha, by rw [hv, h05]⟩, if_neg (not_lt.2 hv0)⟩

/-! ### Matrices with noise -/

theorem inv_lower {L : Matrix (Fin N) (Fin N) ℝ} {R : Matrix (Fin N) (Fin N) ℝ} (h : IsCholesky R L) (i j : Fin N) (hij : i < j) :
    L⁻¹ i j = 0 := by
  have hb : L.BlockTriangular OrderDual.toDual := fun a b hab => h.lower a b hab
  haveI : Invertible L := L.invertibleOfIsUnitDet (chol_det h)
  exact blockTriangular_inv_of_blockTriangular hb hij

theorem inv_diag {L : Matrix (Fin N) (Fin N) ℝ} {R : Matrix (Fin N) (Fin N) ℝ} (h : IsCholesky R L) (i : Fin N) :
    L⁻¹ i i * L i i = 1 := by
  have h1 : (L⁻¹ * L) i i = 1 := by rw [nonsing_inv_mul _ (chol_det h), one_apply_eq]
  rw [mul_apply, Finset.sum_eq_single i] at h1
  · exact h1
  · intro j _ hj
    rcases lt_or_gt_of_ne hj with hlt | hgt
    · rw [h.lower j i hlt, mul_zero]
    · rw [inv_lower h i j hgt, zero_mul]
  · intro hi; exact absurd (Finset.mem_univ i) hi

/-- The diagonal of the factor is large when the matrix is. -/
theorem diag_ge {L R : Matrix (Fin N) (Fin N) ℝ} (h : IsCholesky R L) {b : ℝ} (hb : ∀ w : Fin N → ℝ, b * (w ⬝ᵥ w) ≤ w ⬝ᵥ (R *ᵥ w))
    (hb0 : 0 ≤ b) (i : Fin N) : b ≤ L i i ^ 2 := by
  have hu := chol_det h
  have h1 := hb (Lᵀ⁻¹ *ᵥ Pi.single i 1)
  have e : (Lᵀ⁻¹ *ᵥ Pi.single i (1 : ℝ)) ⬝ᵥ (R *ᵥ (Lᵀ⁻¹ *ᵥ Pi.single i 1)) = 1 := by
    rw [transpose_inv_dot, ← h.mul, ← mulVec_mulVec, mulVec_mulVec, nonsing_inv_mul _ hu, one_mulVec, mulVec_mulVec,
      mul_nonsing_inv _ (by rwa [det_transpose]), one_mulVec]
    simp
  rw [e] at h1
  have h2 : (L⁻¹ i i) ^ 2 ≤ (Lᵀ⁻¹ *ᵥ Pi.single i (1 : ℝ)) ⬝ᵥ (Lᵀ⁻¹ *ᵥ Pi.single i 1) := by
    rw [← sum_sq_eq]
    have : (Lᵀ⁻¹ *ᵥ Pi.single i (1 : ℝ)) i = L⁻¹ i i := by
      rw [mulVec_single_one, ← transpose_nonsing_inv]; rfl
    rw [← this]
    exact Finset.single_le_sum (f := fun j => (Lᵀ⁻¹ *ᵥ Pi.single i (1 : ℝ)) j ^ 2) (fun j _ => sq_nonneg _) (Finset.mem_univ i)
  have h3 : b * (L⁻¹ i i) ^ 2 ≤ 1 := (mul_le_mul_of_nonneg_left h2 hb0).trans h1
  have h4 := inv_diag h i
  calc b = b * (L⁻¹ i i * L i i) ^ 2 := by rw [h4]; ring
    _ = b * (L⁻¹ i i) ^ 2 * L i i ^ 2 := by ring
    _ ≤ 1 * L i i ^ 2 := mul_le_mul_of_nonneg_right h3 (sq_nonneg _)
    _ = L i i ^ 2 := one_mul _

end Verif.Proofs
