import Verif.Model.Gpr
import Verif.Spec.Gpr
import Mathlib.LinearAlgebra.Matrix.Block

/-!
# Lemmas for Gaussian-process regression
-/
namespace Verif.Proofs

open Matrix MeasureTheory ProbabilityTheory Verif.Model Verif.Spec

variable {N k n : ℕ}

/-! ### The mean squared error of an affine predictor -/

/-- The variance of the error of a linear predictor, divided by the process variance, without noise. -/
noncomputable def errVar (R : Matrix (Fin N) (Fin N) ℝ) (r w : Fin N → ℝ) : ℝ := 1 - 2 * (w ⬝ᵥ r) + w ⬝ᵥ (R *ᵥ w)

theorem mse_affine {Ω : Type*} [MeasurableSpace Ω] {P : Measure Ω} {Y : Fin N → Ω → ℝ} {Z : Ω → ℝ} {F : Matrix (Fin N) (Fin k) ℝ}
    {f beta : Fin k → ℝ} {R : Matrix (Fin N) (Fin N) ℝ} {r : Fin N → ℝ} {sigma2 noise : ℝ}
    (h : IsProcess P Y Z F f beta R r sigma2 noise) (c : ℝ) (w : Fin N → ℝ) :
    meanSquaredError P Y Z (fun y => c + w ⬝ᵥ y) =
      sigma2 * errVar R r w + noise * (w ⬝ᵥ w) + (f ⬝ᵥ beta - c - w ⬝ᵥ (F *ᵥ beta)) ^ 2 := by
  have := h.prob
  have hwY : ∀ i, MemLp (fun ω => w i * Y i ω) 2 P := fun i => (h.memY i).const_mul (w i)
  have hS : MemLp (fun ω => ∑ i, w i * Y i ω) 2 P := memLp_finsetSum Finset.univ fun i _ => hwY i
  have hD : MemLp (fun ω => Z ω - ∑ i, w i * Y i ω) 2 P := h.memZ.sub hS
  have hW : MemLp (fun ω => (Z ω - ∑ i, w i * Y i ω) - c) 2 P := hD.sub (memLp_const c)
  have e1 : meanSquaredError P Y Z (fun y => c + w ⬝ᵥ y) = ∫ ω, ((Z ω - ∑ i, w i * Y i ω) - c) ^ 2 ∂P := by
    unfold meanSquaredError
    congr 1
    funext ω
    simp only [dotProduct]
    ring
  have e2 := variance_eq_sub hW
  simp only [Pi.pow_apply] at e2
  have e3 : Var[fun ω => (Z ω - ∑ i, w i * Y i ω) - c; P] = Var[fun ω => Z ω - ∑ i, w i * Y i ω; P] :=
    variance_sub_const hD.aestronglyMeasurable c
  have e4 : Var[fun ω => Z ω - ∑ i, w i * Y i ω; P] = sigma2 * errVar R r w + noise * (w ⬝ᵥ w) := by
    rw [variance_fun_sub h.memZ hS, h.varZ, covariance_fun_sum_right hwY h.memZ, variance_fun_sum hwY]
    have c1 : ∀ i, cov[Z, fun ω => w i * Y i ω; P] = w i * (sigma2 * r i) := by
      intro i
      rw [covariance_const_mul_right, covariance_comm, h.covYZ]
    have c2 : ∀ i j, cov[fun ω => w i * Y i ω, fun ω => w j * Y j ω; P] =
        w i * (w j * (sigma2 * R i j)) + (if i = j then noise * (w i * w j) else 0) := by
      intro i j
      rw [covariance_const_mul_left, covariance_const_mul_right, h.covY]
      split_ifs <;> ring
    simp only [c1, c2, Finset.sum_add_distrib, Finset.sum_ite_eq, Finset.mem_univ, if_true]
    unfold errVar
    simp only [dotProduct, mulVec, Finset.mul_sum, mul_add, mul_sub]
    have s1 : ∑ x, ∑ x_1, w x * (w x_1 * (sigma2 * R x x_1)) = ∑ x, ∑ x_1, sigma2 * (w x * (R x x_1 * w x_1)) :=
      Finset.sum_congr rfl fun i _ => Finset.sum_congr rfl fun j _ => by ring
    have s2 : ∑ i, 2 * (w i * (sigma2 * r i)) = ∑ i, sigma2 * (2 * (w i * r i)) := Finset.sum_congr rfl fun i _ => by ring
    rw [s1, s2]
    ring
  have e5 : ∫ ω, ((Z ω - ∑ i, w i * Y i ω) - c) ∂P = f ⬝ᵥ beta - c - w ⬝ᵥ (F *ᵥ beta) := by
    have iZ := h.memZ.integrable one_le_two
    have iY := fun i => (hwY i).integrable one_le_two
    have iS := hS.integrable one_le_two
    have i1 : ∫ ω, ((Z ω - ∑ i, w i * Y i ω) - c) ∂P = (∫ ω, (Z ω - ∑ i, w i * Y i ω) ∂P) - ∫ _, c ∂P :=
      integral_sub (iZ.sub iS) (integrable_const c)
    rw [i1, integral_sub iZ iS, integral_finsetSum _ (fun i _ => iY i), h.meanZ]
    simp only [integral_const_mul, h.meanY, integral_const, smul_eq_mul, probReal_univ, one_mul, dotProduct, mulVec]
    ring
  rw [e1]
  rw [e3, e4, e5] at e2
  linarith

/-! ### Triangular factors -/

theorem chol_det {R L : Matrix (Fin N) (Fin N) ℝ} (h : IsCholesky R L) : IsUnit L.det := by
  have : L.det = ∏ i, L i i := det_of_isLowerTriangular L (fun i j hij => h.lower i j hij)
  rw [this, isUnit_iff_ne_zero]
  exact Finset.prod_ne_zero_iff.2 fun i _ => (h.pos i).ne'

theorem transpose_inv_dot (L : Matrix (Fin N) (Fin N) ℝ) (v x : Fin N → ℝ) : (Lᵀ⁻¹ *ᵥ v) ⬝ᵥ x = v ⬝ᵥ (L⁻¹ *ᵥ x) := by
  rw [← transpose_nonsing_inv, mulVec_transpose, ← dotProduct_mulVec]

theorem transpose_dot {m l : ℕ} (A : Matrix (Fin m) (Fin l) ℝ) (v : Fin m → ℝ) (x : Fin l → ℝ) :
    (Aᵀ *ᵥ v) ⬝ᵥ x = v ⬝ᵥ (A *ᵥ x) := by
  rw [mulVec_transpose, ← dotProduct_mulVec]

theorem errVar_eq {R L : Matrix (Fin N) (Fin N) ℝ} (h : IsCholesky R L) (r v : Fin N → ℝ) :
    errVar R r (Lᵀ⁻¹ *ᵥ v) = 1 - 2 * (v ⬝ᵥ (L⁻¹ *ᵥ r)) + v ⬝ᵥ v := by
  have hu := chol_det h
  have hu' : IsUnit (Lᵀ).det := by rwa [det_transpose]
  unfold errVar
  rw [transpose_inv_dot, transpose_inv_dot, ← h.mul, ← mulVec_mulVec, mulVec_mulVec, mulVec_mulVec,
    nonsing_inv_mul _ hu, Matrix.one_mul, mulVec_mulVec, mul_nonsing_inv _ hu', one_mulVec]

theorem inv_transpose_mulVec {L : Matrix (Fin N) (Fin N) ℝ} (hu : IsUnit L.det) (w : Fin N → ℝ) : Lᵀ⁻¹ *ᵥ (Lᵀ *ᵥ w) = w := by
  rw [mulVec_mulVec, nonsing_inv_mul _ (by rwa [det_transpose]), one_mulVec]

theorem errVar_complete_square {R L : Matrix (Fin N) (Fin N) ℝ} (h : IsCholesky R L) (r v : Fin N → ℝ) :
    errVar R r (Lᵀ⁻¹ *ᵥ v) =
      1 - (L⁻¹ *ᵥ r) ⬝ᵥ (L⁻¹ *ᵥ r) + (v - L⁻¹ *ᵥ r) ⬝ᵥ (v - L⁻¹ *ᵥ r) := by
  rw [errVar_eq h, sub_dotProduct, dotProduct_sub, dotProduct_sub, dotProduct_comm (L⁻¹ *ᵥ r) v]
  ring

theorem sum_sq_eq {m : ℕ} (v : Fin m → ℝ) : ∑ i, v i ^ 2 = v ⬝ᵥ v := by
  simp [dotProduct, sq]

theorem dot_self_nonneg {m : ℕ} (v : Fin m → ℝ) : 0 ≤ v ⬝ᵥ v := by
  rw [← sum_sq_eq]; positivity

/-- Bessel's inequality for matrices with orthonormal columns. -/
theorem bessel {Q : Matrix (Fin N) (Fin k) ℝ} (h : Qᵀ * Q = 1) (w : Fin N → ℝ) : (Qᵀ *ᵥ w) ⬝ᵥ (Qᵀ *ᵥ w) ≤ w ⬝ᵥ w := by
  have h0 := dot_self_nonneg (w - Q *ᵥ (Qᵀ *ᵥ w))
  have e1 : w ⬝ᵥ (Q *ᵥ (Qᵀ *ᵥ w)) = (Qᵀ *ᵥ w) ⬝ᵥ (Qᵀ *ᵥ w) := by rw [transpose_dot]
  have e2 : (Q *ᵥ (Qᵀ *ᵥ w)) ⬝ᵥ (Q *ᵥ (Qᵀ *ᵥ w)) = (Qᵀ *ᵥ w) ⬝ᵥ (Qᵀ *ᵥ w) := by
    have := transpose_dot Q (Q *ᵥ (Qᵀ *ᵥ w)) (Qᵀ *ᵥ w)
    rw [← this, mulVec_mulVec, h, one_mulVec]
  rw [sub_dotProduct, dotProduct_sub, dotProduct_sub, dotProduct_comm (Q *ᵥ (Qᵀ *ᵥ w)) w, e1, e2] at h0
  linarith

theorem orth_dot {Q : Matrix (Fin N) (Fin k) ℝ} (h : Qᵀ * Q = 1) (u : Fin k → ℝ) : (Q *ᵥ u) ⬝ᵥ (Q *ᵥ u) = u ⬝ᵥ u := by
  have := transpose_dot Q (Q *ᵥ u) u
  rw [← this, mulVec_mulVec, h, one_mulVec]

/-! ### The weights that the code's predictor gives to the observations -/

section Universal

variable {R L : Matrix (Fin N) (Fin N) ℝ} {F : Matrix (Fin N) (Fin k) ℝ} {Q : Matrix (Fin N) (Fin k) ℝ} {G : Matrix (Fin k) (Fin k) ℝ}

/-- The vector `u` for estimated coefficients. -/
noncomputable def uVec (L : Matrix (Fin N) (Fin N) ℝ) (F : Matrix (Fin N) (Fin k) ℝ) (G : Matrix (Fin k) (Fin k) ℝ) (f : Fin k → ℝ)
    (r : Fin N → ℝ) : Fin k → ℝ := Gᵀ⁻¹ *ᵥ ((L⁻¹ * F)ᵀ *ᵥ (L⁻¹ *ᵥ r) - f)

/-- The weights for estimated coefficients. -/
noncomputable def uWeights (L : Matrix (Fin N) (Fin N) ℝ) (F Q : Matrix (Fin N) (Fin k) ℝ) (G : Matrix (Fin k) (Fin k) ℝ) (f : Fin k → ℝ)
    (r : Fin N → ℝ) : Fin N → ℝ := Lᵀ⁻¹ *ᵥ (L⁻¹ *ᵥ r - Q *ᵥ uVec L F G f r)

theorem uVec_eq (hq : IsQr (L⁻¹ * F) Q G) (hG : IsUnit G.det) (f : Fin k → ℝ) (r v : Fin N → ℝ) (hv : (L⁻¹ * F)ᵀ *ᵥ v = f) :
    uVec L F G f r = Qᵀ *ᵥ (L⁻¹ *ᵥ r - v) := by
  have hG' : IsUnit (Gᵀ).det := by rwa [det_transpose]
  unfold uVec
  rw [← hv, ← mulVec_sub, ← hq.mul, transpose_mul, ← mulVec_mulVec, mulVec_mulVec, nonsing_inv_mul _ hG', one_mulVec]

theorem uWeights_unbiased (hL : IsUnit L.det) (hq : IsQr (L⁻¹ * F) Q G) (hG : IsUnit G.det) (f : Fin k → ℝ) (r : Fin N → ℝ) :
    Fᵀ *ᵥ uWeights L F Q G f r = f := by
  have hG' : IsUnit (Gᵀ).det := by rwa [det_transpose]
  have e : Fᵀ *ᵥ (Lᵀ⁻¹ *ᵥ (L⁻¹ *ᵥ r - Q *ᵥ uVec L F G f r)) = (L⁻¹ * F)ᵀ *ᵥ (L⁻¹ *ᵥ r - Q *ᵥ uVec L F G f r) := by
    rw [mulVec_mulVec, transpose_mul, transpose_nonsing_inv]
  have e2 : (L⁻¹ * F)ᵀ *ᵥ (Q *ᵥ uVec L F G f r) = Gᵀ *ᵥ uVec L F G f r := by
    rw [mulVec_mulVec, ← hq.mul, transpose_mul, Matrix.mul_assoc, hq.orth, Matrix.mul_one]
  unfold uWeights
  rw [e, mulVec_sub, e2]
  unfold uVec
  rw [mulVec_mulVec (v := _ - f), mul_nonsing_inv _ hG', one_mulVec]
  abel

theorem uWeights_dot (hq : IsQr (L⁻¹ * F) Q G) (hG : IsUnit G.det) (f : Fin k → ℝ) (r y : Fin N → ℝ) :
    uWeights L F Q G f r ⬝ᵥ y =
      f ⬝ᵥ (G⁻¹ *ᵥ (Qᵀ *ᵥ (L⁻¹ *ᵥ y))) + r ⬝ᵥ (Lᵀ⁻¹ *ᵥ (L⁻¹ *ᵥ y - (Q * Qᵀ) *ᵥ (L⁻¹ *ᵥ y))) := by
  have hG' : IsUnit (Gᵀ).det := by rwa [det_transpose]
  have h1 : r ⬝ᵥ (Lᵀ⁻¹ *ᵥ (L⁻¹ *ᵥ y - (Q * Qᵀ) *ᵥ (L⁻¹ *ᵥ y))) = (L⁻¹ *ᵥ y - (Q * Qᵀ) *ᵥ (L⁻¹ *ᵥ y)) ⬝ᵥ (L⁻¹ *ᵥ r) := by
    rw [dotProduct_comm, transpose_inv_dot]
  have hu : uVec L F G f r = Qᵀ *ᵥ (L⁻¹ *ᵥ r) - Gᵀ⁻¹ *ᵥ f := by
    unfold uVec
    rw [mulVec_sub, ← hq.mul, transpose_mul, ← mulVec_mulVec, mulVec_mulVec, nonsing_inv_mul _ hG', one_mulVec]
  unfold uWeights
  rw [transpose_inv_dot, h1, hu]
  set yt := L⁻¹ *ᵥ y
  set rt := L⁻¹ *ᵥ r
  have h2 : f ⬝ᵥ (G⁻¹ *ᵥ (Qᵀ *ᵥ yt)) = (Q *ᵥ (Gᵀ⁻¹ *ᵥ f)) ⬝ᵥ yt := by
    rw [dotProduct_comm (Q *ᵥ _) yt, ← transpose_dot Q, dotProduct_comm (Qᵀ *ᵥ yt), transpose_inv_dot]
  have h3 : ((Q * Qᵀ) *ᵥ yt) ⬝ᵥ rt = (Q *ᵥ (Qᵀ *ᵥ rt)) ⬝ᵥ yt := by
    rw [← mulVec_mulVec, dotProduct_comm, ← transpose_dot Q, dotProduct_comm (Q *ᵥ (Qᵀ *ᵥ rt)), ← transpose_dot Q, dotProduct_comm]
  rw [h2, sub_dotProduct, sub_dotProduct, h3, mulVec_sub, sub_dotProduct, dotProduct_comm yt rt]
  ring

theorem uWeights_errVar (h : IsCholesky R L) (hq : IsQr (L⁻¹ * F) Q G) (f : Fin k → ℝ) (r : Fin N → ℝ) :
    errVar R r (uWeights L F Q G f r) = 1 - ∑ i, (L⁻¹ *ᵥ r) i ^ 2 + ∑ p, uVec L F G f r p ^ 2 := by
  unfold uWeights
  rw [errVar_complete_square h, sum_sq_eq, sum_sq_eq]
  congr 1
  rw [sub_sub_cancel_left, neg_dotProduct, dotProduct_neg, neg_neg, orth_dot hq.orth]

theorem uWeights_optimal (h : IsCholesky R L) (hq : IsQr (L⁻¹ * F) Q G) (hG : IsUnit G.det) (f : Fin k → ℝ) (r w : Fin N → ℝ)
    (hw : Fᵀ *ᵥ w = f) : errVar R r (uWeights L F Q G f r) ≤ errVar R r w := by
  have hu := chol_det h
  have hv : (L⁻¹ * F)ᵀ *ᵥ (Lᵀ *ᵥ w) = f := by
    rw [transpose_mul, transpose_nonsing_inv, ← mulVec_mulVec, inv_transpose_mulVec hu, hw]
  rw [uWeights_errVar h hq, sum_sq_eq, sum_sq_eq, uVec_eq hq hG f r _ hv]
  conv_rhs => rw [← inv_transpose_mulVec hu w]
  rw [errVar_complete_square h]
  have := bessel hq.orth (L⁻¹ *ᵥ r - Lᵀ *ᵥ w)
  have e : (Lᵀ *ᵥ w - L⁻¹ *ᵥ r) ⬝ᵥ (Lᵀ *ᵥ w - L⁻¹ *ᵥ r) = (L⁻¹ *ᵥ r - Lᵀ *ᵥ w) ⬝ᵥ (L⁻¹ *ᵥ r - Lᵀ *ᵥ w) := by
    rw [← neg_sub (L⁻¹ *ᵥ r), neg_dotProduct, dotProduct_neg, neg_neg]
  rw [e]
  linarith

end Universal

theorem unbiased_iff {F : Matrix (Fin N) (Fin k) ℝ} {f : Fin k → ℝ} {w : Fin N → ℝ} :
    UnbiasedWeights F f w ↔ Fᵀ *ᵥ w = f := by
  have e : ∀ beta : Fin k → ℝ, ∑ i, w i * ∑ p, F i p * beta p = (Fᵀ *ᵥ w) ⬝ᵥ beta := by
    intro beta
    rw [transpose_dot]; rfl
  constructor
  · intro h
    funext p
    have := h (Pi.single p 1)
    rw [e] at this
    have h2 : ∑ q, f q * (Pi.single p (1 : ℝ) : Fin k → ℝ) q = f p := by
      have : f ⬝ᵥ Pi.single p (1 : ℝ) = f p := by simp
      exact this
    rw [h2] at this
    simpa using this
  · intro h beta
    rw [e, h]; rfl

end Verif.Proofs
