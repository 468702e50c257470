import Verif.Proofs.LikelihoodGrad
import Verif.Proofs.QrExists
import Verif.Spec.Restricted
import Mathlib.Data.Matrix.ColumnRowPartitioned
import Mathlib.LinearAlgebra.Matrix.SchurComplement

/-!
# Linear algebra of error contrasts
-/
namespace Verif.Proofs

open Matrix Verif.Model Verif.Spec InnerProductSpace

variable {N k m : ℕ}

theorem contrasts_exist (hk : k ≤ N) (F : Matrix (Fin N) (Fin k) ℝ) : ∃ A : Matrix (Fin N) (Fin (N - k)) ℝ, IsContrasts F A := by
  let f : Fin N → EuclideanSpace ℝ (Fin N) := fun j => if h : j.1 < k then WithLp.toLp 2 (fun i => F i ⟨j, h⟩) else 0
  have hcard : Module.finrank ℝ (EuclideanSpace ℝ (Fin N)) = Fintype.card (Fin N) := by simp
  let b := gramSchmidtOrthonormalBasis hcard f
  let c : Fin (N - k) → Fin N := fun j => ⟨k + j, by have := j.2; omega⟩
  have hcinj : Function.Injective c := fun i j h => by
    have := congrArg Fin.val h
    simp only [c] at this
    exact Fin.ext (by omega)
  refine ⟨of fun i j => b (c j) i, by omega, ?_, ?_⟩
  · ext i j
    have h1 := orthonormal_iff_ite.1 b.orthonormal (c j) (c i)
    rw [mul_apply, one_apply]
    simp only [transpose_apply, of_apply]
    have h2 : inner ℝ (b (c j)) (b (c i)) = ∑ l, b (c i) l * b (c j) l := by
      rw [PiLp.inner_apply]; rfl
    rw [← h2, h1]
    have : c j = c i ↔ i = j := by rw [eq_comm]; exact hcinj.eq_iff
    simp only [this]
  · ext i j
    have h1 : inner ℝ (b (c i)) (f (Fin.castLE hk j)) = 0 :=
      gramSchmidtOrthonormalBasis_inv_triangular hcard f (show Fin.castLE hk j < c i by
        show j.1 < k + i.1
        have := j.2; omega)
    have hf : ∀ l, f (Fin.castLE hk j) l = F l j := fun l => by
      have : (Fin.castLE hk j).1 < k := j.2
      simp only [f, this, dif_pos]
      rfl
    rw [PiLp.inner_apply] at h1
    rw [mul_apply]
    simp only [transpose_apply, of_apply, Matrix.zero_apply]
    rw [← h1]
    refine Finset.sum_congr rfl fun l _ => ?_
    rw [hf l]
    exact mul_comm _ _

private theorem det_gram {ι : Type*} [Fintype ι] [DecidableEq ι] (e : ι ≃ Fin N) (U V : Matrix (Fin N) ι ℝ) (C : Matrix (Fin N) (Fin N) ℝ) :
    (Uᵀ * C * V).det = (U.submatrix id e.symm).det * C.det * (V.submatrix id e.symm).det := by
  have h : (Uᵀ * C * V).submatrix e.symm e.symm = (U.submatrix id e.symm)ᵀ * C * V.submatrix id e.symm := by
    ext i j
    simp [mul_apply]
  rw [← det_submatrix_equiv_self e.symm (Uᵀ * C * V), h, det_mul, det_mul, det_transpose]

/-- The determinant of the covariance of the contrasts. -/
theorem contrasts_det {F : Matrix (Fin N) (Fin k) ℝ} {A : Matrix (Fin N) (Fin m) ℝ} (h : IsContrasts F A) {C : Matrix (Fin N) (Fin N) ℝ}
    (hs : Cᵀ = C) (hC : IsUnit C.det) (hG : (Fᵀ * C⁻¹ * F).det ≠ 0) :
    (Aᵀ * C * A).det * (Fᵀ * F).det = (Fᵀ * C⁻¹ * F).det * C.det := by
  obtain ⟨e⟩ : Nonempty (Fin m ⊕ Fin k ≃ Fin N) := by
    rw [← Fintype.card_eq]; simp [h.complete]
  have hsi : C⁻¹ᵀ = C⁻¹ := by rw [transpose_nonsing_inv, hs]
  have free' : Fᵀ * A = 0 := by
    have := congrArg transpose h.free
    rwa [transpose_mul, transpose_transpose, transpose_zero] at this
  have h1 := det_gram e (fromCols A F) (fromCols A F) 1
  have h2 := det_gram e (fromCols A (C⁻¹ * F)) (fromCols A (C⁻¹ * F)) C
  have h3 := det_gram e (fromCols A F) (fromCols A (C⁻¹ * F)) 1
  rw [transpose_fromCols, Matrix.mul_one, fromRows_mul_fromCols, h.orth, h.free, free', det_fromBlocks_zero₁₂, det_one, one_mul, det_one, mul_one] at h1
  rw [transpose_fromCols, Matrix.mul_one, fromRows_mul_fromCols, h.orth, free', det_fromBlocks_zero₂₁, det_one, one_mul, det_one, mul_one,
    ← Matrix.mul_assoc] at h3
  have e1 : Aᵀ * C * (C⁻¹ * F) = 0 := by
    rw [Matrix.mul_assoc, ← Matrix.mul_assoc C, mul_nonsing_inv _ hC, Matrix.one_mul, h.free]
  have e2 : (C⁻¹ * F)ᵀ * C * (C⁻¹ * F) = Fᵀ * C⁻¹ * F := by
    rw [transpose_mul, hsi, Matrix.mul_assoc, ← Matrix.mul_assoc C, mul_nonsing_inv _ hC, Matrix.one_mul]
  rw [transpose_fromCols, fromRows_mul, fromRows_mul_fromCols, e1, e2, det_fromBlocks_zero₁₂] at h2
  generalize ((fromCols A F).submatrix id e.symm).det = a at *
  generalize ((fromCols A (C⁻¹ * F)).submatrix id e.symm).det = b at *
  refine mul_right_cancel₀ hG ?_
  calc (Aᵀ * C * A).det * (Fᵀ * F).det * (Fᵀ * C⁻¹ * F).det = ((Aᵀ * C * A).det * (Fᵀ * C⁻¹ * F).det) * (Fᵀ * F).det := by ring
    _ = b * C.det * b * (a * a) := by rw [h2, h1]
    _ = (a * b) * (a * b) * C.det := by ring
    _ = _ := by rw [← h3]; ring

theorem contrasts_span {F : Matrix (Fin N) (Fin k) ℝ} {A : Matrix (Fin N) (Fin m) ℝ} (h : IsContrasts F A) (hF : IsUnit (Fᵀ * F).det)
    {w : Fin N → ℝ} (hw : Fᵀ *ᵥ w = 0) : A *ᵥ (Aᵀ *ᵥ w) = w := by
  have free' : Fᵀ * A = 0 := by
    have := congrArg transpose h.free
    rwa [transpose_mul, transpose_transpose, transpose_zero] at this
  have h1 : fromRows Aᵀ ((Fᵀ * F)⁻¹ * Fᵀ) * fromCols A F = 1 := by
    rw [fromRows_mul_fromCols, h.orth, h.free, Matrix.mul_assoc, free', Matrix.mul_zero, Matrix.mul_assoc, nonsing_inv_mul _ hF, fromBlocks_one]
  have h2 : fromCols A F * fromRows Aᵀ ((Fᵀ * F)⁻¹ * Fᵀ) = 1 := by
    exact (mul_eq_one_comm_of_card_eq _ _ _ (by simp [h.complete])).1 h1
  rw [fromCols_mul_fromRows] at h2
  have h3 := congrArg (fun M => M *ᵥ w) h2
  simp only [add_mulVec, one_mulVec, ← mulVec_mulVec, hw, mulVec_zero, add_zero] at h3
  exact h3

/-- The quadratic form of the contrasts. -/
theorem contrasts_quad {F : Matrix (Fin N) (Fin k) ℝ} {A : Matrix (Fin N) (Fin m) ℝ} (h : IsContrasts F A) {C : Matrix (Fin N) (Fin N) ℝ}
    (hC : IsUnit C.det) (hF : IsUnit (Fᵀ * F).det) (hA : IsUnit (Aᵀ * C * A).det) {z : Fin N → ℝ} (hz : Fᵀ *ᵥ (C⁻¹ *ᵥ z) = 0) :
    (Aᵀ *ᵥ z) ⬝ᵥ ((Aᵀ * C * A)⁻¹ *ᵥ (Aᵀ *ᵥ z)) = z ⬝ᵥ (C⁻¹ *ᵥ z) := by
  have hsp := contrasts_span h hF hz
  have e1 : (Aᵀ * C * A) *ᵥ (Aᵀ *ᵥ (C⁻¹ *ᵥ z)) = Aᵀ *ᵥ z := by
    rw [← mulVec_mulVec, hsp, ← mulVec_mulVec, mulVec_mulVec z C C⁻¹, mul_nonsing_inv _ hC, one_mulVec]
  have e2 : (Aᵀ * C * A)⁻¹ *ᵥ (Aᵀ *ᵥ z) = Aᵀ *ᵥ (C⁻¹ *ᵥ z) := by
    rw [← e1, mulVec_mulVec, nonsing_inv_mul _ hA, one_mulVec]
  rw [e2]
  conv_rhs => rw [← hsp]
  rw [transpose_dot]

theorem full_gram {F : Matrix (Fin N) (Fin k) ℝ} (hF : FullRank F) : 0 < (Fᵀ * F).det := by
  have hpd : (Fᵀ * F).PosDef := by
    refine posDef_iff_dotProduct_mulVec.2 ⟨?_, fun x hx => ?_⟩
    · ext i j; simp [mul_apply, mul_comm]
    · rw [← mulVec_mulVec, star_trivial, dotProduct_comm, transpose_dot]
      refine lt_of_le_of_ne (dot_self_nonneg _) fun h0 => hx (hF x (dotProduct_self_eq_zero.1 h0.symm))
  exact hpd.det_pos

/-- The triangular factor carries the determinant of the information matrix of the trend. -/
theorem trend_gram {R L : Matrix (Fin N) (Fin N) ℝ} (h : IsCholesky R L) {F Q : Matrix (Fin N) (Fin k) ℝ} {G : Matrix (Fin k) (Fin k) ℝ}
    (hq : IsQr (L⁻¹ * F) Q G) : Fᵀ * R⁻¹ * F = Gᵀ * G := by
  have hR : R⁻¹ = L⁻¹ᵀ * L⁻¹ := by rw [← h.mul, Matrix.mul_inv_rev, transpose_nonsing_inv]
  calc Fᵀ * R⁻¹ * F = (L⁻¹ * F)ᵀ * (L⁻¹ * F) := by
        rw [hR, transpose_mul]; simp only [Matrix.mul_assoc]
    _ = Gᵀ * (Qᵀ * Q) * G := by rw [← hq.mul, transpose_mul]; simp only [Matrix.mul_assoc]
    _ = Gᵀ * G := by rw [hq.orth, Matrix.mul_one]

theorem det_upper {G : Matrix (Fin k) (Fin k) ℝ} (h : ∀ i j, j < i → G i j = 0) : G.det = ∏ p, G p p :=
  det_of_isUpperTriangular (M := G) fun i j hij => h i j hij

variable {chol : Matrix (Fin N) (Fin N) ℝ → Option (Matrix (Fin N) (Fin N) ℝ)}
  {qr : Matrix (Fin N) (Fin k) ℝ → Matrix (Fin N) (Fin k) ℝ × Matrix (Fin k) (Fin k) ℝ}

theorem aux_none {R : Matrix (Fin N) (Fin N) ℝ} {F : Matrix (Fin N) (Fin k) ℝ} {y : Fin N → ℝ} {a : GpAux N k} (hc : CholeskyRoutine chol)
    (hq : QrRoutine qr) (ha : computeAux chol qr R F none y = some a) :
    IsCholesky R a.L ∧ IsQr (a.L⁻¹ * F) a.Q a.G ∧ a.G = (qr (a.L⁻¹ * F)).2 := by
  unfold computeAux at ha
  obtain ⟨L, hL, rfl⟩ := Option.map_eq_some_iff.1 ha
  exact ⟨hc _ _ hL, hq _, rfl⟩

theorem normal_equations {R : Matrix (Fin N) (Fin N) ℝ} {F : Matrix (Fin N) (Fin k) ℝ} {y : Fin N → ℝ} {a : GpAux N k} (hc : CholeskyRoutine chol)
    (hq : QrRoutine qr) (hF : FullRank F) (ha : computeAux chol qr R F none y = some a) :
    Fᵀ *ᵥ (R⁻¹ *ᵥ (y - F *ᵥ gpBeta a none)) = 0 := by
  obtain ⟨h, hqr, -⟩ := aux_none hc hq ha
  obtain ⟨-, -, -, hrho⟩ := aux_spec hc hq (fun _ => hF) ha
  have hr : a.rho = a.Yt - (a.Q * a.Qᵀ) *ᵥ a.Yt := by
    unfold computeAux at ha
    obtain ⟨L, hL, rfl⟩ := Option.map_eq_some_iff.1 ha
    rfl
  have h1 : Fᵀ * a.Lᵀ⁻¹ = a.Gᵀ * a.Qᵀ := by
    rw [← transpose_mul, hqr.mul, transpose_mul, transpose_nonsing_inv]
  rw [← chol_solve h, hrho, mulVec_mulVec, h1, ← mulVec_mulVec, hr, mulVec_sub, ← mulVec_mulVec, mulVec_mulVec _ a.Qᵀ a.Q, hqr.orth,
    one_mulVec, sub_self, mulVec_zero]

/-- The projection on the trend. -/
theorem trend_term {R L : Matrix (Fin N) (Fin N) ℝ} (h : IsCholesky R L) {F Q : Matrix (Fin N) (Fin k) ℝ} {G : Matrix (Fin k) (Fin k) ℝ}
    (hq : IsQr (L⁻¹ * F) Q G) (hG : IsUnit G.det) :
    R⁻¹ * F * (Fᵀ * R⁻¹ * F)⁻¹ * (Fᵀ * R⁻¹) = (Lᵀ⁻¹ * Q) * (Lᵀ⁻¹ * Q)ᵀ := by
  have hG' : IsUnit Gᵀ.det := by rwa [det_transpose]
  have hR : R⁻¹ = Lᵀ⁻¹ * L⁻¹ := by rw [← h.mul, Matrix.mul_inv_rev]
  have hF1 : R⁻¹ * F = Lᵀ⁻¹ * Q * G := by rw [hR, Matrix.mul_assoc, ← hq.mul, Matrix.mul_assoc]
  have hF2 : Fᵀ * R⁻¹ = Gᵀ * (Lᵀ⁻¹ * Q)ᵀ := by
    have h1 := congrArg transpose hF1
    rw [transpose_mul, inv_symm h, transpose_mul] at h1
    exact h1
  rw [trend_gram h hq, hF1, hF2, Matrix.mul_inv_rev]
  calc Lᵀ⁻¹ * Q * G * (G⁻¹ * Gᵀ⁻¹) * (Gᵀ * (Lᵀ⁻¹ * Q)ᵀ) = Lᵀ⁻¹ * Q * (G * G⁻¹) * (Gᵀ⁻¹ * Gᵀ) * (Lᵀ⁻¹ * Q)ᵀ := by simp only [Matrix.mul_assoc]
    _ = _ := by rw [mul_nonsing_inv _ hG, nonsing_inv_mul _ hG', Matrix.mul_one, Matrix.mul_one]

/-- The trace of the projection. -/
theorem trend_term_trace {R L : Matrix (Fin N) (Fin N) ℝ} (h : IsCholesky R L) {F Q : Matrix (Fin N) (Fin k) ℝ} {G : Matrix (Fin k) (Fin k) ℝ}
    (hq : IsQr (L⁻¹ * F) Q G) : ((Lᵀ⁻¹ * Q) * (Lᵀ⁻¹ * Q)ᵀ * R).trace = k := by
  have hu := chol_det h
  have hu' : IsUnit Lᵀ.det := by rwa [det_transpose]
  have e : (Lᵀ⁻¹ * Q) * (Lᵀ⁻¹ * Q)ᵀ * R = Lᵀ⁻¹ * (Q * Qᵀ * Lᵀ) := by
    rw [← h.mul, transpose_mul, ← transpose_nonsing_inv, transpose_transpose]
    calc L⁻¹ᵀ * Q * (Qᵀ * L⁻¹) * (L * Lᵀ) = L⁻¹ᵀ * (Q * (Qᵀ * ((L⁻¹ * L) * Lᵀ))) := by simp only [Matrix.mul_assoc]
      _ = _ := by rw [nonsing_inv_mul _ hu, Matrix.one_mul]; simp only [Matrix.mul_assoc]
  rw [e, trace_mul_comm, Matrix.mul_assoc, mul_nonsing_inv _ hu', Matrix.mul_one, trace_mul_comm, hq.orth, trace_one, Fintype.card_fin]

theorem hasDerivAt_trend_det {A : ℝ → Matrix (Fin N) (Fin N) ℝ} {A' : Matrix (Fin N) (Fin N) ℝ} {t : ℝ}
    (h : ∀ i j, HasDerivAt (fun s => A s i j) (A' i j) t) {F Q : Matrix (Fin N) (Fin k) ℝ} {L : Matrix (Fin N) (Fin N) ℝ}
    {G : Matrix (Fin k) (Fin k) ℝ} (hch : IsCholesky (A t) L) (hq : IsQr (L⁻¹ * F) Q G) (hG : IsUnit G.det) :
    HasDerivAt (fun s => Real.log (Fᵀ * (A s)⁻¹ * F).det) (-((Lᵀ⁻¹ * Q) * (Lᵀ⁻¹ * Q)ᵀ * A').trace) t := by
  have hpos := (log_det_chol hch).2.ne'
  have h1 := hasDerivAt_inv h hpos
  have h2 : ∀ p q, HasDerivAt (fun s => (Fᵀ * (A s)⁻¹ * F) p q) ((Fᵀ * (-((A t)⁻¹ * A' * (A t)⁻¹)) * F) p q) t := by
    intro p q
    have h3 : HasDerivAt (fun s => ∑ j, (∑ i, Fᵀ p i * (A s)⁻¹ i j) * F j q)
        (∑ j, (∑ i, Fᵀ p i * (-((A t)⁻¹ * A' * (A t)⁻¹)) i j) * F j q) t :=
      HasDerivAt.fun_sum fun j _ => (HasDerivAt.fun_sum fun i _ => (h1 i j).const_mul (Fᵀ p i)).mul_const (F j q)
    simpa only [mul_apply] using h3
  have hdet : (Fᵀ * (A t)⁻¹ * F).det ≠ 0 := by
    rw [trend_gram hch hq, det_mul, det_transpose]
    exact mul_ne_zero hG.ne_zero hG.ne_zero
  refine (hasDerivAt_log_det h2 hdet).congr_deriv ?_
  rw [← trend_term hch hq hG, Matrix.mul_neg, Matrix.neg_mul, Matrix.mul_neg, trace_neg]
  congr 1
  rw [trace_mul_comm]
  have e : Fᵀ * ((A t)⁻¹ * A' * (A t)⁻¹) * F * (Fᵀ * (A t)⁻¹ * F)⁻¹ =
      (Fᵀ * (A t)⁻¹) * (A' * ((A t)⁻¹ * F * (Fᵀ * (A t)⁻¹ * F)⁻¹)) := by simp only [Matrix.mul_assoc]
  rw [e, trace_mul_comm, Matrix.mul_assoc, trace_mul_comm]

end Verif.Proofs
