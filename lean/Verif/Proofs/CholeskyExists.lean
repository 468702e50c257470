import Verif.Spec.Gpr
import Mathlib.Analysis.Matrix.LDL
import Mathlib.LinearAlgebra.Matrix.Block

/-!
# Positive definite matrices have Cholesky factors
-/
namespace Verif.Proofs

open Matrix Verif.Spec

variable {N : ℕ}

theorem cholesky_exists {S : Matrix (Fin N) (Fin N) ℝ} (hsym : ∀ i j, S i j = S j i) (hpos : ∀ w : Fin N → ℝ, w ≠ 0 → 0 < w ⬝ᵥ (S *ᵥ w)) :
    ∃ L, IsCholesky S L := by
  have hS : S.PosDef := by
    refine posDef_iff_dotProduct_mulVec.2 ⟨?_, fun x hx => ?_⟩
    · ext i j; simp [hsym i j]
    · have := hpos x hx
      simpa using this
  have hBu : IsUnit (LDL.lowerInv hS).det := (isUnit_iff_isUnit_det _).1 (isUnit_of_invertible _)
  have hAlow : ∀ i j : Fin N, i < j → LDL.lower hS i j = 0 := by
    intro i j hij
    have hb : (LDL.lowerInv hS).BlockTriangular OrderDual.toDual := fun a b hab => LDL.lowerInv_triangular hS hab
    exact blockTriangular_inv_of_blockTriangular hb hij
  have hd : ∀ i, 0 < LDL.diagEntries hS i := by
    intro i
    have h1 : LDL.diagEntries hS i = (LDL.lowerInv hS * S * (LDL.lowerInv hS)ᴴ) i i := by
      rw [← LDL.diag_eq_lowerInv_conj, LDL.diag, diagonal_apply_eq]
    have h2 : (LDL.lowerInv hS * S * (LDL.lowerInv hS)ᴴ) i i = (LDL.lowerInv hS i) ⬝ᵥ (S *ᵥ (LDL.lowerInv hS i)) := by
      rw [Matrix.mul_assoc, mul_apply]
      rfl
    rw [h1, h2]
    refine hpos _ fun h0 => ?_
    have : (LDL.lowerInv hS).det = 0 := det_eq_zero_of_row_eq_zero i fun j => congrFun h0 j
    rw [this] at hBu
    exact not_isUnit_zero hBu
  have hmul : LDL.lower hS * diagonal (LDL.diagEntries hS) * (LDL.lower hS)ᵀ = S := LDL.lower_conj_diag hS
  have hAu : (LDL.lower hS).det ≠ 0 := by
    intro h0
    have := congrArg det hmul
    rw [det_mul, det_mul, h0, zero_mul, zero_mul] at this
    have h1 : IsUnit S.det := hS.det_pos.ne'.isUnit
    rw [← this] at h1
    exact not_isUnit_zero h1
  have hdiag : ∀ i, LDL.lower hS i i ≠ 0 := by
    have e : (LDL.lower hS).det = ∏ i, LDL.lower hS i i := det_of_isLowerTriangular _ (fun i j hij => hAlow i j hij)
    rw [e] at hAu
    exact fun i => Finset.prod_ne_zero_iff.1 hAu i (Finset.mem_univ i)
  refine ⟨LDL.lower hS * diagonal (fun i => Real.sqrt (LDL.diagEntries hS i) * SignType.sign (LDL.lower hS i i)), ?_, ?_, ?_⟩
  · intro i j hij
    rw [mul_diagonal, hAlow i j hij, zero_mul]
  · intro i
    rw [mul_diagonal]
    have h1 : 0 < Real.sqrt (LDL.diagEntries hS i) := Real.sqrt_pos.2 (hd i)
    have h2 : LDL.lower hS i i * (SignType.sign (LDL.lower hS i i) : ℝ) = |LDL.lower hS i i| := by
      rw [mul_comm, sign_mul_self]
    have h3 := abs_pos.2 (hdiag i)
    calc 0 < Real.sqrt (LDL.diagEntries hS i) * |LDL.lower hS i i| := mul_pos h1 h3
      _ = _ := by rw [← h2]; ring
  · rw [transpose_mul, diagonal_transpose, Matrix.mul_assoc, ← Matrix.mul_assoc (diagonal _), diagonal_mul_diagonal, ← Matrix.mul_assoc]
    have e : (fun i => Real.sqrt (LDL.diagEntries hS i) * (SignType.sign (LDL.lower hS i i) : ℝ) *
        (Real.sqrt (LDL.diagEntries hS i) * (SignType.sign (LDL.lower hS i i) : ℝ))) = LDL.diagEntries hS := by
      funext i
      have h1 := Real.mul_self_sqrt (hd i).le
      have h2 : (SignType.sign (LDL.lower hS i i) : ℝ) * (SignType.sign (LDL.lower hS i i) : ℝ) = 1 := by
        rcases lt_or_gt_of_ne (hdiag i) with h | h
        · rw [sign_neg h]; norm_num
        · rw [sign_pos h]; norm_num
      calc _ = (Real.sqrt (LDL.diagEntries hS i) * Real.sqrt (LDL.diagEntries hS i)) *
            ((SignType.sign (LDL.lower hS i i) : ℝ) * (SignType.sign (LDL.lower hS i i) : ℝ)) := by ring
        _ = _ := by rw [h1, h2, mul_one]
    rw [e, hmul]

open Classical in
/-- A routine that finds every Cholesky factor. -/
noncomputable def idealChol (A : Matrix (Fin N) (Fin N) ℝ) : Option (Matrix (Fin N) (Fin N) ℝ) :=
  if h : ∃ L, IsCholesky A L then some h.choose else none

theorem idealChol_routine : CholeskyRoutine (idealChol (N := N)) := by
  intro A L h
  unfold idealChol at h
  split_ifs at h with hex
  · cases Option.some.inj h
    exact hex.choose_spec

theorem idealChol_complete {A : Matrix (Fin N) (Fin N) ℝ} (h : ∃ L, IsCholesky A L) : (idealChol A).isSome := by
  unfold idealChol
  rw [dif_pos h]; rfl

end Verif.Proofs
