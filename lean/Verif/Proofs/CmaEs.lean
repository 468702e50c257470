import Verif.Model.CmaEs
import Verif.Spec.CmaEs
import Verif.Spec.Kernels
import Verif.Proofs.BoxConstraint
import Mathlib.Algebra.Order.Chebyshev
import Mathlib.LinearAlgebra.Matrix.NonsingularInverse
import Mathlib.Analysis.Complex.ExponentialBounds

/-!
# Lemmas about the CMA-ES
-/
namespace Verif.Proofs

open Matrix Verif.Model Verif.Spec

variable {d l : ℕ}

/-! ### Strategy parameters -/

theorem cma_mu_pos (hl : 2 ≤ l) : 0 < cmaMu l := by
  have : (2 : ℝ) ≤ l := by exact_mod_cast hl
  exact Nat.ceil_pos.2 (by linarith)

theorem cma_lt_mu {i : ℕ} (h : i < cmaMu l) : (i : ℝ) + 1 < ((l : ℝ) - 1) / 2 + 1 := by
  have := Nat.lt_ceil.1 h
  linarith

theorem cma_mu_le (hl : 2 ≤ l) : cmaMu l ≤ l := by
  refine Nat.ceil_le.2 ?_
  have : (2 : ℝ) ≤ l := by exact_mod_cast hl
  linarith

theorem cma_raw_pos {i : ℕ} (h : i < cmaMu l) : 0 < cmaRawWeight l i := by
  have h1 := cma_lt_mu h
  have h2 : (0 : ℝ) < (i : ℝ) + 1 := by positivity
  exact sub_pos.2 (Real.log_lt_log h2 h1)

theorem cma_raw_sum_pos (hl : 2 ≤ l) : 0 < ∑ j ∈ Finset.range (cmaMu l), cmaRawWeight l j :=
  Finset.sum_pos (fun i hi => cma_raw_pos (Finset.mem_range.1 hi)) ⟨0, Finset.mem_range.2 (cma_mu_pos hl)⟩

theorem cma_weight_pos (hl : 2 ≤ l) {i : ℕ} (h : i < cmaMu l) : 0 < cmaWeight l i := div_pos (cma_raw_pos h) (cma_raw_sum_pos hl)

theorem cma_weight_anti (hl : 2 ≤ l) {i j : ℕ} (h : i < j) : cmaWeight l j < cmaWeight l i := by
  refine div_lt_div_of_pos_right (sub_lt_sub_left (Real.log_lt_log (by positivity) ?_) _) (cma_raw_sum_pos hl)
  have : (i : ℝ) < j := by exact_mod_cast h
  linarith

theorem cma_weight_sum (hl : 2 ≤ l) : ∑ j ∈ Finset.range (cmaMu l), cmaWeight l j = 1 := by
  unfold cmaWeight
  simp only [div_eq_mul_inv]
  rw [← Finset.sum_mul, mul_inv_cancel₀ (cma_raw_sum_pos hl).ne']

theorem cma_mueff_bounds (hl : 2 ≤ l) : 1 ≤ cmaMueff l ∧ cmaMueff l ≤ cmaMu l := by
  have hsum := cma_weight_sum hl
  have hsq : 0 < ∑ j ∈ Finset.range (cmaMu l), cmaWeight l j ^ 2 :=
    Finset.sum_pos (fun i hi => pow_pos (cma_weight_pos hl (Finset.mem_range.1 hi)) 2) ⟨0, Finset.mem_range.2 (cma_mu_pos hl)⟩
  unfold cmaMueff
  constructor
  · rw [le_div_iff₀ hsq, hsum, one_mul, one_pow]
    calc ∑ j ∈ Finset.range (cmaMu l), cmaWeight l j ^ 2 ≤ ∑ j ∈ Finset.range (cmaMu l), cmaWeight l j := by
          refine Finset.sum_le_sum fun i hi => ?_
          have h0 := (cma_weight_pos hl (Finset.mem_range.1 hi)).le
          have h1 : cmaWeight l i ≤ 1 := by
            rw [← hsum]
            exact Finset.single_le_sum (fun j hj => (cma_weight_pos hl (Finset.mem_range.1 hj)).le) hi
          nlinarith
      _ = 1 := hsum
  · rw [div_le_iff₀ hsq]
    have := sq_sum_le_card_mul_sum_sq (s := Finset.range (cmaMu l)) (f := fun j => cmaWeight l j)
    simpa using this

theorem cma_c1_bounds (hl : 2 ≤ l) : 0 < cmaC1 d l ∧ cmaC1 d l ≤ 2 / (((d : ℝ) + 1.3) ^ 2 + cmaMueff l) := by
  have hm := (cma_mueff_bounds hl).1
  have hd : (0 : ℝ) < ((d : ℝ) + 1.3) ^ 2 + cmaMueff l := by positivity
  have hl' : (0 : ℝ) < l := by exact_mod_cast (by omega : 0 < l)
  unfold cmaC1
  split_ifs
  · exact ⟨div_pos (lt_min (by norm_num) (by positivity)) hd, div_le_div_of_nonneg_right (min_le_left _ _) hd.le⟩
  · exact ⟨by positivity, le_rfl⟩

theorem cma_c1_lt (hd : 1 ≤ d) (hl : 2 ≤ l) : cmaC1 d l < 1 / 3 := by
  have hm := (cma_mueff_bounds hl).1
  have hd' : (1 : ℝ) ≤ d := by exact_mod_cast hd
  refine lt_of_le_of_lt (cma_c1_bounds hl).2 ?_
  rw [div_lt_iff₀ (by positivity)]
  nlinarith

theorem cma_cmu_nonneg (hd : 1 ≤ d) (hl : 2 ≤ l) : 0 ≤ cmaCmu d l := by
  have hm := (cma_mueff_bounds hl).1
  refine le_min (by have := cma_c1_lt hd hl; linarith) (div_nonneg ?_ (by positivity))
  have : cmaMueff l - 2 + 1 / cmaMueff l = (cmaMueff l - 1) ^ 2 / cmaMueff l := by field_simp; ring
  rw [this]
  positivity

theorem cma_rates_le (d l : ℕ) : cmaC1 d l + cmaCmu d l ≤ 1 := by
  have : cmaCmu d l ≤ 1 - cmaC1 d l := min_le_left _ _
  linarith

theorem cma_cc_bounds (hd : 1 ≤ d) (hl : 2 ≤ l) : 0 < cmaCc d l ∧ cmaCc d l ≤ 1 := by
  have hm := (cma_mueff_bounds hl).1
  have hd' : (1 : ℝ) ≤ d := by exact_mod_cast hd
  have h1 : 0 ≤ cmaMueff l / d := by positivity
  have h2 : 2 * cmaMueff l / d = 2 * (cmaMueff l / d) := by ring
  unfold cmaCc
  rw [h2]
  exact ⟨by positivity, by rw [div_le_one (by positivity)]; linarith⟩

theorem cma_cs_bounds (hl : 2 ≤ l) : 0 < cmaCs d l ∧ cmaCs d l < 1 := by
  have hm := (cma_mueff_bounds hl).1
  unfold cmaCs
  exact ⟨by positivity, by rw [div_lt_one (by positivity)]; linarith [(Nat.cast_nonneg d : (0 : ℝ) ≤ d)]⟩

theorem cma_damps_pos (hl : 2 ≤ l) : 0 < cmaDamps d l := by
  have hm := (cma_mueff_bounds hl).1
  have hc := (cma_cs_bounds (d := d) hl).1
  unfold cmaDamps
  split_ifs
  · positivity
  · have := le_max_left (0 : ℝ) (Real.sqrt ((cmaMueff l - 1) / ((d : ℝ) + 1)) - 1)
    linarith

theorem cma_lambda_ge (d : ℕ) : 2 ≤ cmaLambda d := by unfold cmaLambda; omega

/-- With the default number of offspring the old matrix keeps a positive weight. -/
theorem cma_default_rates (hd : 1 ≤ d) : cmaC1 d (cmaLambda d) + cmaCmu d (cmaLambda d) < 1 := by
  have hl := cma_lambda_ge d
  obtain ⟨hm1, hm2⟩ := cma_mueff_bounds hl
  have hd' : (1 : ℝ) ≤ d := by exact_mod_cast hd
  have hc := cma_c1_lt hd hl
  have hfl : (⌊3 * Real.log d⌋₊ : ℝ) ≤ 3 * ((d : ℝ) - 1) := by
    have h1 := Nat.floor_le (a := 3 * Real.log d) (mul_nonneg (by norm_num) (Real.log_nonneg hd'))
    have h2 := Real.log_le_sub_one_of_pos (show (0 : ℝ) < d by linarith)
    linarith
  have hmu : (cmaMu (cmaLambda d) : ℝ) ≤ (cmaLambda d : ℝ) / 2 + 1 / 2 := by
    have := Nat.ceil_lt_add_one (a := ((cmaLambda d : ℝ) - 1) / 2) (by
      have : (2 : ℝ) ≤ cmaLambda d := by exact_mod_cast hl
      linarith)
    unfold cmaMu
    linarith
  have hlam : (cmaLambda d : ℝ) = 4 + ⌊3 * Real.log d⌋₊ := by simp [cmaLambda]
  have hme : cmaMueff (cmaLambda d) ≤ 1.5 * d + 1 := by
    rw [hlam] at hmu
    norm_num
    linarith
  have hle : cmaCmu d (cmaLambda d) ≤ 2 * (cmaMueff (cmaLambda d) - 2 + 1 / cmaMueff (cmaLambda d)) / (((d : ℝ) + 2) ^ 2 + cmaMueff (cmaLambda d)) :=
    min_le_right _ _
  have h23 : 2 * (cmaMueff (cmaLambda d) - 2 + 1 / cmaMueff (cmaLambda d)) / (((d : ℝ) + 2) ^ 2 + cmaMueff (cmaLambda d)) ≤ 2 / 3 := by
    rw [div_le_iff₀ (by positivity)]
    have h1 : 1 / cmaMueff (cmaLambda d) ≤ 1 := by rw [div_le_one (by linarith)]; exact hm1
    norm_num at hme
    nlinarith
  linarith

/-! ### Points -/

theorem reflect_between {a b : ℝ} (h : a ≠ b) (x : ℝ) : min a b ≤ reflect a b x ∧ reflect a b x ≤ max a b := by
  rw [reflect_eq]
  have h0 := fold_nonneg ((x - a) / (b - a))
  have h1 := fold_le_one ((x - a) / (b - a))
  rcases lt_or_gt_of_ne h with hab | hab
  · rw [min_eq_left hab.le, max_eq_right hab.le]
    constructor <;> nlinarith
  · rw [min_eq_right hab.le, max_eq_left hab.le]
    constructor <;> nlinarith

theorem sum_fin_mu (hl : 2 ≤ l) (g : ℕ → ℝ) : (∑ j : Fin l, if j.val < cmaMu l then g j else 0) = ∑ j ∈ Finset.range (cmaMu l), g j := by
  rw [Fin.sum_univ_eq_sum_range (fun j => if j < cmaMu l then g j else 0) l, ← Finset.sum_filter]
  congr 1
  ext j
  have := cma_mu_le hl
  simp only [Finset.mem_filter, Finset.mem_range]
  omega

theorem cma_mean_between (hl : 2 ≤ l) {lb ub : Fin d → ℝ} {x : Fin l → Fin d → ℝ} (hx : ∀ j, Between lb ub (x j)) (r : Fin l → Fin l) :
    Between lb ub (cmaMean x r) := by
  intro i
  have hone := cma_weight_sum hl
  rw [← sum_fin_mu hl] at hone
  constructor
  · calc min (lb i) (ub i) = ∑ j : Fin l, (if j.val < cmaMu l then cmaWeight l j else 0) * min (lb i) (ub i) := by rw [← Finset.sum_mul, hone, one_mul]
      _ ≤ _ := Finset.sum_le_sum fun j _ => by
        split_ifs with hj
        · exact mul_le_mul_of_nonneg_left (hx _ i).1 (cma_weight_pos hl hj).le
        · simp
  · calc cmaMean x r i ≤ ∑ j : Fin l, (if j.val < cmaMu l then cmaWeight l j else 0) * max (lb i) (ub i) := Finset.sum_le_sum fun j _ => by
          split_ifs with hj
          · exact mul_le_mul_of_nonneg_left (hx _ i).2 (cma_weight_pos hl hj).le
          · simp
      _ = _ := by rw [← Finset.sum_mul, hone, one_mul]

/-! ### Covariance matrix -/

theorem posDef_one : IsPositiveDefinite (fun i j => (1 : Matrix (Fin d) (Fin d) ℝ) i j) := by
  refine ⟨fun i j => by simp [one_apply, eq_comm], fun w hw => ?_⟩
  have h : ∑ i, ∑ j, w i * w j * (1 : Matrix (Fin d) (Fin d) ℝ) i j = ∑ i, w i ^ 2 := by
    refine Finset.sum_congr rfl fun i _ => ?_
    simp [one_apply, sq]
  rw [h]
  obtain ⟨i, hi⟩ := Function.ne_iff.1 hw
  exact Finset.sum_pos' (fun j _ => sq_nonneg _) ⟨i, Finset.mem_univ i, by positivity [show w i ≠ 0 from hi]⟩

theorem quad_rank_one (w v : Fin d → ℝ) : ∑ i, ∑ j, w i * w j * (v i * v j) = (∑ i, w i * v i) ^ 2 := by
  rw [sq, Finset.sum_mul_sum]
  exact Finset.sum_congr rfl fun i _ => Finset.sum_congr rfl fun j _ => by ring

/-- A combination with non-negative coefficients of a positive definite matrix (with a positive one) and of products of vectors is positive definite. -/
theorem posDef_combination {C : Matrix (Fin d) (Fin d) ℝ} (hC : IsPositiveDefinite (fun i j => C i j)) {a b c e : ℝ} (ha : 0 < a) (hb : 0 ≤ b) (he : 0 ≤ e)
    (hc : 0 ≤ c) (p : Fin d → ℝ) {w : Fin l → ℝ} (hw : ∀ j, 0 ≤ w j) (o : Fin l → Fin d → ℝ) :
    IsPositiveDefinite (fun i j => a * C i j + b * (p i * p j + e * C i j) + c * ∑ t, w t * (o t i * o t j)) := by
  obtain ⟨hsym, hpos⟩ := hC
  simp only at hsym hpos
  refine ⟨fun i j => ?_, fun v hv => ?_⟩
  · simp only [hsym i j, mul_comm (p i), mul_comm (o _ i)]
  · have h : ∑ i, ∑ j, v i * v j * (a * C i j + b * (p i * p j + e * C i j) + c * ∑ t, w t * (o t i * o t j)) =
        (a + b * e) * ∑ i, ∑ j, v i * v j * C i j + b * (∑ i, v i * p i) ^ 2 + c * ∑ t, w t * (∑ i, v i * o t i) ^ 2 := by
      simp only [← quad_rank_one]
      simp only [Finset.mul_sum]
      have e1 : ∑ t, ∑ i, ∑ j, c * (w t * (v i * v j * (o t i * o t j))) = ∑ i, ∑ j, ∑ t, c * (w t * (v i * v j * (o t i * o t j))) := by
        rw [Finset.sum_comm]
        exact Finset.sum_congr rfl fun i _ => Finset.sum_comm
      rw [e1, ← Finset.sum_add_distrib, ← Finset.sum_add_distrib]
      refine Finset.sum_congr rfl fun i _ => ?_
      rw [← Finset.sum_add_distrib, ← Finset.sum_add_distrib]
      refine Finset.sum_congr rfl fun j _ => ?_
      have e2 : ∑ t, c * (w t * (v i * v j * (o t i * o t j))) = v i * v j * ∑ t, c * (w t * (o t i * o t j)) := by
        rw [Finset.mul_sum]
        exact Finset.sum_congr rfl fun t _ => by ring
      rw [e2]
      ring
    rw [h]
    have h1 := hpos v hv
    have h2 : 0 ≤ ∑ t, w t * (∑ i, v i * o t i) ^ 2 := Finset.sum_nonneg fun t _ => mul_nonneg (hw t) (sq_nonneg _)
    have h3 : 0 < a + b * e := by positivity
    have h4 := mul_pos h3 h1
    have h5 : 0 ≤ b * (∑ i, v i * p i) ^ 2 := by positivity
    have h6 := mul_nonneg hc h2
    linarith

theorem cma_hsig_range (d l n : ℕ) (ps : Fin d → ℝ) : 0 ≤ 1 - cmaHsig d l n ps := by
  unfold cmaHsig
  split_ifs <;> norm_num

/-- The update keeps the matrix symmetric and positive definite if the old matrix has a positive weight. -/
theorem cma_update_posDef (hd : 1 ≤ d) (hl : 2 ≤ l) (hr : cmaC1 d l + cmaCmu d l < 1) {s : CmaEsState d} (hC : IsPositiveDefinite (fun i j => s.C i j))
    (wcm : Fin d → ℝ) (x : Fin l → Fin d → ℝ) (r : Fin l → Fin l) (n : ℕ) :
    IsPositiveDefinite (fun i j => (cmaUpdate s wcm x r n).C i j) := by
  have hc1 := (cma_c1_bounds (d := d) hl).1
  have hcm := cma_cmu_nonneg hd hl
  obtain ⟨hcc0, hcc1⟩ := cma_cc_bounds hd hl
  have h := posDef_combination hC (a := 1 - cmaC1 d l - cmaCmu d l) (b := cmaC1 d l)
    (e := (1 - cmaHsig d l n (cmaUpdate s wcm x r n).ps) * cmaCc d l * (2 - cmaCc d l)) (c := cmaCmu d l) (by linarith) hc1.le
    (mul_nonneg (mul_nonneg (cma_hsig_range _ _ _ _) hcc0.le) (by linarith)) hcm (cmaUpdate s wcm x r n).pc
    (w := fun j : Fin l => if j.val < cmaMu l then cmaWeight l j else 0) (fun j => by split_ifs with h; exacts [(cma_weight_pos hl h).le, le_rfl])
    (fun j i => (x (r j) i - s.wcm i) / s.sigma)
  convert h using 3 with i j
  simp only [cmaUpdate, of_apply]
  congr 2
  refine Finset.sum_congr rfl fun t _ => ?_
  split_ifs <;> ring

/-! ### Eigenvectors -/

theorem cma_symmetrise {C : Matrix (Fin d) (Fin d) ℝ} (h : ∀ i j, C i j = C j i) : cmaSymmetrise C = C := by
  ext i j
  simp only [cmaSymmetrise, of_apply]
  split_ifs
  · rfl
  · exact h j i

theorem eigenvalue_pos {M B : Matrix (Fin d) (Fin d) ℝ} {w : Fin d → ℝ} (hM : IsPositiveDefinite (fun i j => M i j)) (hB : Bᵀ * B = 1)
    (h : B * diagonal w * Bᵀ = M) (i : Fin d) : 0 < w i := by
  have h1 : (Bᵀ * M * B) i i = w i := by
    rw [← h]
    have : Bᵀ * (B * diagonal w * Bᵀ) * B = (Bᵀ * B) * diagonal w * (Bᵀ * B) := by simp only [Matrix.mul_assoc]
    rw [this, hB, Matrix.one_mul, Matrix.mul_one, diagonal_apply_eq]
  have h2 : (Bᵀ * M * B) i i = ∑ a, ∑ b, B a i * B b i * M a b := by
    rw [mul_apply]
    simp only [mul_apply, transpose_apply, Finset.sum_mul]
    rw [Finset.sum_comm]
    exact Finset.sum_congr rfl fun a _ => Finset.sum_congr rfl fun b _ => by ring
  rw [← h1, h2]
  refine hM.2 (fun a => B a i) fun h0 => ?_
  have h3 : (Bᵀ * B) i i = 0 := by
    rw [mul_apply]
    refine Finset.sum_eq_zero fun a _ => ?_
    rw [show B a i = 0 from congrFun h0 a, mul_zero]
  rw [hB, one_apply_eq] at h3
  exact one_ne_zero h3

theorem samples_one : Samples (1 : Matrix (Fin d) (Fin d) ℝ) (fun _ => 1) 1 1 :=
  ⟨by rw [show (diagonal fun _ : Fin d => (1 : ℝ)) = 1 from diagonal_one]; simp, by simp, by simp⟩

theorem samples_eigen {M B : Matrix (Fin d) (Fin d) ℝ} {w : Fin d → ℝ} (hw : ∀ i, 0 < w i) (hB : Bᵀ * B = 1) (h : B * diagonal w * Bᵀ = M) :
    Samples B (fun i => Real.sqrt (w i)) (B * (diagonal fun i => (Real.sqrt (w i))⁻¹) * Bᵀ) M := by
  have hB' : B * Bᵀ = 1 := mul_eq_one_comm.1 hB
  refine ⟨?_, ?_, ?_⟩
  · rw [transpose_mul, diagonal_transpose, Matrix.mul_assoc, ← Matrix.mul_assoc (diagonal _) (diagonal _), diagonal_mul_diagonal, ← h, Matrix.mul_assoc]
    simp only [Real.mul_self_sqrt (hw _).le]
  · rw [transpose_mul, transpose_mul, transpose_transpose, diagonal_transpose, Matrix.mul_assoc]
  · rw [← h]
    have e : B * (diagonal fun i => (Real.sqrt (w i))⁻¹) * Bᵀ * (B * diagonal w * Bᵀ) * (B * (diagonal fun i => (Real.sqrt (w i))⁻¹) * Bᵀ) =
        B * ((diagonal fun i => (Real.sqrt (w i))⁻¹) * (Bᵀ * B) * diagonal w * (Bᵀ * B) * (diagonal fun i => (Real.sqrt (w i))⁻¹)) * Bᵀ := by
      simp only [Matrix.mul_assoc]
    rw [e, hB, Matrix.mul_one, Matrix.mul_one, diagonal_mul_diagonal, diagonal_mul_diagonal]
    have : (fun i => (Real.sqrt (w i))⁻¹ * w i * (Real.sqrt (w i))⁻¹) = fun _ : Fin d => (1 : ℝ) := by
      funext i
      have h1 := Real.mul_self_sqrt (hw i).le
      have h2 := (Real.sqrt_pos.2 (hw i)).ne'
      field_simp
      rw [sq, h1]
    rw [this, show (diagonal fun _ : Fin d => (1 : ℝ)) = 1 from diagonal_one, Matrix.mul_one, hB']

theorem update_bd_samples {eigh : Matrix (Fin d) (Fin d) ℝ → (Fin d → ℝ) × Matrix (Fin d) (Fin d) ℝ} (he : EigenRoutine eigh) {s : CmaEsState d}
    (hC : IsPositiveDefinite (fun i j => s.C i j)) :
    Samples (cmaUpdateBD eigh s).eVector (cmaUpdateBD eigh s).eValue (cmaUpdateBD eigh s).invsqrtC s.C ∧ (cmaUpdateBD eigh s).C = s.C ∧
      (cmaUpdateBD eigh s).wcm = s.wcm ∧ (cmaUpdateBD eigh s).sigma = s.sigma ∧ (cmaUpdateBD eigh s).xopt = s.xopt ∧
      (cmaUpdateBD eigh s).fopt = s.fopt ∧ (cmaUpdateBD eigh s).evalCount = s.evalCount := by
  obtain ⟨hB, hM⟩ := he s.C hC.1
  have hw := fun i => eigenvalue_pos hC hB hM i
  unfold cmaUpdateBD
  simp only [cma_symmetrise (C := s.C) hC.1]
  rw [if_neg (by push Not; exact fun i => (hw i).le)]
  exact ⟨samples_eigen hw hB hM, rfl, rfl, rfl, rfl, rfl, rfl⟩

end Verif.Proofs
