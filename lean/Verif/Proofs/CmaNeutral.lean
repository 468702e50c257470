import Verif.Proofs.CmaEs
import Verif.Spec.CmaNeutral

/-!
# Lemmas about the first two moments of a step of the CMA-ES
-/
namespace Verif.Proofs

open Matrix MeasureTheory Verif.Model Verif.Spec

variable {Ω : Type*} [MeasurableSpace Ω] {P : Measure Ω} {d l : ℕ} {z : Ω → Fin l → Fin d → ℝ}

/-- A linear combination of the random numbers. -/
def noiseSum (z : Ω → Fin l → Fin d → ℝ) (c : Fin l → Fin d → ℝ) (ω : Ω) : ℝ := ∑ j, ∑ a, c j a * z ω j a

theorem ranked_noise (h : UnitNoise P z) {r : Fin l → Fin l} (hr : Function.Injective r) : UnitNoise P (fun ω j => z ω (r j)) :=
  ⟨fun _ a => h.integrable _ a, fun _ a => h.mean _ a, fun j a k b => h.integrable_mul _ a _ b,
    fun j a k b => by rw [h.second]; simp only [hr.eq_iff]⟩

theorem ranked_path {p : Ω → Fin d → ℝ} (h : Unrelated P p z) (r : Fin l → Fin l) : Unrelated P p (fun ω j => z ω (r j)) :=
  ⟨h.square, fun a _ b => h.integrable a _ b, fun a _ b => h.mean a _ b⟩

theorem noiseSum_integrable (h : UnitNoise P z) (c : Fin l → Fin d → ℝ) : Integrable (noiseSum z c) P :=
  integrable_finsetSum _ fun j _ => integrable_finsetSum _ fun a _ => (h.integrable j a).const_mul _

theorem noiseSum_mean (h : UnitNoise P z) (c : Fin l → Fin d → ℝ) : ∫ ω, noiseSum z c ω ∂P = 0 := by
  unfold noiseSum
  rw [integral_finsetSum _ fun j _ => integrable_finsetSum _ fun a _ => (h.integrable j a).const_mul _]
  refine Finset.sum_eq_zero fun j _ => ?_
  rw [integral_finsetSum _ fun a _ => (h.integrable j a).const_mul _]
  exact Finset.sum_eq_zero fun a _ => by rw [integral_const_mul, h.mean, mul_zero]

omit [MeasurableSpace Ω] in
theorem noiseSum_mul (z : Ω → Fin l → Fin d → ℝ) (c e : Fin l → Fin d → ℝ) (ω : Ω) :
    noiseSum z c ω * noiseSum z e ω = ∑ j, ∑ a, ∑ k, ∑ b, c j a * e k b * (z ω j a * z ω k b) := by
  unfold noiseSum
  rw [Finset.sum_mul]
  refine Finset.sum_congr rfl fun j _ => ?_
  rw [Finset.sum_mul]
  refine Finset.sum_congr rfl fun a _ => ?_
  rw [Finset.mul_sum]
  refine Finset.sum_congr rfl fun k _ => ?_
  rw [Finset.mul_sum]
  exact Finset.sum_congr rfl fun b _ => by ring

theorem noiseSum_mul_integrable (h : UnitNoise P z) (c e : Fin l → Fin d → ℝ) : Integrable (fun ω => noiseSum z c ω * noiseSum z e ω) P := by
  simp only [noiseSum_mul]
  exact integrable_finsetSum _ fun j _ => integrable_finsetSum _ fun a _ => integrable_finsetSum _ fun k _ => integrable_finsetSum _ fun b _ =>
    (h.integrable_mul j a k b).const_mul _

theorem noiseSum_second (h : UnitNoise P z) (c e : Fin l → Fin d → ℝ) : ∫ ω, noiseSum z c ω * noiseSum z e ω ∂P = ∑ j, ∑ a, c j a * e j a := by
  simp only [noiseSum_mul]
  have hi := fun j a k b => (h.integrable_mul j a k b).const_mul (c j a * e k b)
  rw [integral_finsetSum _ fun j _ => integrable_finsetSum _ fun a _ => integrable_finsetSum _ fun k _ => integrable_finsetSum _ fun b _ => hi j a k b]
  refine Finset.sum_congr rfl fun j _ => ?_
  rw [integral_finsetSum _ fun a _ => integrable_finsetSum _ fun k _ => integrable_finsetSum _ fun b _ => hi j a k b]
  refine Finset.sum_congr rfl fun a _ => ?_
  rw [integral_finsetSum _ fun k _ => integrable_finsetSum _ fun b _ => hi j a k b]
  rw [Finset.sum_eq_single j]
  · rw [integral_finsetSum _ fun b _ => hi j a j b, Finset.sum_eq_single a]
    · rw [integral_const_mul, h.second]; simp
    · intro b _ hb
      rw [integral_const_mul, h.second, if_neg (fun hh => hb hh.2.symm), mul_zero]
    · simp
  · intro k _ hk
    rw [integral_finsetSum _ fun b _ => hi j a k b]
    exact Finset.sum_eq_zero fun b _ => by rw [integral_const_mul, h.second, if_neg (fun hh => hk hh.1.symm), mul_zero]
  · simp

theorem path_noiseSum {p : Ω → Fin d → ℝ} (h : Unrelated P p z) (a : Fin d) (c : Fin l → Fin d → ℝ) :
    Integrable (fun ω => p ω a * noiseSum z c ω) P ∧ ∫ ω, p ω a * noiseSum z c ω ∂P = 0 := by
  have e : (fun ω => p ω a * noiseSum z c ω) = fun ω => ∑ j, ∑ b, c j b * (p ω a * z ω j b) := by
    funext ω
    unfold noiseSum
    rw [Finset.mul_sum]
    refine Finset.sum_congr rfl fun j _ => ?_
    rw [Finset.mul_sum]
    exact Finset.sum_congr rfl fun b _ => by ring
  rw [e]
  have hi := fun j b => (h.integrable a j b).const_mul (c j b)
  refine ⟨integrable_finsetSum _ fun j _ => integrable_finsetSum _ fun b _ => hi j b, ?_⟩
  rw [integral_finsetSum _ fun j _ => integrable_finsetSum _ fun b _ => hi j b]
  refine Finset.sum_eq_zero fun j _ => ?_
  rw [integral_finsetSum _ fun b _ => hi j b]
  exact Finset.sum_eq_zero fun b _ => by rw [integral_const_mul, h.mean, mul_zero]

/-- A path that fades by `1 - q` and gets a step of variance `V`. -/
theorem path_second (h : UnitNoise P z) {p : Ω → Fin d → ℝ} (hp : Unrelated P p z) (q κ : ℝ) (a b : Fin d) (c e : Fin l → Fin d → ℝ) :
    Integrable (fun ω => (q * p ω a + κ * noiseSum z c ω) * (q * p ω b + κ * noiseSum z e ω)) P ∧
    ∫ ω, (q * p ω a + κ * noiseSum z c ω) * (q * p ω b + κ * noiseSum z e ω) ∂P =
      q ^ 2 * ∫ ω, p ω a * p ω b ∂P + κ ^ 2 * ∑ j, ∑ i, c j i * e j i := by
  have e1 : (fun ω => (q * p ω a + κ * noiseSum z c ω) * (q * p ω b + κ * noiseSum z e ω)) = fun ω =>
      q ^ 2 * (p ω a * p ω b) + κ ^ 2 * (noiseSum z c ω * noiseSum z e ω) + q * κ * (p ω a * noiseSum z e ω) + q * κ * (p ω b * noiseSum z c ω) := by
    funext ω; ring
  have i1 := (hp.square a b).const_mul (q ^ 2)
  have i2 := (noiseSum_mul_integrable h c e).const_mul (κ ^ 2)
  have i3 := (path_noiseSum hp a e).1.const_mul (q * κ)
  have i4 := (path_noiseSum hp b c).1.const_mul (q * κ)
  have i12 : Integrable (fun ω => q ^ 2 * (p ω a * p ω b) + κ ^ 2 * (noiseSum z c ω * noiseSum z e ω)) P := i1.add i2
  have i123 : Integrable (fun ω => q ^ 2 * (p ω a * p ω b) + κ ^ 2 * (noiseSum z c ω * noiseSum z e ω) + q * κ * (p ω a * noiseSum z e ω)) P :=
    i12.add i3
  rw [e1]
  refine ⟨i123.add i4, ?_⟩
  rw [integral_add i123 i4, integral_add i12 i3, integral_add i1 i2, integral_const_mul, integral_const_mul,
    integral_const_mul, integral_const_mul, (path_noiseSum hp a e).2, (path_noiseSum hp b c).2, noiseSum_second h]
  ring

/-! ### The step -/

/-- The weight of rank `j`; zero beyond the parents. -/
noncomputable def rankWeight (l : ℕ) (j : Fin l) : ℝ := if j.val < cmaMu l then cmaWeight l j else 0

theorem rankWeight_sum (hl : 2 ≤ l) : ∑ j : Fin l, rankWeight l j = 1 := by
  rw [← cma_weight_sum hl, ← sum_fin_mu hl]; rfl

theorem rankWeight_sq (hl : 2 ≤ l) : cmaMueff l * ∑ j : Fin l, rankWeight l j ^ 2 = 1 := by
  have hsq : 0 < ∑ j ∈ Finset.range (cmaMu l), cmaWeight l j ^ 2 :=
    Finset.sum_pos (fun i hi => pow_pos (cma_weight_pos hl (Finset.mem_range.1 hi)) 2) ⟨0, Finset.mem_range.2 (cma_mu_pos hl)⟩
  have e : ∑ j : Fin l, rankWeight l j ^ 2 = ∑ j ∈ Finset.range (cmaMu l), cmaWeight l j ^ 2 := by
    rw [← sum_fin_mu hl]
    refine Finset.sum_congr rfl fun j _ => ?_
    unfold rankWeight
    split_ifs <;> simp
  rw [e, cmaMueff, cma_weight_sum hl, one_pow, div_mul_cancel₀ _ hsq.ne']

theorem reflect_inside {a b x : ℝ} (h : a ≠ b) (h0 : min a b ≤ x) (h1 : x ≤ max a b) : reflect a b x = x := by
  rw [reflect_eq]
  have hw : b - a ≠ 0 := sub_ne_zero.2 (Ne.symm h)
  have hy : 0 ≤ (x - a) / (b - a) ∧ (x - a) / (b - a) ≤ 1 := by
    rcases lt_or_gt_of_ne h with hab | hab
    · rw [min_eq_left hab.le] at h0
      rw [max_eq_right hab.le] at h1
      have hp : 0 < b - a := by linarith
      exact ⟨div_nonneg (by linarith) hp.le, (div_le_one hp).2 (by linarith)⟩
    · rw [min_eq_right hab.le] at h0
      rw [max_eq_left hab.le] at h1
      have hp : b - a < 0 := by linarith
      exact ⟨div_nonneg_of_nonpos (by linarith) hp.le, (div_le_one_of_neg hp).2 (by linarith)⟩
  rw [fold_id hy.1 hy.2]
  field_simp
  ring

/-- The point before it is reflected into the box. -/
def rawPoint (s : CmaEsState d) (y : Fin d → ℝ) : Fin d → ℝ := fun i => s.wcm i + s.sigma * (s.eVector *ᵥ (fun a => s.eValue a * y a)) i

theorem offspring_inside {lb ub : Fin d → ℝ} (hb : ∀ i, lb i ≠ ub i) (s : CmaEsState d) {y : Fin l → Fin d → ℝ}
    (h : ∀ j, Between lb ub (rawPoint s (y j))) : cmaOffspring lb ub s y = fun j => rawPoint s (y j) :=
  funext fun j => funext fun i => reflect_inside (hb i) (h j i).1 (h j i).2

theorem mulVec_scaled (B : Matrix (Fin d) (Fin d) ℝ) (v y : Fin d → ℝ) (i : Fin d) :
    (B *ᵥ (fun a => v a * y a)) i = ∑ a, (B * diagonal v) i a * y a := by
  simp only [mulVec, dotProduct, mul_diagonal]
  exact Finset.sum_congr rfl fun a _ => by ring

theorem raw_offset (s : CmaEsState d) (hs : s.sigma ≠ 0) (y : Fin d → ℝ) (i : Fin d) :
    (rawPoint s y i - s.wcm i) / s.sigma = ∑ a, (s.eVector * diagonal s.eValue) i a * y a := by
  rw [← mulVec_scaled, rawPoint]
  field_simp
  ring

theorem mean_eq (hl : 2 ≤ l) (s : CmaEsState d) (y : Fin l → Fin d → ℝ) (r : Fin l → Fin l) (i : Fin d) :
    cmaMean (fun j => rawPoint s (y j)) r i = s.wcm i + s.sigma * ∑ j, ∑ a, rankWeight l j * (s.eVector * diagonal s.eValue) i a * y (r j) a := by
  have e : ∀ j : Fin l, (if j.val < cmaMu l then cmaWeight l j * rawPoint s (y (r j)) i else 0) =
      rankWeight l j * s.wcm i + s.sigma * ∑ a, rankWeight l j * (s.eVector * diagonal s.eValue) i a * y (r j) a := by
    intro j
    unfold rankWeight rawPoint
    rw [mulVec_scaled]
    split_ifs
    · simp only [mul_assoc, ← Finset.mul_sum]; ring
    · simp
  unfold cmaMean
  simp only [e]
  rw [Finset.sum_add_distrib, ← Finset.sum_mul, rankWeight_sum hl, one_mul, Finset.mul_sum]

theorem step_eq (hl : 2 ≤ l) (s : CmaEsState d) (hs : s.sigma ≠ 0) (y : Fin l → Fin d → ℝ) (r : Fin l → Fin l) (i : Fin d) :
    (cmaMean (fun j => rawPoint s (y j)) r i - s.wcm i) / s.sigma = ∑ j, ∑ a, rankWeight l j * (s.eVector * diagonal s.eValue) i a * y (r j) a := by
  rw [mean_eq hl]
  field_simp
  ring

theorem scaled_step (hl : 2 ≤ l) (s : CmaEsState d) (hs : s.sigma ≠ 0) (y : Fin l → Fin d → ℝ) (r : Fin l → Fin l) (J : Matrix (Fin d) (Fin d) ℝ)
    (i : Fin d) :
    (J *ᵥ fun i => (cmaMean (fun j => rawPoint s (y j)) r i - s.wcm i) / s.sigma) i =
      ∑ j, ∑ a, rankWeight l j * (J * (s.eVector * diagonal s.eValue)) i a * y (r j) a := by
  simp only [step_eq hl s hs]
  simp only [mulVec, dotProduct, Finset.mul_sum]
  rw [Finset.sum_comm]
  refine Finset.sum_congr rfl fun j _ => ?_
  rw [Finset.sum_comm]
  refine Finset.sum_congr rfl fun a _ => ?_
  rw [mul_apply, Finset.mul_sum, Finset.sum_mul]
  exact Finset.sum_congr rfl fun k _ => by ring

theorem generation_mean [NeZero l] (lb ub : Fin d → ℝ) (sigma0 ftarget : ℝ) (budget : ℕ) (f : (Fin d → ℝ) → ℝ) (rank : (Fin l → ℝ) → Fin l → Fin l)
    (eigh : Matrix (Fin d) (Fin d) ℝ → (Fin d → ℝ) × Matrix (Fin d) (Fin d) ℝ) (y : Fin l → Fin d → ℝ) (s : CmaEsState d) :
    (cmaGeneration lb ub sigma0 ftarget budget f rank eigh y s).wcm = cmaMean (cmaOffspring lb ub s y) (rank fun j => f (cmaOffspring lb ub s y j)) := by
  have h1 : ∀ t : CmaEsState d, (cmaEsCheckStop sigma0 ftarget budget t).wcm = t.wcm := fun t => by
    unfold cmaEsCheckStop
    simp only
    split_ifs <;> simp [cmaReset]
  have h2 : ∀ t : CmaEsState d, (cmaUpdateBD eigh t).wcm = t.wcm := fun t => by
    unfold cmaUpdateBD
    simp only
    split_ifs <;> rfl
  unfold cmaGeneration
  simp only [h1]
  split_ifs <;> first | rfl | (simp only [h2]; rfl)

/-- Products of rows of `M`, weighted by the squared weights. -/
theorem weight_rows (M : Matrix (Fin d) (Fin d) ℝ) (a b : Fin d) :
    ∑ j : Fin l, ∑ i, rankWeight l j * M a i * (rankWeight l j * M b i) = (∑ j : Fin l, rankWeight l j ^ 2) * (M * Mᵀ) a b := by
  rw [Finset.sum_mul]
  refine Finset.sum_congr rfl fun j _ => ?_
  rw [mul_apply, Finset.mul_sum]
  exact Finset.sum_congr rfl fun i _ => by rw [transpose_apply]; ring

end Verif.Proofs
