import Verif.Model.CmaSampling

/-!
# C135: the sampling methods of the CMA-ES
-/
namespace Verif.Props

open Verif.Model

variable {d : ℕ}

/-- The methods, by their number, that draw a part of the offspring and derive the others from it. -/
def IsPaired (m : ℤ) : Prop := m ∈ [1, 11, 4, 7, 44, 9]

private def PairMode (m : CmaMode) : Prop := m = .mirrored ∨ m = .orthogonalMirrored ∨ m = .pairs

private theorem pairMode_iff (m : ℤ) : PairMode (cmaModeOf m) ↔ IsPaired m := by
  unfold PairMode IsPaired cmaModeOf
  simp only [List.mem_cons, List.not_mem_nil, or_false]
  split_ifs <;> simp <;> omega

private theorem mode_ne (m : ℤ) : (m ≠ 8 → cmaModeOf m ≠ .orthogonalMirrored8) ∧ (m ≠ 5 → cmaModeOf m ≠ .rotation) := by
  unfold cmaModeOf
  constructor <;> intro h <;> split_ifs <;> simp_all

private theorem dot_self_zero {v : Fin d → ℝ} (h : v ⬝ᵥ v = 0) : v = 0 := by
  funext i
  exact mul_self_eq_zero.1 ((Finset.sum_eq_zero_iff_of_nonneg fun a _ => mul_self_nonneg (v a)).1 h i (Finset.mem_univ i))

private theorem length_columnsUpTo (f : ℕ → Fin d → ℝ) (n : ℕ) : (columnsUpTo f n).length = n := by simp [columnsUpTo]

private theorem get_columnsUpTo (f : ℕ → Fin d → ℝ) (n i : ℕ) : (columnsUpTo f n)[i]? = if i < n then some (f i) else none := by
  unfold columnsUpTo
  split_ifs with h
  · simp [List.getElem?_map, List.getElem?_range h]
  · rw [List.getElem?_eq_none]; simpa using h

private theorem parity (l k : ℕ) : (k * l + l) % 2 ≠ 0 ↔ l % 2 = 1 ∧ k % 2 = 0 := by
  rw [show k * l + l = (k + 1) * l by ring, Nat.mul_mod]
  rcases Nat.mod_two_eq_zero_or_one l with h | h <;> rcases Nat.mod_two_eq_zero_or_one k with h' | h' <;> simp [h, h', Nat.add_mod]

private theorem length_pairUp (l k : ℕ) (f g : ℕ → ℕ → Fin d → ℝ) :
    (pairUp l (k * l) [] f g).length = if l % 2 = 1 ∧ k % 2 = 1 then l - 1 else l := by
  unfold pairUp
  by_cases h : (k * l + l) % 2 ≠ 0
  · rw [if_pos h, List.length_append, length_columnsUpTo, length_columnsUpTo]
    rw [parity] at h
    rw [if_neg (by omega)]
    omega
  · rw [if_neg h, List.nil_append, List.length_append, length_columnsUpTo, length_columnsUpTo]
    rw [parity] at h
    split_ifs with h2 <;> omega

private theorem count_mode (m : CmaMode) (h8 : m ≠ .orthogonalMirrored8) (h5 : m ≠ .rotation) (l k : ℕ) (R : CmaRandom d) :
    ∃ z, cmaDraws m l k R = some z ∧
      ((¬(PairMode m ∧ Odd l ∧ Odd k) → z.length = l) ∧ (PairMode m ∧ Odd l ∧ Odd k → z.length = l - 1)) := by
  simp only [Nat.odd_iff]
  cases m with
  | orthogonalMirrored8 => exact absurd rfl h8
  | rotation => exact absurd rfl h5
  | derandomized | gramSchmidt | standard =>
    refine ⟨_, rfl, ?_, ?_⟩
    · intro _; exact length_columnsUpTo _ _
    · rintro ⟨h, -⟩; rcases h with h | h | h <;> cases h
  | mirrored | orthogonalMirrored | pairs =>
    refine ⟨_, rfl, ?_, ?_⟩
    · intro h
      rw [length_pairUp, if_neg]
      exact fun hh => h ⟨by simp [PairMode], hh⟩
    · rintro ⟨-, h⟩
      rw [length_pairUp, if_pos h]

/-- **C135, the number of offspring.**  Every method but two draws a matrix in every generation; it has `λ` columns, except that the methods with pairs draw one less
in every second generation when `λ` is odd. -/
theorem c135_count_partial (m : ℤ) (h8 : m ≠ 8) (h5 : m ≠ 5) (l k : ℕ) (R : CmaRandom d) :
    ∃ z, cmaDraws (cmaModeOf m) l k R = some z ∧
      ((¬(IsPaired m ∧ Odd l ∧ Odd k) → z.length = l) ∧ (IsPaired m ∧ Odd l ∧ Odd k → z.length = l - 1)) := by
  rw [← pairMode_iff]
  exact count_mode _ ((mode_ne m).1 h8) ((mode_ne m).2 h5) l k R

/-- **C135, refuted**: an odd number of offspring with mirroring, in the second generation, while `λ` evaluations are counted. -/
theorem c135_count_refuted (R : CmaRandom d) : ∃ z, cmaDraws (cmaModeOf 1) 5 1 R = some z ∧ z.length = 4 := by
  obtain ⟨z, hz, -, h⟩ := c135_count_partial 1 (by decide) (by decide) 5 1 R
  exact ⟨z, hz, h ⟨by simp [IsPaired], by decide, by decide⟩⟩

/-- **C135, refuted**: two of the methods always raise. -/
theorem c135_raises_refuted (l k : ℕ) (R : CmaRandom d) : cmaDraws (cmaModeOf 8) l k R = none ∧ cmaDraws (cmaModeOf 5) l k R = none :=
  ⟨rfl, rfl⟩

/-- **C135, refuted**: with the Gram-Schmidt method the first `min(d, λ)` offspring are the mean itself, whatever is drawn. -/
theorem c135_gram_schmidt_refuted (s : CmaEsState d) (l k : ℕ) (R : CmaRandom d) (i : ℕ) (hi : i < min d l) :
    ∃ z c, cmaDraws (cmaModeOf 6) l k R = some z ∧ z[i]? = some c ∧ cmaCandidate s c = s.wcm := by
  refine ⟨_, 0, rfl, ?_, ?_⟩
  · rw [get_columnsUpTo, if_pos (by omega), if_pos hi]
  · funext a
    have : (fun b => s.eValue b * (0 : Fin d → ℝ) b) = 0 := by funext b; simp
    show s.wcm a + s.sigma * (s.eVector.mulVec (fun b => s.eValue b * (0 : Fin d → ℝ) b)) a = _
    rw [this, Matrix.mulVec_zero]
    simp

private theorem mirror_even (l k : ℕ) (f : ℕ → ℕ → Fin d → ℝ) (hl : Even l) (i : ℕ) (hi : i < l / 2) :
    (pairUp l (k * l) [] f fun h i => -f h i)[i]? = some (f (l / 2) i) ∧
    (pairUp l (k * l) [] f fun h i => -f h i)[l / 2 + i]? = some (-f (l / 2) i) := by
  rw [Nat.even_iff] at hl
  have h : ¬ (k * l + l) % 2 ≠ 0 := by rw [parity]; omega
  unfold pairUp
  rw [if_neg h, List.nil_append]
  constructor
  · rw [List.getElem?_append_left (by rw [length_columnsUpTo]; exact hi), get_columnsUpTo, if_pos hi]
  · rw [List.getElem?_append_right (by rw [length_columnsUpTo]; omega), length_columnsUpTo, get_columnsUpTo, Nat.add_sub_cancel_left, if_pos hi]

private theorem candidate_mirror (s : CmaEsState d) (c : Fin d → ℝ) (i : Fin d) : cmaCandidate s c i + cmaCandidate s (-c) i = 2 * s.wcm i := by
  have : (fun b => s.eValue b * (-c) b) = -fun b => s.eValue b * c b := by funext b; simp
  show _ + (s.wcm i + s.sigma * (s.eVector.mulVec (fun b => s.eValue b * (-c) b)) i) = _
  rw [this, Matrix.mulVec_neg]
  simp only [cmaCandidate, Pi.neg_apply]
  ring

private theorem mirrored_mode (m : CmaMode) (hm : m = .mirrored ∨ m = .orthogonalMirrored) (s : CmaEsState d) (l k : ℕ) (hl : Even l) (R : CmaRandom d) :
    ∃ z, cmaDraws m l k R = some z ∧ z.length = l ∧ ∀ i, i < l / 2 → ∃ c c', z[i]? = some c ∧ z[l / 2 + i]? = some c' ∧
      ∀ a, cmaCandidate s c a + cmaCandidate s c' a = 2 * s.wcm a := by
  obtain ⟨z, hz, hlen, -⟩ := count_mode m (by rcases hm with rfl | rfl <;> decide) (by rcases hm with rfl | rfl <;> decide) l k R
  refine ⟨z, hz, hlen fun h => (Nat.not_odd_iff_even.2 hl) h.2.1, fun i hi => ?_⟩
  rcases hm with rfl | rfl
  · have e := mirror_even l k (fun _ => R.normal) hl i hi
    rw [show pairUp l (k * l) [] (fun _ => R.normal) (fun _ i => -R.normal i) = z from Option.some.inj hz] at e
    exact ⟨_, _, e.1, e.2, candidate_mirror s _⟩
  · have e := mirror_even l k (fun half => orthogonalColumn half R) hl i hi
    rw [show pairUp l (k * l) [] (fun half => orthogonalColumn half R) (fun half i => -orthogonalColumn half R i) = z from Option.some.inj hz] at e
    exact ⟨_, _, e.1, e.2, candidate_mirror s _⟩

/-- **C135, mirrored methods.**  With an even number of offspring, the mean is halfway between the offspring `i` and `λ / 2 + i`, in every generation. -/
theorem c135_mirrored (m : ℤ) (hm : m ∈ [1, 11, 4, 7, 44]) (s : CmaEsState d) (l k : ℕ) (hl : Even l) (R : CmaRandom d) :
    ∃ z, cmaDraws (cmaModeOf m) l k R = some z ∧ z.length = l ∧ ∀ i, i < l / 2 → ∃ c c', z[i]? = some c ∧ z[l / 2 + i]? = some c' ∧
      ∀ a, cmaCandidate s c a + cmaCandidate s c' a = 2 * s.wcm a := by
  refine mirrored_mode _ ?_ s l k hl R
  simp only [List.mem_cons, List.not_mem_nil, or_false] at hm
  rcases hm with rfl | rfl | rfl | rfl | rfl <;> decide

/-- **C135, orthogonal mirrored methods.**  The first `min(d, half)` directions are orthogonal and have the lengths drawn, when `qr` returns an orthogonal factor. -/
theorem c135_orthogonal (m : ℤ) (hm : m ∈ [4, 7, 44]) (l k : ℕ) (hl : Even l) (R : CmaRandom d)
    (hq : ∀ i j, i < min d (l / 2) → j < min d (l / 2) → R.q i ⬝ᵥ R.q j = if i = j then 1 else 0) :
    ∃ z, cmaDraws (cmaModeOf m) l k R = some z ∧ ∀ i j, i < min d (l / 2) → j < min d (l / 2) →
      ∃ c c', z[i]? = some c ∧ z[j]? = some c' ∧ c ⬝ᵥ c' = if i = j then R.chi i ^ 2 else 0 := by
  have hmode : cmaModeOf m = .orthogonalMirrored := by
    simp only [List.mem_cons, List.not_mem_nil, or_false] at hm
    rcases hm with rfl | rfl | rfl <;> decide
  rw [hmode]
  refine ⟨_, rfl, fun i j hi hj => ⟨_, _, (mirror_even l k (fun half => orthogonalColumn half R) hl i (by omega)).1,
    (mirror_even l k (fun half => orthogonalColumn half R) hl j (by omega)).1, ?_⟩⟩
  simp only [orthogonalColumn, if_pos hi, if_pos hj, smul_dotProduct, dotProduct_smul, hq i j hi hj, smul_eq_mul]
  split_ifs with h
  · subst h; ring
  · ring

/-- **C135, derandomised step size.**  Every direction has the expected length, unless it was drawn as zero. -/
theorem c135_derandomized (l k : ℕ) (R : CmaRandom d) (hn : ∀ i, R.normal i ≠ 0) :
    ∃ z, cmaDraws (cmaModeOf 3) l k R = some z ∧ z.length = l ∧ ∀ c ∈ z, c ⬝ᵥ c = cmaChiN d ^ 2 := by
  refine ⟨_, rfl, length_columnsUpTo _ _, fun c hc => ?_⟩
  simp only [columnsUpTo, List.mem_map] at hc
  obtain ⟨i, -, rfl⟩ := hc
  have h0 : R.normal i ⬝ᵥ R.normal i ≠ 0 := fun h => hn i (dot_self_zero h)
  have hp : 0 ≤ R.normal i ⬝ᵥ R.normal i := Finset.sum_nonneg fun a _ => mul_self_nonneg _
  simp only [smul_dotProduct, dotProduct_smul, smul_eq_mul]
  have hs := Real.mul_self_sqrt hp
  have hsne : Real.sqrt (R.normal i ⬝ᵥ R.normal i) ≠ 0 := fun h => h0 (by rw [← hs, h]; ring)
  field_simp
  rw [pow_two (Real.sqrt _), hs]

/-- **C135, what is drawn.**  The plain method uses one independent draw for each offspring; with an even number of offspring, mirroring and pairing use an independent draw
for each of the first half. -/
theorem c135_drawn (m : ℤ) (l k : ℕ) (R : CmaRandom d) :
    (m ∉ [1, 11, 3, 4, 7, 44, 8, 5, 6, 9] → ∃ z, cmaDraws (cmaModeOf m) l k R = some z ∧ ∀ i, i < l → z[i]? = some (R.normal i)) ∧
    (m ∈ [1, 11, 9] → Even l → ∃ z, cmaDraws (cmaModeOf m) l k R = some z ∧ ∀ i, i < l / 2 → z[i]? = some (R.normal i)) := by
  constructor
  · intro hm
    have hmode : cmaModeOf m = .standard := by
      simp only [List.mem_cons, List.not_mem_nil, or_false, not_or] at hm
      simp [cmaModeOf, hm]
    rw [hmode]
    refine ⟨_, rfl, fun i hi => ?_⟩
    rw [get_columnsUpTo, if_pos hi]
  · intro hm hl
    have h : ¬ (k * l + l) % 2 ≠ 0 := by rw [Nat.even_iff] at hl; rw [parity]; omega
    have hmode : cmaModeOf m = .mirrored ∨ cmaModeOf m = .pairs := by
      simp only [List.mem_cons, List.not_mem_nil, or_false] at hm
      rcases hm with rfl | rfl | rfl <;> decide
    rcases hmode with e | e <;> rw [e] <;> refine ⟨_, rfl, fun i hi => ?_⟩ <;> unfold pairUp <;>
      rw [if_neg h, List.nil_append, List.getElem?_append_left (by rw [length_columnsUpTo]; exact hi), get_columnsUpTo, if_pos hi]

/-- **C135, orthogonal pairs.**  With an even number of offspring, direction `λ / 2 + i` is orthogonal to direction `i` and as long as the second one drawn for it, unless
the two drawn are parallel. -/
theorem c135_pairs (l k : ℕ) (hl : Even l) (R : CmaRandom d) (hn : ∀ i, R.normal i ≠ 0) (hp : ∀ i, ∀ t : ℝ, R.normal2 i ≠ t • R.normal i) :
    ∃ z, cmaDraws (cmaModeOf 9) l k R = some z ∧ ∀ i, i < l / 2 → ∃ c c', z[i]? = some c ∧ z[l / 2 + i]? = some c' ∧
      c ⬝ᵥ c' = 0 ∧ c' ⬝ᵥ c' = R.normal2 i ⬝ᵥ R.normal2 i := by
  refine ⟨_, rfl, fun i hi => ⟨R.normal i, orthogonalPartner (R.normal i) (R.normal2 i), ?_, ?_, ?_, ?_⟩⟩
  · have h : ¬ (k * l + l) % 2 ≠ 0 := by rw [Nat.even_iff] at hl; rw [parity]; omega
    unfold pairUp
    rw [if_neg h, List.nil_append, List.getElem?_append_left (by rw [length_columnsUpTo]; exact hi), get_columnsUpTo, if_pos hi]
  · have h : ¬ (k * l + l) % 2 ≠ 0 := by rw [Nat.even_iff] at hl; rw [parity]; omega
    unfold pairUp
    rw [if_neg h, List.nil_append, List.getElem?_append_right (by rw [length_columnsUpTo]; omega), length_columnsUpTo, get_columnsUpTo, Nat.add_sub_cancel_left, if_pos hi]
  · have h0 : R.normal i ⬝ᵥ R.normal i ≠ 0 := fun h => hn i (dot_self_zero h)
    have e : R.normal i ⬝ᵥ (R.normal2 i - ((R.normal2 i ⬝ᵥ R.normal i) / (R.normal i ⬝ᵥ R.normal i)) • R.normal i) = 0 := by
      rw [dotProduct_sub, dotProduct_smul, smul_eq_mul, div_mul_cancel₀ _ h0, dotProduct_comm (R.normal i), sub_self]
    show R.normal i ⬝ᵥ (_ • (R.normal2 i - ((R.normal2 i ⬝ᵥ R.normal i) / (R.normal i ⬝ᵥ R.normal i)) • R.normal i)) = 0
    rw [dotProduct_smul, e, smul_zero]
  · set p : Fin d → ℝ := R.normal2 i - ((R.normal2 i ⬝ᵥ R.normal i) / (R.normal i ⬝ᵥ R.normal i)) • R.normal i with hpdef
    have hp0 : p ⬝ᵥ p ≠ 0 := fun h => hp i _ (sub_eq_zero.1 (dot_self_zero h))
    have hpp : 0 ≤ p ⬝ᵥ p := Finset.sum_nonneg fun a _ => mul_self_nonneg _
    have hqq : 0 ≤ R.normal2 i ⬝ᵥ R.normal2 i := Finset.sum_nonneg fun a _ => mul_self_nonneg _
    show ((Real.sqrt (R.normal2 i ⬝ᵥ R.normal2 i) / Real.sqrt (p ⬝ᵥ p)) • p) ⬝ᵥ ((Real.sqrt (R.normal2 i ⬝ᵥ R.normal2 i) / Real.sqrt (p ⬝ᵥ p)) • p) = _
    simp only [smul_dotProduct, dotProduct_smul, smul_eq_mul]
    have hs := Real.mul_self_sqrt hpp
    have hsne : Real.sqrt (p ⬝ᵥ p) ≠ 0 := fun h => hp0 (by rw [← hs, h]; ring)
    have hq := Real.mul_self_sqrt hqq
    calc _ = (Real.sqrt (R.normal2 i ⬝ᵥ R.normal2 i) * Real.sqrt (R.normal2 i ⬝ᵥ R.normal2 i)) *
          ((p ⬝ᵥ p) / (Real.sqrt (p ⬝ᵥ p) * Real.sqrt (p ⬝ᵥ p))) := by field_simp
      _ = _ := by rw [hs, hq, div_self hp0, mul_one]

/-- Non-vacuity: draws that meet the hypotheses of the theorems. -/
example : ∃ R : CmaRandom 2, (∀ i j, i < min 2 (4 / 2) → j < min 2 (4 / 2) → R.q i ⬝ᵥ R.q j = if i = j then 1 else 0) ∧ (∀ i, R.normal i ≠ 0) ∧
    ∀ i, ∀ t : ℝ, R.normal2 i ≠ t • R.normal i := by
  refine ⟨⟨fun _ => ![1, 0], fun _ => ![0, 1], fun i => if i = 0 then ![1, 0] else ![0, 1], fun _ => 1⟩, ?_, ?_, ?_⟩
  · intro i j hi hj
    have : i = 0 ∨ i = 1 := by omega
    have : j = 0 ∨ j = 1 := by omega
    rcases ‹i = 0 ∨ i = 1› with rfl | rfl <;> rcases ‹j = 0 ∨ j = 1› with rfl | rfl <;> simp
  · intro i h
    have := congrFun h 0
    simp at this
  · intro i t h
    have := congrFun h 1
    simp at this

end Verif.Props
