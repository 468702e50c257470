import Verif.Model.Pcabo
import Verif.Spec.Pcabo
import Mathlib.Algebra.Order.BigOperators.Ring.Finset
import Mathlib.Analysis.Calculus.Deriv.Add
import Mathlib.Analysis.Calculus.Deriv.Mul
import Mathlib.Tactic.Linarith
import Mathlib.Tactic.FieldSimp

namespace Verif.Proofs

open Verif.Model Verif.Spec

variable {d r : ℕ}

theorem abs_sum_le_radius {a b : Fin d → ℝ} {R : ℝ} (hb : ∑ k, b k * b k ≤ 1) (ha : ∑ k, a k ^ 2 ≤ R) :
    |∑ k, a k * b k| ≤ Real.sqrt R := by
  apply Real.abs_le_sqrt
  have h := Finset.sum_mul_sq_le_sq_mul_sq Finset.univ a b
  have h1 : (∑ k, a k ^ 2) * ∑ k, b k ^ 2 ≤ (∑ k, a k ^ 2) * 1 := by
    apply mul_le_mul_of_nonneg_left _ (Finset.sum_nonneg (fun k _ => sq_nonneg _))
    simpa only [sq] using hb
  linarith

theorem box_radius {lo hi x : Fin d → ℝ} (h : WithinBox lo hi x) :
    ∑ k, (x k - (lo k + hi k) / 2) ^ 2 ≤ ∑ k, (lo k - (lo k + hi k) / 2) ^ 2 := by
  apply Finset.sum_le_sum
  intro k _
  obtain ⟨h1, h2⟩ := h k
  nlinarith

theorem transform_inverse {p : PcaMap r d} (h : OrthonormalRows p.components) (z : Fin r → ℝ) :
    pcaTransform p (pcaInverse p z) = z := by
  funext j
  unfold pcaTransform pcaInverse
  have h1 : ∀ k, (∑ i, z i * p.components i k + p.mean k + p.center k - p.center k - p.mean k) * p.components j k =
      ∑ i, z i * (p.components i k * p.components j k) := by
    intro k
    rw [show ∑ i, z i * p.components i k + p.mean k + p.center k - p.center k - p.mean k =
      ∑ i, z i * p.components i k by ring, Finset.sum_mul]
    exact Finset.sum_congr rfl (fun i _ => by ring)
  simp only [h1]
  rw [Finset.sum_comm]
  simp only [← Finset.mul_sum, h _ j]
  simp

theorem inverse_sub (p : PcaMap r d) (x : Fin d → ℝ) (k : Fin d) :
    pcaInverse p (pcaTransform p x) k =
      ∑ j, (∑ i, (x i - p.center i - p.mean i) * p.components j i) * p.components j k + p.mean k + p.center k := rfl

/-! ### Ranks and weights -/

theorem filter_partition (ys : List ℝ) (y : ℝ) :
    (ys.filter (fun z => z < y)).length + (ys.filter (fun z => z = y)).length =
      (ys.filter (fun z => z ≤ y)).length := by
  induction ys with
  | nil => rfl
  | cons a ys ih =>
    simp only [List.filter_cons, decide_eq_true_eq]
    rcases lt_trichotomy a y with h | h | h
    · rw [if_pos h, if_neg h.ne, if_pos h.le]; simp only [List.length_cons]; omega
    · rw [if_neg h.not_lt, if_pos h, if_pos h.le]; simp only [List.length_cons]; omega
    · rw [if_neg h.not_gt, if_neg h.ne', if_neg h.not_ge]; exact ih

theorem filter_lt_ge {ys : List ℝ} {y y' : ℝ} (h : y < y') :
    (ys.filter (fun z => z ≤ y)).length ≤ (ys.filter (fun z => z < y')).length := by
  rw [← List.countP_eq_length_filter, ← List.countP_eq_length_filter]
  apply List.countP_mono_left
  intro z _ hz
  simp only [decide_eq_true_eq] at hz ⊢
  linarith

theorem eq_pos {ys : List ℝ} {y : ℝ} (h : y ∈ ys) : 1 ≤ (ys.filter (fun z => z = y)).length :=
  List.length_pos_of_mem (List.mem_filter.2 ⟨h, by simp⟩)

theorem avgRank_lt {ys : List ℝ} {y y' : ℝ} (hy' : y' ∈ ys) (h : y < y') (hy : y ∈ ys) :
    avgRank ys y < avgRank ys y' := by
  have h1 := filter_partition ys y
  have h2 := filter_lt_ge (ys := ys) h
  have h3 := eq_pos hy'
  have h4 := eq_pos hy
  unfold avgRank
  have h1' : ((ys.filter (fun z => z < y)).length : ℝ) + ((ys.filter (fun z => z = y)).length : ℝ) ≤
      ((ys.filter (fun z => z < y')).length : ℝ) := by exact_mod_cast h1 ▸ h2
  have h3' : (1 : ℝ) ≤ ((ys.filter (fun z => z = y')).length : ℝ) := by exact_mod_cast h3
  have h4' : (1 : ℝ) ≤ ((ys.filter (fun z => z = y)).length : ℝ) := by exact_mod_cast h4
  linarith

theorem avgRank_le {ys : List ℝ} {y : ℝ} (hy : y ∈ ys) : avgRank ys y ≤ ys.length := by
  have h1 := filter_partition ys y
  have h2 : (ys.filter (fun z => z ≤ y)).length ≤ ys.length := List.length_filter_le _ _
  have h4 := eq_pos hy
  unfold avgRank
  have h1' : ((ys.filter (fun z => z < y)).length : ℝ) + ((ys.filter (fun z => z = y)).length : ℝ) ≤ ys.length := by
    exact_mod_cast h1 ▸ h2
  have h4' : (1 : ℝ) ≤ ((ys.filter (fun z => z = y)).length : ℝ) := by exact_mod_cast h4
  linarith

theorem one_le_avgRank {ys : List ℝ} {y : ℝ} (hy : y ∈ ys) : 1 ≤ avgRank ys y := by
  have h4 := eq_pos hy
  unfold avgRank
  have h4' : (1 : ℝ) ≤ ((ys.filter (fun z => z = y)).length : ℝ) := by exact_mod_cast h4
  have : (0 : ℝ) ≤ ((ys.filter (fun z => z < y)).length : ℝ) := Nat.cast_nonneg _
  linarith

/-- With at least two values some rank is below the number of values. -/
theorem exists_avgRank_lt {ys : List ℝ} (h : 2 ≤ ys.length) : ∃ y ∈ ys, avgRank ys y < ys.length := by
  have hne : ys ≠ [] := by rintro rfl; simp at h
  obtain ⟨y, hy, hmin⟩ : ∃ y ∈ ys, ∀ z ∈ ys, y ≤ z := by
    clear h
    induction ys with
    | nil => exact absurd rfl hne
    | cons a ys ih =>
      by_cases hys : ys = []
      · subst hys; exact ⟨a, by simp, by simp⟩
      · obtain ⟨y, hy, hm⟩ := ih hys
        rcases le_total a y with h | h
        · refine ⟨a, by simp, fun z hz => ?_⟩
          rcases List.mem_cons.1 hz with rfl | hz
          · exact le_refl _
          · exact h.trans (hm z hz)
        · refine ⟨y, by simp [hy], fun z hz => ?_⟩
          rcases List.mem_cons.1 hz with rfl | hz
          · exact h
          · exact hm z hz
  refine ⟨y, hy, ?_⟩
  have h0 : (ys.filter (fun z => z < y)) = [] := by
    rw [List.filter_eq_nil_iff]
    intro z hz
    simp only [decide_eq_true_eq, not_lt]
    exact hmin z hz
  unfold avgRank
  rw [h0]
  have h2 : (ys.filter (fun z => z = y)).length ≤ ys.length := List.length_filter_le _ _
  have h2' : ((ys.filter (fun z => z = y)).length : ℝ) ≤ ys.length := by exact_mod_cast h2
  have h' : (2 : ℝ) ≤ ys.length := by exact_mod_cast h
  simp only [List.length_nil, Nat.cast_zero, zero_add]
  linarith

theorem signedValues_length (minimize : Bool) (ys : List ℝ) : (signedValues minimize ys).length = ys.length := by
  cases minimize <;> simp [signedValues]

theorem rawWeights_nonneg (minimize : Bool) (ys : List ℝ) : ∀ w ∈ rawWeights minimize ys, 0 ≤ w := by
  intro w hw
  obtain ⟨y, hy, rfl⟩ := List.mem_map.1 hw
  have h1 := one_le_avgRank hy
  have h2 := avgRank_le hy
  rw [signedValues_length] at h2
  have := Real.log_le_log (by linarith) h2
  linarith

theorem rawWeights_sum_pos (minimize : Bool) {ys : List ℝ} (h : 2 ≤ ys.length) : 0 < (rawWeights minimize ys).sum := by
  obtain ⟨y, hy, hlt⟩ := exists_avgRank_lt (ys := signedValues minimize ys) (by rw [signedValues_length]; exact h)
  rw [signedValues_length] at hlt
  have hmem : Real.log ys.length - Real.log (avgRank (signedValues minimize ys) y) ∈ rawWeights minimize ys :=
    List.mem_map_of_mem (f := fun y => Real.log ys.length - Real.log (avgRank (signedValues minimize ys) y)) hy
  have hpos : 0 < Real.log ys.length - Real.log (avgRank (signedValues minimize ys) y) := by
    have := Real.log_lt_log (by have := one_le_avgRank hy; linarith) hlt
    linarith
  exact lt_of_lt_of_le hpos (List.single_le_sum (rawWeights_nonneg minimize ys) _ hmem)

theorem fitWeights_nonneg (minimize : Bool) {ys : List ℝ} (h : 2 ≤ ys.length) : ∀ w ∈ fitWeights minimize ys, 0 ≤ w := by
  intro w hw
  obtain ⟨v, hv, rfl⟩ := List.mem_map.1 hw
  exact div_nonneg (rawWeights_nonneg minimize ys v hv) (rawWeights_sum_pos minimize h).le

theorem sum_map_div (l : List ℝ) (c : ℝ) : (l.map (fun w => w / c)).sum = l.sum / c := by
  induction l with
  | nil => simp
  | cons a l ih => rw [List.map_cons, List.sum_cons, List.sum_cons, ih, add_div]

theorem fitWeights_sum (minimize : Bool) {ys : List ℝ} (h : 2 ≤ ys.length) : (fitWeights minimize ys).sum = 1 := by
  unfold fitWeights
  rw [sum_map_div, div_self (rawWeights_sum_pos minimize h).ne']

theorem fitWeights_length (minimize : Bool) (ys : List ℝ) : (fitWeights minimize ys).length = ys.length := by
  simp [fitWeights, rawWeights, signedValues_length]

/-! ### The origin of the reduced space is a convex combination of the data -/

theorem zipWith_sum (xs : List (Fin d → ℝ)) (c : ℝ) (k : Fin d) : ∀ ws : List ℝ, ws.length = xs.length →
    ((List.zipWith (fun (x : Fin d → ℝ) w => (x k - c) * w) xs ws).sum) =
      (List.zipWith (fun (x : Fin d → ℝ) w => x k * w) xs ws).sum - c * ws.sum := by
  induction xs with
  | nil => intro ws h; rw [List.length_eq_zero_iff.1 h]; simp
  | cons x xs ih =>
    intro ws h
    cases ws with
    | nil => simp at h
    | cons w ws =>
      simp only [List.zipWith_cons_cons, List.sum_cons]
      rw [ih ws (by simpa using h)]
      ring

theorem weighted_bounds {xs : List (Fin d → ℝ)} {a b : ℝ} (k : Fin d) (h : ∀ x ∈ xs, a ≤ x k ∧ x k ≤ b) :
    ∀ ws : List ℝ, ws.length = xs.length → (∀ w ∈ ws, 0 ≤ w) →
      a * ws.sum ≤ (List.zipWith (fun (x : Fin d → ℝ) w => x k * w) xs ws).sum ∧
      (List.zipWith (fun (x : Fin d → ℝ) w => x k * w) xs ws).sum ≤ b * ws.sum := by
  induction xs with
  | nil => intro ws hl _; rw [List.length_eq_zero_iff.1 hl]; simp
  | cons x xs ih =>
    intro ws hl hw
    cases ws with
    | nil => simp at hl
    | cons w ws =>
      obtain ⟨i1, i2⟩ := ih (fun x hx => h x (by simp [hx])) ws (by simpa using hl) (fun w hw' => hw w (by simp [hw']))
      obtain ⟨h1, h2⟩ := h x (by simp)
      have hw0 := hw w (by simp)
      simp only [List.zipWith_cons_cons, List.sum_cons]
      constructor <;> nlinarith

theorem sum_bounds (a b : ℝ) : ∀ l : List ℝ, (∀ x ∈ l, a ≤ x ∧ x ≤ b) →
    a * l.length ≤ l.sum ∧ l.sum ≤ b * l.length
  | [], _ => by simp
  | x :: l, h => by
    obtain ⟨i1, i2⟩ := sum_bounds a b l (fun x hx => h x (by simp [hx]))
    obtain ⟨h1, h2⟩ := h x (by simp)
    simp only [List.sum_cons, List.length_cons, Nat.cast_add, Nat.cast_one]
    constructor <;> nlinarith

theorem fit_origin_mem {svd : List (Fin d → ℝ) → Fin r → Fin d → ℝ} {minimize : Bool} {xs : List (Fin d → ℝ)}
    {ys : List ℝ} (hlen : ys.length = xs.length) (hN : 2 ≤ xs.length) {lo hi : Fin d → ℝ}
    (hx : ∀ x ∈ xs, WithinBox lo hi x) :
    WithinBox lo hi (fun k => (pcaFit svd minimize xs ys).mean k + (pcaFit svd minimize xs ys).center k) := by
  intro k
  have hN' : 2 ≤ ys.length := by omega
  have hNr : (2 : ℝ) ≤ xs.length := by exact_mod_cast hN
  show lo k ≤ rowMean (scaledRows minimize xs ys) k + rowMean xs k ∧
    rowMean (scaledRows minimize xs ys) k + rowMean xs k ≤ hi k
  have hwl : (fitWeights minimize ys).length = xs.length := by rw [fitWeights_length, hlen]
  have hsl : (scaledRows minimize xs ys).length = xs.length := by
    unfold scaledRows
    rw [List.length_zipWith, hwl, min_self]
  have hcol : (scaledRows minimize xs ys).map (fun x => x k) =
      List.zipWith (fun (x : Fin d → ℝ) w => (x k - rowMean xs k) * w) xs (fitWeights minimize ys) := by
    unfold scaledRows
    rw [List.map_zipWith]
  obtain ⟨b1, b2⟩ := weighted_bounds k (fun x hx' => hx x hx' k) _ hwl (fitWeights_nonneg minimize hN')
  obtain ⟨c1, c2⟩ := sum_bounds (lo k) (hi k) (xs.map (fun x => x k)) (by
    intro y hy
    obtain ⟨x, hx', rfl⟩ := List.mem_map.1 hy
    exact hx x hx' k)
  rw [List.length_map] at c1 c2
  have hs := zipWith_sum xs (rowMean xs k) k _ hwl
  rw [fitWeights_sum minimize hN'] at b1 b2 hs
  have e1 : rowMean (scaledRows minimize xs ys) k =
      ((List.zipWith (fun (x : Fin d → ℝ) w => x k * w) xs (fitWeights minimize ys)).sum - rowMean xs k) / xs.length := by
    conv_lhs => unfold rowMean
    rw [hcol, hsl, hs, mul_one]
  rw [e1]
  set S := (List.zipWith (fun (x : Fin d → ℝ) w => x k * w) xs (fitWeights minimize ys)).sum
  set n : ℝ := (xs.length : ℝ) with hndef
  have hn : 0 < n := by linarith
  have hm : rowMean xs k = (xs.map (fun x => x k)).sum / n := rfl
  set T := (xs.map (fun x => x k)).sum
  have m1 : lo k ≤ rowMean xs k := by rw [hm, le_div_iff₀ hn]; linarith
  have m2 : rowMean xs k ≤ hi k := by rw [hm, div_le_iff₀ hn]; linarith
  have e2 : (S - rowMean xs k) / n + rowMean xs k = (S + (n - 1) * rowMean xs k) / n := by field_simp; ring
  rw [e2, le_div_iff₀ hn, div_le_iff₀ hn]
  constructor <;> nlinarith

/-! ### The penalty -/

theorem penalty_terms (lo hi x : Fin d → ℝ) (k : Fin d) :
    0 ≤ (if x k < lo k then lo k - x k else 0) ∧ 0 ≤ (if hi k < x k then x k - hi k else 0) := by
  constructor <;> split_ifs with h <;> linarith

theorem penalty_zero_iff (lo hi x : Fin d → ℝ) : boxPenalty lo hi x = 0 ↔ WithinBox lo hi x := by
  unfold boxPenalty
  constructor
  · intro h k
    have h1 : 0 ≤ ∑ k, (if x k < lo k then lo k - x k else 0) := Finset.sum_nonneg (fun k _ => (penalty_terms lo hi x k).1)
    have h2 : 0 ≤ ∑ k, (if hi k < x k then x k - hi k else 0) := Finset.sum_nonneg (fun k _ => (penalty_terms lo hi x k).2)
    have e1 : ∑ k, (if x k < lo k then lo k - x k else 0) = 0 := by linarith
    have e2 : ∑ k, (if hi k < x k then x k - hi k else 0) = 0 := by linarith
    rw [Finset.sum_eq_zero_iff_of_nonneg (fun k _ => (penalty_terms lo hi x k).1)] at e1
    rw [Finset.sum_eq_zero_iff_of_nonneg (fun k _ => (penalty_terms lo hi x k).2)] at e2
    have a := e1 k (Finset.mem_univ k)
    have b := e2 k (Finset.mem_univ k)
    constructor
    · by_contra hc
      rw [if_pos (not_le.1 hc)] at a
      linarith
    · by_contra hc
      rw [if_pos (not_le.1 hc)] at b
      linarith
  · intro h
    have e1 : ∑ k, (if x k < lo k then lo k - x k else 0) = 0 :=
      Finset.sum_eq_zero (fun k _ => if_neg (not_lt.2 (h k).1))
    have e2 : ∑ k, (if hi k < x k then x k - hi k else 0) = 0 :=
      Finset.sum_eq_zero (fun k _ => if_neg (not_lt.2 (h k).2))
    rw [e1, e2]; ring

theorem penalty_nonpos (lo hi x : Fin d → ℝ) : boxPenalty lo hi x ≤ 0 := by
  unfold boxPenalty
  have h1 : 0 ≤ ∑ k, (if x k < lo k then lo k - x k else 0) := Finset.sum_nonneg (fun k _ => (penalty_terms lo hi x k).1)
  have h2 : 0 ≤ ∑ k, (if hi k < x k then x k - hi k else 0) := Finset.sum_nonneg (fun k _ => (penalty_terms lo hi x k).2)
  linarith

theorem hasDerivAt_ramp {f : ℝ → ℝ} {f' t c : ℝ} (hf : HasDerivAt f f' t) (hne : f t ≠ c) :
    HasDerivAt (fun s => if f s < c then c - f s else 0) (if f t < c then -f' else 0) t := by
  rcases lt_or_gt_of_ne hne with h | h
  · rw [if_pos h]
    refine (hf.const_sub c).congr_of_eventuallyEq ?_
    filter_upwards [hf.continuousAt.eventually (gt_mem_nhds h)] with s hs
    rw [if_pos hs]
  · rw [if_neg h.not_gt]
    refine (hasDerivAt_const t (0 : ℝ)).congr_of_eventuallyEq ?_
    filter_upwards [hf.continuousAt.eventually (lt_mem_nhds h)] with s hs
    rw [if_neg (not_lt.2 hs.le)]

theorem hasDerivAt_ramp' {f : ℝ → ℝ} {f' t c : ℝ} (hf : HasDerivAt f f' t) (hne : f t ≠ c) :
    HasDerivAt (fun s => if c < f s then f s - c else 0) (if c < f t then f' else 0) t := by
  rcases lt_or_gt_of_ne hne with h | h
  · rw [if_neg h.not_gt]
    refine (hasDerivAt_const t (0 : ℝ)).congr_of_eventuallyEq ?_
    filter_upwards [hf.continuousAt.eventually (gt_mem_nhds h)] with s hs
    rw [if_neg (not_lt.2 hs.le)]
  · rw [if_pos h]
    refine (hf.sub_const c).congr_of_eventuallyEq ?_
    filter_upwards [hf.continuousAt.eventually (lt_mem_nhds h)] with s hs
    rw [if_pos hs]

theorem hasDerivAt_inverse (p : PcaMap r d) (z : Fin r → ℝ) (j : Fin r) (k : Fin d) :
    HasDerivAt (fun t => pcaInverse p (Function.update z j t) k) (p.components j k) (z j) := by
  unfold pcaInverse
  have h : ∀ t, ∑ i, (Function.update z j t) i * p.components i k + p.mean k + p.center k =
      t * p.components j k + (∑ i ∈ Finset.univ.erase j, z i * p.components i k + p.mean k + p.center k) := by
    intro t
    rw [← Finset.add_sum_erase _ _ (Finset.mem_univ j), Function.update_self]
    have : ∑ i ∈ Finset.univ.erase j, (Function.update z j t) i * p.components i k =
        ∑ i ∈ Finset.univ.erase j, z i * p.components i k := by
      apply Finset.sum_congr rfl
      intro i hi
      rw [Function.update_of_ne (Finset.ne_of_mem_erase hi)]
    rw [this]; ring
  simp only [h]
  have := ((hasDerivAt_id (z j)).mul_const (p.components j k)).add_const
    (∑ i ∈ Finset.univ.erase j, z i * p.components i k + p.mean k + p.center k)
  simpa using this

end Verif.Proofs
