import Verif.Model.Variables
import Mathlib.Tactic.Linarith
import Mathlib.Tactic.FieldSimp
import Mathlib.Tactic.Ring
import Mathlib.Data.List.Induction
import Mathlib.Data.Nat.Choose.Sum

/-! # Lemmas about variables: scales, rounding, levels -/
namespace Verif.Proofs
open Verif.Model

/-! ### scales -/

theorem bilog_bilogInv_pos {x : ℝ} (hx : 0 < x) : bilog x = Real.log (1 + x) ∧ 0 < bilog x := by
  have h : bilog x = Real.log (1 + x) := by
    unfold bilog
    rw [Real.sign_of_pos hx, abs_of_pos hx, one_mul]
  exact ⟨h, by rw [h]; exact Real.log_pos (by linarith)⟩

theorem bilog_neg (x : ℝ) : bilog (-x) = -bilog x := by
  unfold bilog
  rw [Real.sign_neg, abs_neg, neg_mul]

theorem bilogInv_neg (x : ℝ) : bilogInv (-x) = -bilogInv x := by
  unfold bilogInv
  rw [Real.sign_neg, abs_neg, neg_mul]

theorem bilog_zero : bilog 0 = 0 := by simp [bilog]
theorem bilogInv_zero : bilogInv 0 = 0 := by simp [bilogInv]

theorem bilogInv_bilog (x : ℝ) : bilogInv (bilog x) = x := by
  have hpos : ∀ x : ℝ, 0 < x → bilogInv (bilog x) = x := by
    intro x hx
    obtain ⟨h1, h2⟩ := bilog_bilogInv_pos hx
    unfold bilogInv
    rw [Real.sign_of_pos h2, abs_of_pos h2, h1, Real.exp_log (by linarith)]
    ring
  rcases lt_trichotomy x 0 with h | h | h
  · have := hpos (-x) (by linarith)
    rw [bilog_neg, bilogInv_neg] at this
    linarith
  · rw [h, bilog_zero, bilogInv_zero]
  · exact hpos x h

theorem bilogInv_strictMono : StrictMono bilogInv := by
  have hval : ∀ x : ℝ, 0 < x → bilogInv x = Real.exp x - 1 := by
    intro x hx
    unfold bilogInv
    rw [Real.sign_of_pos hx, abs_of_pos hx, one_mul]
  have hpos : ∀ x : ℝ, 0 < x → 0 < bilogInv x := by
    intro x hx
    rw [hval x hx]
    have := Real.add_one_lt_exp hx.ne'
    linarith
  intro x y hxy
  rcases lt_trichotomy x 0 with hx | hx | hx
  · rcases lt_trichotomy y 0 with hy | hy | hy
    · have h1 : bilogInv x = - bilogInv (-x) := by rw [bilogInv_neg]; ring
      have h2 : bilogInv y = - bilogInv (-y) := by rw [bilogInv_neg]; ring
      rw [h1, h2, hval (-x) (by linarith), hval (-y) (by linarith)]
      have : Real.exp (-y) < Real.exp (-x) := Real.exp_lt_exp.2 (by linarith)
      linarith
    · rw [hy, bilogInv_zero]
      have := hpos (-x) (by linarith)
      rw [bilogInv_neg] at this
      linarith
    · have := hpos (-x) (by linarith)
      rw [bilogInv_neg] at this
      have := hpos y hy
      linarith
  · subst hx
    rw [bilogInv_zero]
    exact hpos y hxy
  · rw [hval x hx, hval y (by linarith)]
    have : Real.exp x < Real.exp y := Real.exp_lt_exp.2 hxy
    linarith

theorem bilog_bilogInv (y : ℝ) : bilog (bilogInv y) = y :=
  bilogInv_strictMono.injective (bilogInv_bilog _)

theorem bilog_strictMono : StrictMono bilog := by
  intro x y h
  by_contra hn
  have : bilogInv (bilog y) ≤ bilogInv (bilog x) := bilogInv_strictMono.monotone (not_lt.1 hn)
  rw [bilogInv_bilog, bilogInv_bilog] at this
  exact absurd h (not_lt.2 this)

theorem logitInv_logit {x : ℝ} (h0 : 0 < x) (h1 : x < 1) : logitInv (Real.log (x / (1 - x))) = x := by
  unfold logitInv
  have hp : 0 < x / (1 - x) := div_pos h0 (by linarith)
  rw [Real.exp_neg, Real.exp_log hp]
  have : 1 - x ≠ 0 := by linarith
  field_simp
  ring

theorem logitInv_strictMono : StrictMono logitInv := by
  intro x y h
  unfold logitInv
  apply one_div_lt_one_div_of_lt
  · have := Real.exp_pos (-y); linarith
  · have : Real.exp (-y) < Real.exp (-x) := Real.exp_lt_exp.2 (by linarith)
    linarith

theorem logitInv_pos (x : ℝ) : 0 < logitInv x := by
  unfold logitInv
  have := Real.exp_pos (-x)
  positivity

theorem logitInv_lt_one (x : ℝ) : logitInv x < 1 := by
  unfold logitInv
  have := Real.exp_pos (-x)
  rw [div_lt_one (by linarith)]
  linarith

theorem tiny_pos : 0 < tiny := by unfold tiny; positivity

theorem tiny_le (n : ℕ) (h : n ≤ 300) : tiny ≤ 1 / 10 ^ n := by
  unfold tiny
  exact one_div_le_one_div_of_le (by positivity) (pow_le_pow_right₀ (by norm_num) h)

theorem tiny_le_one : tiny ≤ 1 := by simpa using tiny_le 0 (by norm_num)

theorem one_le_floatMax : 1 ≤ floatMax := by
  unfold floatMax
  have h1 : (1 : ℝ) ≤ 2 - 1 / 2 ^ 52 := by norm_num
  have h2 : (1 : ℝ) ≤ 2 ^ 1023 := one_le_pow₀ (by norm_num)
  calc (1 : ℝ) = 1 * 1 := by ring
    _ ≤ _ := mul_le_mul h1 h2 (by norm_num) (by linarith)

/-! ### rint -/

theorem rint_spec (y : ℝ) : |(rint y : ℝ) - y| ≤ 1 / 2 := by
  have h1 := Int.floor_le y
  have h2 := Int.lt_floor_add_one y
  unfold rint
  rw [abs_le]
  split_ifs <;> push_cast <;> constructor <;> linarith

theorem rint_intCast (z : ℤ) : rint (z : ℝ) = z := by
  unfold rint
  simp

theorem rint_mono : Monotone rint := by
  intro x y h
  have hx1 := Int.floor_le x
  have hx2 := Int.lt_floor_add_one x
  have hy1 := Int.floor_le y
  have hy2 := Int.lt_floor_add_one y
  rcases lt_or_eq_of_le (Int.floor_mono h) with hlt | heq
  · have hle : ⌊x⌋ + 1 ≤ ⌊y⌋ := hlt
    have a1 : rint x ≤ ⌊x⌋ + 1 := by unfold rint; split_ifs <;> omega
    have a2 : ⌊y⌋ ≤ rint y := by unfold rint; split_ifs <;> omega
    omega
  · unfold rint
    rw [← heq]
    split_ifs <;> first | omega | (exfalso; linarith)

theorem npRound_mono (p : ℤ) : Monotone (npRound p) := by
  intro x y h
  unfold npRound
  have hp : (0 : ℝ) < (10 : ℝ) ^ p := by positivity
  apply div_le_div_of_nonneg_right _ hp.le
  exact_mod_cast rint_mono (mul_le_mul_of_nonneg_right h hp.le)

theorem npRound_mult (p : ℤ) (z : ℤ) : npRound p ((z : ℝ) / (10 : ℝ) ^ p) = (z : ℝ) / (10 : ℝ) ^ p := by
  unfold npRound
  have hp : ((10 : ℝ) ^ p) ≠ 0 := by positivity
  rw [div_mul_cancel₀ _ hp, rint_intCast]

theorem npRound_idem (p : ℤ) (x : ℝ) : npRound p (npRound p x) = npRound p x :=
  npRound_mult p _

theorem npRound_close (p : ℤ) (x : ℝ) : |npRound p x - x| ≤ 1 / 2 / (10 : ℝ) ^ p := by
  unfold npRound
  have hp : (0 : ℝ) < (10 : ℝ) ^ p := by positivity
  have h := rint_spec (x * (10 : ℝ) ^ p)
  have : (rint (x * (10 : ℝ) ^ p) : ℝ) / (10 : ℝ) ^ p - x =
      ((rint (x * (10 : ℝ) ^ p) : ℝ) - x * (10 : ℝ) ^ p) / (10 : ℝ) ^ p := by
    field_simp
  rw [this, abs_div, abs_of_pos hp]
  exact div_le_div_of_nonneg_right h hp.le

theorem clip_mem {K : Type*} [LinearOrder K] {lo hi : K} (h : lo ≤ hi) (x : K) :
    lo ≤ clip lo hi x ∧ clip lo hi x ≤ hi := by
  unfold clip
  exact ⟨le_min (le_max_right _ _) h, min_le_right _ _⟩

theorem clip_of_mem {K : Type*} [LinearOrder K] {lo hi x : K} (h1 : lo ≤ x) (h2 : x ≤ hi) :
    clip lo hi x = x := by
  unfold clip
  rw [max_eq_left h1, min_eq_left h2]

theorem clip_of_le {K : Type*} [LinearOrder K] {lo hi x : K} (h : lo ≤ hi) (h1 : x ≤ lo) :
    clip lo hi x = lo := by
  unfold clip
  rw [max_eq_right h1, min_eq_left h]

theorem clip_of_ge {K : Type*} [LinearOrder K] {lo hi x : K} (h2 : hi ≤ x) :
    clip lo hi x = hi := by
  unfold clip
  rw [min_eq_right (le_trans h2 (le_max_left _ _))]

/-! ### trunc -/

theorem le_trunc {lo : ℤ} {x : ℝ} (h : (lo : ℝ) ≤ x) : lo ≤ trunc x := by
  unfold trunc
  split_ifs with h0
  · exact Int.le_floor.2 h
  · have := Int.le_ceil x
    exact_mod_cast le_trans h this

theorem trunc_le {hi : ℤ} {x : ℝ} (h : x ≤ (hi : ℝ)) : trunc x ≤ hi := by
  unfold trunc
  split_ifs with h0
  · have := Int.floor_le x
    exact_mod_cast le_trans this h
  · exact Int.ceil_le.2 h

theorem trunc_intCast (z : ℤ) : trunc (z : ℝ) = z := by
  unfold trunc
  split_ifs <;> simp

/-! ### levels -/

theorem dedup_aux {α : Type*} [DecidableEq α] (l : List α) :
    ∀ acc : List α, acc.Nodup →
      (l.foldl (fun acc x => if x ∈ acc then acc else acc ++ [x]) acc).Nodup ∧
      (∀ x, x ∈ l.foldl (fun acc x => if x ∈ acc then acc else acc ++ [x]) acc ↔ x ∈ acc ∨ x ∈ l) ∧
      acc <+: l.foldl (fun acc x => if x ∈ acc then acc else acc ++ [x]) acc := by
  induction l with
  | nil => intro acc h; simp [h]
  | cons a l ih =>
    intro acc h
    rw [List.foldl_cons]
    by_cases ha : a ∈ acc
    · rw [if_pos ha]
      obtain ⟨h1, h2, h3⟩ := ih acc h
      refine ⟨h1, fun x => ?_, h3⟩
      rw [h2]
      simp only [List.mem_cons]
      constructor
      · tauto
      · rintro (h | rfl | h) <;> tauto
    · rw [if_neg ha]
      have hn : (acc ++ [a]).Nodup := by
        rw [List.nodup_append]
        refine ⟨h, List.nodup_singleton a, ?_⟩
        intro x hx y hy
        simp only [List.mem_singleton] at hy
        subst hy
        rintro rfl
        exact ha hx
      obtain ⟨h1, h2, h3⟩ := ih _ hn
      refine ⟨h1, fun x => ?_, (List.prefix_append _ _).trans h3⟩
      rw [h2]
      simp only [List.mem_append, List.mem_cons, List.not_mem_nil, or_false]
      tauto

theorem dedupLevels_nodup {α : Type*} [DecidableEq α] (l : List α) : (dedupLevels l).Nodup :=
  (dedup_aux l [] List.nodup_nil).1

theorem mem_dedupLevels {α : Type*} [DecidableEq α] (l : List α) (x : α) : x ∈ dedupLevels l ↔ x ∈ l := by
  have := (dedup_aux l [] List.nodup_nil).2.1 x
  simpa [dedupLevels] using this

theorem dedupLevels_snoc {α : Type*} [DecidableEq α] (l : List α) (a : α) :
    dedupLevels (l ++ [a]) = if a ∈ l then dedupLevels l else dedupLevels l ++ [a] := by
  have h : dedupLevels (l ++ [a]) =
      if a ∈ dedupLevels l then dedupLevels l else dedupLevels l ++ [a] := by
    unfold dedupLevels
    rw [List.foldl_append]
    rfl
  rw [h]
  simp only [mem_dedupLevels]

theorem dedupLevels_of_nodup {α : Type*} [DecidableEq α] {l : List α} (h : l.Nodup) : dedupLevels l = l := by
  induction l using List.reverseRecOn with
  | nil => rfl
  | append_singleton l a ih =>
    rw [List.nodup_append] at h
    rw [dedupLevels_snoc, ih h.1, if_neg]
    intro ha
    exact h.2.2 a ha a (by simp) rfl

theorem dedupLevels_sublist {α : Type*} [DecidableEq α] (l : List α) : (dedupLevels l).Sublist l := by
  induction l using List.reverseRecOn with
  | nil => exact List.Sublist.refl _
  | append_singleton l a ih =>
    rw [dedupLevels_snoc]
    split
    · exact ih.trans (List.sublist_append_left _ _)
    · exact ih.append (List.Sublist.refl _)

/-! ### combinations -/

theorem mem_combinations {α : Type*} (c : List α) : ∀ (l : List α) (r : ℕ),
    c ∈ combinations r l ↔ c.Sublist l ∧ c.length = r := by
  intro l
  induction l generalizing c with
  | nil =>
    intro r
    cases r with
    | zero => simp [combinations]
    | succ r =>
      simp only [combinations, List.not_mem_nil, List.sublist_nil, false_iff, not_and]
      rintro rfl
      simp
  | cons x xs ih =>
    intro r
    cases r with
    | zero =>
      simp only [combinations, List.mem_singleton, List.length_eq_zero_iff]
      constructor
      · rintro rfl; simp
      · exact fun h => h.2
    | succ r =>
      simp only [combinations, List.mem_append, List.mem_map, ih]
      rw [List.sublist_cons_iff]
      constructor
      · rintro (⟨d, ⟨h1, h2⟩, rfl⟩ | ⟨h1, h2⟩)
        · exact ⟨Or.inr ⟨d, rfl, h1⟩, by simp [h2]⟩
        · exact ⟨Or.inl h1, h2⟩
      · rintro ⟨h | ⟨d, rfl, h⟩, hl⟩
        · exact Or.inr ⟨h, hl⟩
        · exact Or.inl ⟨d, ⟨h, by simpa using hl⟩, rfl⟩

theorem length_combinations {α : Type*} : ∀ (l : List α) (r : ℕ),
    (combinations r l).length = l.length.choose r := by
  intro l
  induction l with
  | nil => intro r; cases r <;> simp [combinations]
  | cons x xs ih =>
    intro r
    cases r with
    | zero => simp [combinations]
    | succ r =>
      simp only [combinations, List.length_append, List.length_map, ih, List.length_cons]
      rw [Nat.choose_succ_succ]

theorem nodup_combinations {α : Type*} : ∀ (l : List α), l.Nodup → ∀ r, (combinations r l).Nodup := by
  intro l
  induction l with
  | nil => intro _ r; cases r <;> simp [combinations]
  | cons x xs ih =>
    intro h r
    rw [List.nodup_cons] at h
    cases r with
    | zero => simp [combinations]
    | succ r =>
      simp only [combinations]
      rw [List.nodup_append]
      refine ⟨(ih h.2 r).map (fun a b hab => by simpa using hab), ih h.2 _, ?_⟩
      intro a ha b hb hab
      subst hab
      rw [List.mem_map] at ha
      obtain ⟨d, _, rfl⟩ := ha
      rw [mem_combinations] at hb
      exact h.1 (hb.1.subset (by simp))

end Verif.Proofs
