import Verif.Model.Selection
import Verif.Spec.Selection
import Mathlib.Algebra.Order.BigOperators.Group.List
import Mathlib.Data.List.Nodup
import Mathlib.Algebra.Order.Ring.Rat
import Mathlib.Algebra.Field.Rat
import Mathlib.Tactic.Linarith
import Mathlib.Tactic.FieldSimp
import Mathlib.Tactic.Ring

/-! # C50: proportional selection -/
namespace Verif.Props
open Verif.Model Verif.Spec

variable {K : Type*} [Field K] [LinearOrder K] [IsStrictOrderedRing K]

private theorem minimumOf_spec (l : List K) (m : K) (h : minimumOf l = some m) : m ∈ l ∧ ∀ x ∈ l, m ≤ x := by
  induction l generalizing m with
  | nil => cases h
  | cons x l ih =>
    cases l with
    | nil =>
      obtain rfl := Option.some.inj h
      simp
    | cons y l =>
      simp only [minimumOf] at h
      cases hm : minimumOf (y :: l) with
      | none => simp only [hm] at h; cases h
      | some m' =>
        simp only [hm, Option.map_some] at h
        obtain ⟨h1, h2⟩ := ih m' hm
        obtain rfl := Option.some.inj h
        refine ⟨?_, ?_⟩
        · rcases min_choice x m' with h | h
          · rw [h]; exact List.mem_cons_self
          · rw [h]; exact List.mem_cons_of_mem _ h1
        · intro z hz
          rcases List.mem_cons.mp hz with rfl | hz
          · exact min_le_left _ _
          · exact (min_le_right _ _).trans (h2 z hz)

private theorem minimumOf_some (l : List K) (hl : l ≠ []) : ∃ m, minimumOf l = some m := by
  induction l with
  | nil => exact absurd rfl hl
  | cons x l ih =>
    cases l with
    | nil => exact ⟨x, rfl⟩
    | cons y l =>
      obtain ⟨m, hm⟩ := ih (by simp)
      exact ⟨min x m, by simp only [minimumOf] at hm ⊢; rw [hm]; rfl⟩

private theorem firstReach_spec (u acc : K) (l : List K) (i : ℕ) (h : firstReach u acc l = some i) (hu : acc < u) :
    ∃ w, l[i]? = some w ∧ 0 < w := by
  induction l generalizing acc i with
  | nil => cases h
  | cons w l ih =>
    unfold firstReach at h
    split at h
    · obtain rfl := Option.some.inj h
      exact ⟨w, rfl, by linarith⟩
    · cases hr : firstReach u (acc + w) l with
      | none => rw [hr] at h; cases h
      | some j =>
        rw [hr] at h
        obtain rfl := Option.some.inj h
        obtain ⟨w', h1, h2⟩ := ih (acc + w) j hr (by rename_i hn; exact lt_of_not_ge hn)
        exact ⟨w', by simpa using h1, h2⟩

private theorem firstReach_some (u acc : K) (l : List K) (hl : l ≠ []) (h : u ≤ acc + l.sum) :
    ∃ i, firstReach u acc l = some i := by
  induction l generalizing acc with
  | nil => exact absurd rfl hl
  | cons w l ih =>
    unfold firstReach
    split
    · exact ⟨0, rfl⟩
    · rename_i hn
      cases l with
      | nil => simp at h; exact absurd h hn
      | cons y l =>
        obtain ⟨i, hi⟩ := ih (acc + w) (by simp) (by simp only [List.sum_cons] at h ⊢; linarith)
        exact ⟨i + 1, by rw [hi]; rfl⟩

private theorem sum_affine (l : List K) (m d : K) :
    (l.map (fun p => (p - m) / d)).sum = (l.sum - m * (l.length : K)) / d := by
  induction l with
  | nil => simp
  | cons x l ih =>
    rw [List.map_cons, List.sum_cons, ih, List.sum_cons, List.length_cons]
    push_cast
    rw [← add_div]
    congr 1
    ring

private theorem sum_excess_nonneg (l : List K) (m : K) (h : ∀ x ∈ l, m ≤ x) : 0 ≤ l.sum - m * (l.length : K) := by
  induction l with
  | nil => simp
  | cons x l ih =>
    have h1 := h x List.mem_cons_self
    have h2 := ih (fun y hy => h y (List.mem_cons_of_mem _ hy))
    rw [List.sum_cons, List.length_cons]
    push_cast
    linarith

private theorem sum_excess_pos (l : List K) (m : K) (h : ∀ x ∈ l, m ≤ x) (hx : ∃ x ∈ l, m < x) :
    0 < l.sum - m * (l.length : K) := by
  induction l with
  | nil => obtain ⟨x, hx, -⟩ := hx; cases hx
  | cons x l ih =>
    have h1 := h x List.mem_cons_self
    have hle : ∀ y ∈ l, m ≤ y := fun y hy => h y (List.mem_cons_of_mem _ hy)
    have h2 := sum_excess_nonneg l m hle
    rw [List.sum_cons, List.length_cons]
    push_cast
    obtain ⟨y, hy, hmy⟩ := hx
    rcases List.mem_cons.mp hy with rfl | hy
    · linarith
    · have := ih hle ⟨y, hy, hmy⟩
      linarith

/-- One selection from values that are not all equal, with a random number in `(0, 1]`: it succeeds and picks a position
whose value is not the smallest. -/
private theorem selectOne_ok (l : List K) (u : K) (hu0 : 0 < u) (hu1 : u ≤ 1) (hd : ∃ a ∈ l, ∃ b ∈ l, a < b) :
    ∃ i, selectOne l u = .ok i ∧ ∃ x, l[i]? = some x ∧ ∃ y ∈ l, y < x := by
  obtain ⟨a, ha, b, hb, hab⟩ := hd
  obtain ⟨m, hm⟩ := minimumOf_some l (List.ne_nil_of_mem ha)
  obtain ⟨hm1, hm2⟩ := minimumOf_spec l m hm
  have hpos := sum_excess_pos l m hm2 ⟨b, hb, lt_of_le_of_lt (hm2 a ha) hab⟩
  have hne : l.sum - m * (l.length : K) ≠ 0 := hpos.ne'
  obtain ⟨i, hi⟩ := firstReach_some u 0 (l.map (fun p => (p - m) / (l.sum - m * (l.length : K))))
    (by simp [List.ne_nil_of_mem ha]) (by rw [sum_affine, div_self hne]; linarith)
  refine ⟨i, ?_, ?_⟩
  · unfold selectOne
    simp only [hm, if_neg hne, hi]
  · obtain ⟨w, hw1, hw2⟩ := firstReach_spec u 0 _ i hi hu0
    rw [List.getElem?_map] at hw1
    cases hx : l[i]? with
    | none => rw [hx] at hw1; cases hw1
    | some x =>
      rw [hx] at hw1
      obtain rfl := Option.some.inj hw1
      refine ⟨x, rfl, m, hm1, ?_⟩
      rw [div_pos_iff_of_pos_right hpos] at hw2
      linarith

private theorem selectOne_valid (l : List K) (u : K) (i : ℕ) (h : selectOne l u = .ok i) : i < l.length := by
  unfold selectOne at h
  split at h
  · cases h
  · dsimp only at h
    split at h
    · cases h
    · split at h
      · cases h
      · rename_i m _ _ _ j hj
        cases h
        have : ∀ (l : List K) (acc : K) (j : ℕ), firstReach u acc l = some j → j < l.length := by
          intro l
          induction l with
          | nil => intro acc j h; cases h
          | cons w l ih =>
            intro acc j h
            unfold firstReach at h
            split at h
            · cases h; simp
            · cases hr : firstReach u (acc + w) l with
              | none => rw [hr] at h; cases h
              | some k =>
                rw [hr] at h
                cases h
                have := ih _ _ hr
                simp only [List.length_cons]; omega
        simpa using this _ _ _ hj

private theorem weights_spec (minimize : Bool) (perf : List K) (hp : perf ≠ []) :
    ∃ f : K → K, selectionWeights minimize perf = .ok (perf.map f) ∧
      ∀ a b, f b < f a ↔ StrictlyBetter minimize a b := by
  cases minimize
  · exact ⟨id, by simp [selectionWeights], fun a b => by simp [StrictlyBetter]⟩
  · obtain ⟨m, hm⟩ := minimumOf_some (perf.map (fun p => -p)) (by simpa using hp)
    refine ⟨fun p => -p - m, by simp [selectionWeights, hm], fun a b => ?_⟩
    simp only [StrictlyBetter, if_true]
    constructor <;> intro h <;> linarith

/-- C50, partial (with replacement, performances not all equal): for random numbers in `(0, 1]` the call returns as many
positions as asked for, each valid and never a worst one. -/
theorem c50_replacement_partial (minimize : Bool) (perf us : List K) (hu : ∀ u ∈ us, 0 < u ∧ u ≤ 1)
    (hd : ∃ a ∈ perf, ∃ b ∈ perf, a < b) :
    ∃ r, proportionalSelection minimize true perf us = .ok r ∧ r.length = us.length ∧
      ∀ i ∈ r, NotWorst minimize perf i := by
  obtain ⟨a, ha, b, hb, hab⟩ := hd
  obtain ⟨f, hf, hfb⟩ := weights_spec minimize perf (List.ne_nil_of_mem ha)
  have hd' : ∃ x ∈ perf.map f, ∃ y ∈ perf.map f, x < y := by
    cases minimize
    · exact ⟨f a, List.mem_map_of_mem ha, f b, List.mem_map_of_mem hb, (hfb b a).mpr hab⟩
    · exact ⟨f b, List.mem_map_of_mem hb, f a, List.mem_map_of_mem ha, (hfb a b).mpr hab⟩
  have key : ∀ us : List K, (∀ u ∈ us, 0 < u ∧ u ≤ 1) → ∃ r, us.mapM (selectOne (perf.map f)) = Except.ok r ∧
      r.length = us.length ∧ ∀ i ∈ r, NotWorst minimize perf i := by
    intro us
    induction us with
    | nil => intro _; exact ⟨[], rfl, rfl, by simp⟩
    | cons u us ih =>
      intro hu
      obtain ⟨i, hi, x, hx, y, hy, hyx⟩ := selectOne_ok (perf.map f) u (hu u List.mem_cons_self).1
        (hu u List.mem_cons_self).2 hd'
      obtain ⟨r, hr, hl, hn⟩ := ih (fun v hv => hu v (List.mem_cons_of_mem _ hv))
      refine ⟨i :: r, ?_, by simp [hl], ?_⟩
      · rw [List.mapM_cons, hi, hr]; rfl
      · intro j hj
        rcases List.mem_cons.mp hj with rfl | hj
        · rw [List.getElem?_map] at hx
          cases hp : perf[j]? with
          | none => rw [hp] at hx; cases hx
          | some p =>
            rw [hp] at hx
            obtain rfl := Option.some.inj hx
            obtain ⟨q, hq, rfl⟩ := List.mem_map.mp hy
            exact ⟨p, q, hp, hq, (hfb p q).mp hyx⟩
        · exact hn j hj
  obtain ⟨r, hr, hl, hn⟩ := key us hu
  exact ⟨r, by unfold proportionalSelection; rw [hf]; exact hr, hl, hn⟩

private theorem distinct_valid (us : List K) (perf : List K) (idx : List ℕ) (hl : perf.length = idx.length)
    (hn : idx.Nodup) (hus : us.length ≤ perf.length) (r : List ℕ) (h : selectDistinct us perf idx = .ok r) :
    r.length = us.length ∧ r.Nodup ∧ ∀ k ∈ r, k ∈ idx := by
  induction us generalizing perf idx r with
  | nil => cases h; simp
  | cons u us ih =>
    unfold selectDistinct at h
    split at h
    · rename_i h1
      have hus' : us = [] := by
        have : us.length + 1 ≤ perf.length := hus
        exact List.eq_nil_of_length_eq_zero (by omega)
      subst hus'
      split at h
      · cases h
      · rename_i k l _
        simp only [selectDistinct, Except.map] at h
        cases h
        exact ⟨rfl, List.nodup_singleton _, by simp⟩
    · split at h
      · cases h
      · rename_i i hi
        have hiv := selectOne_valid perf u i hi
        split at h
        · cases h
        · rename_i k hk
          cases hr : selectDistinct us (perf.eraseIdx i) (idx.eraseIdx i) with
          | error e => rw [hr] at h; cases h
          | ok r' =>
            rw [hr] at h
            cases h
            have hil : i < idx.length := by omega
            obtain ⟨h1, h2, h3⟩ := ih (perf.eraseIdx i) (idx.eraseIdx i)
              (by rw [List.length_eraseIdx_of_lt hiv, List.length_eraseIdx_of_lt hil, hl])
              (hn.eraseIdx i) (by
                rw [List.length_eraseIdx_of_lt hiv]
                simp only [List.length_cons] at hus
                omega) r' hr
            have hk' : idx[i] = k := by
              rw [List.getElem?_eq_getElem hil] at hk
              exact Option.some.inj hk
            refine ⟨by simp [h1], ?_, ?_⟩
            · rw [List.nodup_cons]
              refine ⟨fun hmem => ?_, h2⟩
              have := h3 k hmem
              rw [List.mem_eraseIdx_iff_getElem?] at this
              obtain ⟨j, hj, hjk⟩ := this
              apply hj
              have hjl : j < idx.length := by
                by_contra hc
                rw [List.getElem?_eq_none (by omega)] at hjk
                cases hjk
              rw [List.getElem?_eq_getElem hjl] at hjk
              exact (List.Nodup.getElem_inj_iff hn).mp (by rw [hk']; exact Option.some.inj hjk)
            · intro j hj
              rcases List.mem_cons.mp hj with rfl | hj
              · rw [← hk']; exact List.getElem_mem hil
              · exact List.mem_of_mem_eraseIdx (h3 j hj)

/-- C50: without replacement, whenever the call returns, for any random numbers, it returns as many positions as asked for,
all valid and pairwise distinct; asking for more than there are is refused. -/
theorem c50_distinct (minimize : Bool) (perf us : List K) (hp : perf ≠ []) :
    (∀ r, proportionalSelection minimize false perf us = .ok r →
      r.length = us.length ∧ r.Nodup ∧ ∀ i ∈ r, i < perf.length) ∧
    (perf.length < us.length → proportionalSelection minimize false perf us = .error .assertion) := by
  obtain ⟨f, hf, -⟩ := weights_spec minimize perf hp
  constructor
  · intro r h
    unfold proportionalSelection at h
    rw [hf] at h
    simp only [Except.bind, Bool.false_eq_true, if_false] at h
    split at h
    · rename_i hle
      obtain ⟨h1, h2, h3⟩ := distinct_valid us (perf.map f) (List.range (perf.map f).length) (by simp)
        List.nodup_range hle r h
      exact ⟨h1, h2, fun i hi => by simpa using h3 i hi⟩
    · cases h
  · intro hlt
    unfold proportionalSelection
    rw [hf]
    simp only [Except.bind, Bool.false_eq_true, if_false, List.length_map]
    rw [if_neg (by omega)]

/-- C50, partial (pairwise distinct performances): without replacement the call never fails, for random numbers in
`(0, 1]`. -/
theorem c50_no_failure_partial (minimize : Bool) (perf us : List K) (hp : perf ≠ []) (hn : perf.Nodup)
    (hu : ∀ u ∈ us, 0 < u ∧ u ≤ 1) (hus : us.length ≤ perf.length) :
    ∃ r, proportionalSelection minimize false perf us = .ok r := by
  obtain ⟨f, hf, hfb⟩ := weights_spec minimize perf hp
  have hinj : ∀ a b, f a = f b → a = b := by
    intro a b h
    have h1 : ¬ StrictlyBetter minimize a b := fun hc => ((hfb a b).mpr hc).ne h.symm
    have h2 : ¬ StrictlyBetter minimize b a := fun hc => ((hfb b a).mpr hc).ne h
    unfold StrictlyBetter at h1 h2
    cases minimize
    · simp at h1 h2; exact le_antisymm h1 h2
    · simp at h1 h2; exact le_antisymm h2 h1
  have key : ∀ (us l : List K) (idx : List ℕ), l.Nodup → l.length = idx.length → us.length ≤ l.length →
      (∀ u ∈ us, 0 < u ∧ u ≤ 1) → ∃ r, selectDistinct us l idx = .ok r := by
    intro us
    induction us with
    | nil => intro l idx _ _ _ _; exact ⟨[], rfl⟩
    | cons u us ih =>
      intro l idx hl hlen hle hu
      unfold selectDistinct
      split
      · rename_i h1
        have hus' : us = [] := by
          have : us.length + 1 ≤ l.length := hle
          exact List.eq_nil_of_length_eq_zero (by omega)
        subst hus'
        cases idx with
        | nil => simp at hlen; rw [hlen] at h1; simp at h1
        | cons k t => exact ⟨[k], rfl⟩
      · rename_i h1
        have h2 : 2 ≤ l.length := by
          simp only [List.length_cons] at hle
          omega
        have hd : ∃ a ∈ l, ∃ b ∈ l, a < b := by
          match l, hl, h2 with
          | x :: y :: t, hl, _ =>
            have hxy : x ≠ y := by
              intro h
              rw [List.nodup_cons] at hl
              exact hl.1 (by rw [h]; exact List.mem_cons_self)
            rcases lt_or_gt_of_ne hxy with h | h
            · exact ⟨x, by simp, y, by simp, h⟩
            · exact ⟨y, by simp, x, by simp, h⟩
        obtain ⟨i, hi, x, hx, -⟩ := selectOne_ok l u (hu u List.mem_cons_self).1 (hu u List.mem_cons_self).2 hd
        have hiv := selectOne_valid l u i hi
        have hil : i < idx.length := by omega
        obtain ⟨r, hr⟩ := ih (l.eraseIdx i) (idx.eraseIdx i) (hl.eraseIdx i)
          (by rw [List.length_eraseIdx_of_lt hiv, List.length_eraseIdx_of_lt hil, hlen])
          (by rw [List.length_eraseIdx_of_lt hiv]; simp only [List.length_cons] at hle; omega)
          (fun v hv => hu v (List.mem_cons_of_mem _ hv))
        simp only [hi, List.getElem?_eq_getElem hil, hr]
        exact ⟨idx[i] :: r, rfl⟩
  obtain ⟨r, hr⟩ := key us (perf.map f) (List.range (perf.map f).length)
    (List.Nodup.map (fun a b => hinj a b) hn) (by simp) (by simpa using hus) hu
  refine ⟨r, ?_⟩
  unfold proportionalSelection
  rw [hf]
  simp only [Except.bind, Bool.false_eq_true, if_false]
  rw [if_pos (by simpa using hus), hr]

/-- C50 refuted in general: if all performances are equal every call fails, and without replacement a call can fail as soon as the
remaining performances are equal; here `[1, 2, 2]` is minimised and two positions are asked for. -/
theorem c50_fails_on_ties :
    (∀ (minimize : Bool) (u : ℚ), proportionalSelection minimize true [3, 3] [u] = .error .index) ∧
    ∀ u : ℚ, proportionalSelection true false [(1 : ℚ), 2, 2] [1 / 2, u] = .error .index := by
  constructor
  · intro minimize u
    cases minimize <;>
      simp [proportionalSelection, selectionWeights, minimumOf, selectOne, Except.bind] <;> norm_num <;> rfl
  · intro u
    have h : selectionWeights true [(1 : ℚ), 2, 2] = .ok [1, 0, 0] := by decide +kernel
    unfold proportionalSelection
    rw [h]
    have h1 : selectOne [(1 : ℚ), 0, 0] 2⁻¹ = .ok 0 := by decide +kernel
    have h2 : selectOne [(0 : ℚ), 0] u = .error .index := by
      simp [selectOne, minimumOf]
    simp [Except.bind, selectDistinct, h1, h2, Except.map]

/-- C50: a random number that is exactly zero selects the first position, even if it is the worst one. -/
theorem c50_zero_draw : proportionalSelection true true [(5 : ℚ), 1] [0] = .ok [0] := by decide +kernel

/-- The hypotheses of the positive theorems are met. -/
example : proportionalSelection true true [(4 : ℚ), 1, 3] [1 / 4, 9 / 10] = .ok [1, 2] ∧
    proportionalSelection false false [(4 : ℚ), 1, 3] [1 / 4, 9 / 10, 1] = .ok [0, 2, 1] := by
  constructor <;> decide +kernel

end Verif.Props
