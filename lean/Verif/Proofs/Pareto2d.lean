import Verif.Proofs.ParetoSort
import Mathlib.Algebra.Order.Group.Defs
import Mathlib.Algebra.Order.Group.Unbundled.Basic

/-! Helper lemmas for `non_dominated_set_2d`. -/
namespace Verif.Proofs
open Verif.Model Verif.Spec

variable {K : Type*} [LinearOrder K]

/-- Position `i` is a strict record: larger than everything before it. -/
def Record (y2 : List K) (i : ℕ) : Prop :=
  ∃ v, y2[i]? = some v ∧ ∀ j w, j < i → y2[j]? = some w → w < v

theorem sweep2d_spec (y2 : List K) : ∀ (rest : List K) (i : ℕ) (nd : List ℕ),
    y2.drop i = rest → i ≤ y2.length →
    (∀ k, k ∈ nd ↔ k < i ∧ Record y2 k) → nd.Pairwise (· < ·) →
    (∀ k, k ∈ sweep2d y2 i rest nd ↔ Record y2 k) ∧ (sweep2d y2 i rest nd).Pairwise (· < ·) := by
  intro rest
  induction rest with
  | nil =>
    intro i nd hd hi hnd hs
    have hlen : y2.length ≤ i := List.drop_eq_nil_iff.1 hd
    refine ⟨fun k => ?_, by simpa [sweep2d] using hs⟩
    simp only [sweep2d, hnd]
    refine ⟨fun h => h.2, fun h => ⟨?_, h⟩⟩
    obtain ⟨v, hv, _⟩ := h
    exact lt_of_lt_of_le (List.getElem?_eq_some_iff.1 hv).1 hlen
  | cons v rest ih =>
    intro i nd hd hi hnd hs
    have hlt : i < y2.length := by
      by_contra hge
      rw [List.drop_eq_nil_iff.2 (not_lt.1 hge)] at hd
      cases hd
    have hv : y2[i]? = some v := by
      have : (y2.drop i)[0]? = some v := by rw [hd]; rfl
      simpa using this
    have hd' : y2.drop (i + 1) = rest := by
      have := congrArg List.tail hd
      simpa using this
    -- the running maximum is attained at a kept position
    have hdom : ∀ j, j < i → ∀ w, y2[j]? = some w → ∃ k ∈ nd, ∃ u, y2[k]? = some u ∧ w ≤ u := by
      intro j
      induction j using Nat.strong_induction_on with
      | _ j ihj =>
        intro hj w hw
        by_cases hr : Record y2 j
        · exact ⟨j, (hnd j).2 ⟨hj, hr⟩, w, hw, le_rfl⟩
        · unfold Record at hr
          push Not at hr
          obtain ⟨j', w', hj', hw', hle⟩ := hr w hw
          obtain ⟨k, hk, u, hu, hwu⟩ := ihj j' hj' (hj'.trans hj) w' hw'
          exact ⟨k, hk, u, hu, hle.trans hwu⟩
    have hcond : ((! (nd.any (fun k => (y2[k]?).any (fun w => decide (v ≤ w))))) || nd.isEmpty) = true
        ↔ Record y2 i := by
      have hany : nd.any (fun k => (y2[k]?).any (fun w => decide (v ≤ w))) = true ↔
          ∃ j, j < i ∧ ∃ w, y2[j]? = some w ∧ v ≤ w := by
        rw [List.any_eq_true]
        constructor
        · rintro ⟨k, hk, hw⟩
          rw [Option.any_eq_true] at hw
          obtain ⟨w, hw, hle⟩ := hw
          exact ⟨k, ((hnd k).1 hk).1, w, hw, of_decide_eq_true hle⟩
        · rintro ⟨j, hj, w, hw, hle⟩
          obtain ⟨k, hk, u, hu, hwu⟩ := hdom j hj w hw
          refine ⟨k, hk, ?_⟩
          rw [hu]
          simpa using hle.trans hwu
      constructor
      · intro h
        refine ⟨v, hv, fun j w hj hw => ?_⟩
        by_contra hge
        have hT := hany.2 ⟨j, hj, w, hw, not_lt.1 hge⟩
        rw [hT] at h
        simp only [Bool.not_true, Bool.false_or, List.isEmpty_iff] at h
        obtain ⟨k, hk, _⟩ := hdom j hj w hw
        rw [h] at hk
        simp at hk
      · rintro ⟨v', hv', hrec⟩
        rw [hv] at hv'
        cases hv'
        have : nd.any (fun k => (y2[k]?).any (fun w => decide (v ≤ w))) = false := by
          rw [← Bool.not_eq_true]
          intro hT
          obtain ⟨j, hj, w, hw, hle⟩ := hany.1 hT
          exact absurd (hrec j w hj hw) (not_lt.2 hle)
        rw [this]; rfl
    unfold sweep2d
    split
    · rename_i hc
      have hrec := hcond.1 hc
      apply ih (i + 1) _ hd' hlt
      · intro k
        rw [List.mem_append, hnd, List.mem_singleton]
        constructor
        · rintro (⟨h1, h2⟩ | rfl)
          · exact ⟨by omega, h2⟩
          · exact ⟨by omega, hrec⟩
        · rintro ⟨h1, h2⟩
          rcases Nat.lt_succ_iff_lt_or_eq.1 h1 with h | h
          · exact Or.inl ⟨h, h2⟩
          · exact Or.inr h
      · rw [List.pairwise_append]
        refine ⟨hs, by simp, ?_⟩
        intro a ha b hb
        rw [List.mem_singleton] at hb
        subst hb
        exact ((hnd a).1 ha).1
    · rename_i hc
      apply ih (i + 1) _ hd' hlt _ hs
      intro k
      rw [hnd]
      constructor
      · rintro ⟨h1, h2⟩; exact ⟨by omega, h2⟩
      · rintro ⟨h1, h2⟩
        rcases Nat.lt_succ_iff_lt_or_eq.1 h1 with h | h
        · exact ⟨h, h2⟩
        · subst h
          exact absurd (hcond.2 h2) hc

omit [LinearOrder K] in
/-- The second coordinates in sorted order are aligned with `order`. -/
theorem y2_getElem? (y : List (K × K)) (order : List ℕ) (ho : ∀ a ∈ order, a < y.length) (i : ℕ) :
    (order.filterMap (fun i => (y[i]?).map Prod.snd))[i]? = (order[i]?).bind
      (fun a => (y[a]?).map Prod.snd) := by
  induction order generalizing i with
  | nil => simp
  | cons a os ih =>
    have ha := ho a (by simp)
    have hsome : (y[a]?).map Prod.snd = some y[a].2 := by simp [ha]
    rw [List.filterMap_cons, hsome]
    cases i with
    | zero => simp [hsome]
    | succ i =>
      simp only [List.getElem?_cons_succ]
      exact ih (fun b hb => ho b (by simp [hb])) i

theorem core_mem (y : List (K × K)) (order : List ℕ)
    (ho : IsDescendingOrder (y.map Prod.fst) order) (a : ℕ) :
    a ∈ ndSet2dCore y order ↔ ∃ (i : ℕ) (p : K × K), order[i]? = some a ∧ y[a]? = some p ∧
      ∀ (j b : ℕ) (q : K × K), j < i → order[j]? = some b → y[b]? = some q → q.2 < p.2 := by
  have hlt : ∀ b ∈ order, b < y.length := by
    intro b hb
    have := (ho.1.mem_iff).1 hb
    simpa using this
  unfold ndSet2dCore
  have hs := (sweep2d_spec (order.filterMap (fun i => (y[i]?).map Prod.snd))
    (order.filterMap (fun i => (y[i]?).map Prod.snd)) 0 [] (by simp) (by simp) (by simp) (by simp)).1
  simp only [List.mem_filterMap]
  constructor
  · rintro ⟨i, hi, ha⟩
    obtain ⟨v, hv, hrec⟩ := (hs i).1 hi
    rw [y2_getElem? y order hlt, ha] at hv
    simp only [Option.bind_some, Option.map_eq_some_iff] at hv
    obtain ⟨p, hp, rfl⟩ := hv
    refine ⟨i, p, ha, hp, fun j b q hj hb hq => ?_⟩
    apply hrec j q.2 hj
    rw [y2_getElem? y order hlt, hb]
    simp [hq]
  · rintro ⟨i, p, ha, hp, hrec⟩
    refine ⟨i, (hs i).2 ⟨p.2, ?_, ?_⟩, ha⟩
    · rw [y2_getElem? y order hlt, ha]; simp [hp]
    · intro j w hj hw
      rw [y2_getElem? y order hlt] at hw
      rw [Option.bind_eq_some_iff] at hw
      obtain ⟨b, hb, hw⟩ := hw
      rw [Option.map_eq_some_iff] at hw
      obtain ⟨q, hq, rfl⟩ := hw
      exact hrec j b q hj hb hq

theorem order_find (y : List (K × K)) (order : List ℕ)
    (ho : IsDescendingOrder (y.map Prod.fst) order) (a : ℕ) (ha : a < y.length) :
    ∃ i : ℕ, order[i]? = some a := by
  have : a ∈ order := (ho.1.mem_iff).2 (by simpa using ha)
  exact List.mem_iff_getElem?.1 this

/-- Every maximal value is represented among the selected points. -/
theorem core_complete (y : List (K × K)) (order : List ℕ)
    (ho : IsDescendingOrder (y.map Prod.fst) order) (a : ℕ) (p : K × K) (hp : y[a]? = some p)
    (hnd : ∀ q ∈ y, ¬ DominatesMax2 q p) :
    ∃ b ∈ ndSet2dCore y order, y[b]? = some p := by
  have ha := (List.getElem?_eq_some_iff.1 hp).1
  obtain ⟨i, hi⟩ := order_find y order ho a ha
  -- choose the first position holding the value p
  have hex : ∃ i b : ℕ, order[i]? = some b ∧ y[b]? = some p := ⟨i, a, hi, hp⟩
  classical
  obtain ⟨b, hb, hbp⟩ := Nat.find_spec hex
  refine ⟨b, (core_mem y order ho b).2 ⟨Nat.find hex, p, hb, hbp, ?_⟩, hbp⟩
  intro j c q hj hc hq
  have hne : q ≠ p := by
    rintro rfl
    exact Nat.find_min hex hj ⟨c, hc, hq⟩
  have h1 : p.1 ≤ q.1 := ho.2 j _ hj c b q.1 p.1 hc hb (by simp [hq]) (by simp [hbp])
  by_contra hge
  have h2 : p.2 ≤ q.2 := not_lt.1 hge
  apply hnd q (List.mem_iff_getElem?.2 ⟨_, hq⟩)
  refine ⟨h1, h2, ?_⟩
  by_contra hno
  push Not at hno
  exact hne (Prod.ext (le_antisymm hno.1 h1) (le_antisymm hno.2 h2))

/-- With distinct first coordinates every selected point is non-dominated. -/
theorem core_sound (y : List (K × K)) (order : List ℕ)
    (ho : IsDescendingOrder (y.map Prod.fst) order)
    (hdist : (y.map Prod.fst).Nodup) (a : ℕ) (ha : a ∈ ndSet2dCore y order) :
    ∃ p, y[a]? = some p ∧ ∀ q ∈ y, ¬ DominatesMax2 q p := by
  obtain ⟨i, p, hi, hp, hrec⟩ := (core_mem y order ho a).1 ha
  refine ⟨p, hp, fun q hq hd => ?_⟩
  obtain ⟨b, hb⟩ := List.mem_iff_getElem?.1 hq
  have hblt := (List.getElem?_eq_some_iff.1 hb).1
  obtain ⟨j, hj⟩ := order_find y order ho b hblt
  rcases lt_trichotomy j i with h | h | h
  · exact absurd (hrec j b q h hj hb) (not_lt.2 hd.2.1)
  · subst h
    rw [hi] at hj
    cases hj
    rw [hp] at hb
    cases hb
    rcases hd.2.2 with h | h <;> exact lt_irrefl _ h
  · have h1 : q.1 ≤ p.1 := ho.2 i j h a b p.1 q.1 hi hj (by simp [hp]) (by simp [hb])
    have heq : q.1 = p.1 := le_antisymm h1 hd.1
    have hab : a = b := by
      rw [List.nodup_iff_injective_getElem] at hdist
      have halt := (List.getElem?_eq_some_iff.1 hp).1
      have h2 : (⟨a, by simpa using halt⟩ : Fin (y.map Prod.fst).length) =
          ⟨b, by simpa using hblt⟩ := by
        apply hdist
        simp only [List.getElem_map]
        rw [(List.getElem?_eq_some_iff.1 hp).2, (List.getElem?_eq_some_iff.1 hb).2, heq]
      exact congrArg Fin.val h2
    subst hab
    rw [hp] at hb
    cases hb
    rcases hd.2.2 with h | h <;> exact lt_irrefl _ h

end Verif.Proofs
