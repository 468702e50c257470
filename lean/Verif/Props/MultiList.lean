import Verif.Spec.MultiList
import Mathlib.Data.List.Nodup

/-!
# C69: the linked lists behind the hypervolume computation
-/
namespace Verif.Props
open Verif.Model Verif.Spec

private theorem linked_append {k : Links} : ∀ {l1 : List ℕ} {a : ℕ} {l2 : List ℕ},
    Linked k (l1 ++ a :: l2) ↔ Linked k (l1 ++ [a]) ∧ Linked k (a :: l2)
  | [], a, l2 => by cases l2 <;> simp [Linked]
  | [b], a, l2 => by simp [Linked]; tauto
  | b :: c :: l1, a, l2 => by
    have ih := linked_append (k := k) (l1 := c :: l1) (a := a) (l2 := l2)
    simp only [List.cons_append] at ih ⊢
    simp only [Linked, ih]
    tauto

private theorem linked_congr {k k' : Links} : ∀ {l : List ℕ}, (∀ a ∈ l.dropLast, k'.next a = k.next a) →
    (∀ a ∈ l.tail, k'.prev a = k.prev a) → Linked k l → Linked k' l
  | [], _, _, _ => trivial
  | [_], _, _, _ => trivial
  | a :: b :: rest, hn, hp, h => by
    refine ⟨by rw [hn a (by simp [List.dropLast]), h.1], by rw [hp b (by simp), h.2.1], ?_⟩
    refine linked_congr (k := k) (l := b :: rest) ?_ ?_ h.2.2
    · intro x hx; exact hn x (by simp only [List.dropLast, List.mem_cons]; exact Or.inr hx)
    · intro x hx; exact hp x (by simp only [List.tail_cons, List.mem_cons] at hx ⊢; exact Or.inr hx)

/-- The pointers of a fresh list hold nothing. -/
theorem c69_links_empty : Holds Links.empty [] := by
  simp [Holds, Linked, Links.empty]

/-- Appending a new node puts it at the end. -/
theorem c69_links_append {k : Links} {l : List ℕ} {x : ℕ} (h : Holds k l) (hx : x ≠ 0) (hxl : x ∉ l) :
    Holds (k.append x) (l ++ [x]) := by
  obtain ⟨hnd, hl⟩ := h
  have hnd' : (0 :: (l ++ [x])).Nodup := by
    have : (0 :: (l ++ [x])) = (0 :: l) ++ [x] := rfl
    rw [this, List.nodup_append]
    refine ⟨hnd, by simp, ?_⟩
    intro a ha b hb
    simp only [List.mem_singleton] at hb
    subst hb
    rintro rfl
    rcases List.mem_cons.mp ha with h | h
    · exact hx h
    · exact hxl h
  refine ⟨hnd', ?_⟩
  -- the last node before
  rcases List.eq_nil_or_concat (0 :: l) with h | ⟨init, last, hlast⟩
  · simp at h
  have e : 0 :: (l ++ [0]) = init ++ [last] ++ [0] := by
    rw [← List.concat_eq_append (as := init), ← hlast]; rfl
  have e' : 0 :: ((l ++ [x]) ++ [0]) = init ++ last :: [x, 0] := by
    have : 0 :: ((l ++ [x]) ++ [0]) = (0 :: l) ++ [x, 0] := by simp
    rw [this, hlast]; simp
  rw [e, List.append_assoc] at hl
  obtain ⟨h1, h2⟩ := linked_append.mp hl
  have hlp : k.prev 0 = last := h2.2.1
  have hlastx : last ≠ x := by
    rintro rfl
    have : last ∈ 0 :: l := by rw [hlast]; simp
    rcases List.mem_cons.mp this with h | h
    · exact hx h
    · exact hxl h
  have hxin : x ∉ init ++ [last] := by
    rw [← List.concat_eq_append, ← hlast]
    simp [hx, hxl]
  have hnd2 : (init ++ [last]).Nodup := by rw [← List.concat_eq_append, ← hlast]; exact hnd
  have hhead : 0 ∉ (init ++ [last]).tail := by
    rw [← List.concat_eq_append, ← hlast]
    exact (List.nodup_cons.mp hnd).1
  rw [e', linked_append]
  constructor
  · refine linked_congr (k := k) ?_ ?_ h1
    · intro a ha
      rw [List.dropLast_concat] at ha
      have ha1 : a ≠ last := by
        rintro rfl
        exact (List.nodup_append.mp hnd2).2.2 a ha a (by simp) rfl
      have ha2 : a ≠ x := by
        rintro rfl
        exact hxin (List.mem_append_left _ ha)
      simp [Links.append, hlp, Function.update_of_ne ha1, Function.update_of_ne ha2]
    · intro a ha
      have ha1 : a ≠ 0 := fun h => hhead (h ▸ ha)
      have ha2 : a ≠ x := by
        rintro rfl
        exact hxin (List.mem_of_mem_tail ha)
      simp [Links.append, Function.update_of_ne ha1, Function.update_of_ne ha2]
  · refine ⟨by simp [Links.append, hlp], ?_, ?_, ?_, trivial⟩
    · simp [Links.append, hlp, Function.update_of_ne hx]
    · simp [Links.append, hlp, Function.update_of_ne hlastx.symm]
    · simp [Links.append]

/-- `extend` on a fresh list: the pointers hold the nodes in the given order. -/
theorem c69_links_extend {xs : List ℕ} (h : (0 :: xs).Nodup) : Holds (Links.empty.extend xs) xs := by
  have key : ∀ (ys l : List ℕ) (k : Links), (0 :: (l ++ ys)).Nodup → Holds k l → Holds (k.extend ys) (l ++ ys) := by
    intro ys
    induction ys with
    | nil => intro l k _ hk; simpa [Links.extend] using hk
    | cons y ys ih =>
      intro l k hnd hk
      have hy0 : y ≠ 0 := by
        rintro rfl
        exact (List.nodup_cons.mp hnd).1 (by simp)
      have hyl : y ∉ l := by
        intro hy
        have := (List.nodup_append.mp (List.nodup_cons.mp hnd).2).2.2 y hy y (by simp)
        exact this rfl
      have := ih (l ++ [y]) (k.append y) (by simpa using hnd) (c69_links_append hk hy0 hyl)
      simpa [Links.extend] using this
  simpa using key xs [] Links.empty (by simpa using h) c69_links_empty

/-- Removing a node unlinks it and nothing else. -/
theorem c69_links_remove {k : Links} {l1 l2 : List ℕ} {x : ℕ} (h : Holds k (l1 ++ x :: l2)) :
    Holds (k.remove x) (l1 ++ l2) := by
  obtain ⟨hnd, hl⟩ := h
  have hsub : (0 :: (l1 ++ l2)).Sublist (0 :: (l1 ++ x :: l2)) :=
    List.Sublist.cons_cons _ ((List.Sublist.refl l1).append (List.sublist_cons_self x l2))
  refine ⟨hsub.nodup hnd, ?_⟩
  -- predecessor and successor
  rcases List.eq_nil_or_concat (0 :: l1) with h0 | ⟨init, p, hp⟩
  · simp at h0
  obtain ⟨n, post, hn⟩ : ∃ n post, l2 ++ [0] = n :: post := by
    cases l2 with
    | nil => exact ⟨0, [], rfl⟩
    | cons a t => exact ⟨a, t ++ [0], rfl⟩
  have e : 0 :: ((l1 ++ x :: l2) ++ [0]) = init ++ p :: x :: n :: post := by
    have : 0 :: ((l1 ++ x :: l2) ++ [0]) = (0 :: l1) ++ x :: (l2 ++ [0]) := by simp
    rw [this, hp, hn]; simp
  have e' : 0 :: ((l1 ++ l2) ++ [0]) = init ++ p :: n :: post := by
    have : 0 :: ((l1 ++ l2) ++ [0]) = (0 :: l1) ++ (l2 ++ [0]) := by simp
    rw [this, hp, hn]; simp
  rw [e, linked_append] at hl
  obtain ⟨h1, hpx, hxp, hxn, hnx, h2⟩ := hl
  rw [e', linked_append]
  have hndA : (init ++ [p]).Nodup := by
    rw [← List.concat_eq_append, ← hp]
    exact (List.Sublist.cons_cons 0 (List.sublist_append_left l1 (x :: l2))).nodup hnd
  have hpost : ∀ a ∈ (n :: post).dropLast, a ≠ p := by
    intro a ha
    rw [← hn, List.dropLast_concat] at ha
    rintro rfl
    have hmem : a ∈ 0 :: l1 := by rw [hp]; simp
    rcases List.mem_cons.mp hmem with rfl | hm
    · exact (List.nodup_cons.mp hnd).1 (by simp [ha])
    · exact (List.nodup_append.mp (List.nodup_cons.mp hnd).2).2.2 a hm a (List.mem_cons_of_mem _ ha) rfl
  have hinitn : ∀ a ∈ (init ++ [p]).tail, a ≠ n := by
    intro a ha
    rw [← List.concat_eq_append, ← hp, List.tail_cons] at ha
    rintro rfl
    have hmem : a ∈ l2 ++ [0] := by rw [hn]; simp
    rcases List.mem_append.mp hmem with hm | hm
    · exact (List.nodup_append.mp (List.nodup_cons.mp hnd).2).2.2 a ha a (List.mem_cons_of_mem _ hm) rfl
    · rw [List.mem_singleton] at hm
      exact (List.nodup_cons.mp hnd).1 (hm ▸ List.mem_append_left _ ha)
  have hpostn : ∀ a ∈ post, a ≠ n := by
    intro a ha
    have hnd3 : (l2 ++ [0]).Nodup := by
      have h3 : (0 :: l2).Nodup :=
        (List.Sublist.cons_cons 0 ((List.sublist_cons_self x l2).trans (List.sublist_append_right l1 _))).nodup hnd
      exact (List.perm_append_singleton 0 l2).nodup_iff.mpr h3
    rw [hn] at hnd3
    rintro rfl
    exact (List.nodup_cons.mp hnd3).1 ha
  refine ⟨linked_congr (k := k) ?_ ?_ h1, ?_, ?_, linked_congr (k := k) ?_ ?_ h2⟩
  · intro a ha
    rw [List.dropLast_concat] at ha
    have : a ≠ p := by
      rintro rfl
      exact (List.nodup_append.mp hndA).2.2 a ha a (by simp) rfl
    simp [Links.remove, hxp, Function.update_of_ne this]
  · intro a ha
    simp [Links.remove, hxn, Function.update_of_ne (hinitn a ha)]
  · simp [Links.remove, hxp, hxn]
  · simp [Links.remove, hxp, hxn]
  · intro a ha
    simp [Links.remove, hxp, Function.update_of_ne (hpost a ha)]
  · intro a ha
    simp only [List.tail_cons] at ha
    simp [Links.remove, hxn, Function.update_of_ne (hpostn a ha)]

/-- Linking a node back right after it was removed restores every pointer, so a block of removals followed by the same
nodes linked back in reverse order restores them all. -/
theorem c69_links_restore {k : Links} {l : List ℕ} {xs : List ℕ} (h : Holds k l) (hnd : xs.Nodup) (hxs : ∀ x ∈ xs, x ∈ l) :
    xs.reverse.foldl Links.reinsert (xs.foldl Links.remove k) = k := by
  have one : ∀ (k : Links) (l : List ℕ) (x : ℕ), Holds k l → x ∈ l → (k.remove x).reinsert x = k := by
    intro k l x hk hx
    obtain ⟨l1, l2, rfl⟩ := List.append_of_mem hx
    obtain ⟨hnd, hl⟩ := hk
    have hpn : k.next (k.prev x) = x ∧ k.prev (k.next x) = x := by
      have e : 0 :: ((l1 ++ x :: l2) ++ [0]) = (0 :: l1) ++ x :: (l2 ++ [0]) := by simp
      rw [e, linked_append] at hl
      obtain ⟨h1, h2⟩ := hl
      constructor
      · rcases List.eq_nil_or_concat (0 :: l1) with h0 | ⟨init, p, hp⟩
        · simp at h0
        rw [hp, List.concat_eq_append, List.append_assoc, List.singleton_append, linked_append] at h1
        rw [h1.2.2.1, h1.2.1]
      · cases l2 with
        | nil => simp only [List.nil_append, Linked] at h2; rw [h2.1, h2.2.1]
        | cons a t => simp only [List.cons_append, Linked] at h2; rw [h2.1, h2.2.1]
    have hx0 : x ≠ 0 := by
      rintro rfl
      exact (List.nodup_cons.mp hnd).1 (by simp)
    have hpx : k.prev x ≠ x := by
      intro e
      have e1 : 0 :: ((l1 ++ x :: l2) ++ [0]) = (0 :: l1) ++ x :: (l2 ++ [0]) := by simp
      rw [e1, linked_append] at hl
      rcases List.eq_nil_or_concat (0 :: l1) with h0 | ⟨init, p, hp⟩
      · simp at h0
      have h1 := hl.1
      rw [hp, List.concat_eq_append, List.append_assoc, List.singleton_append, linked_append] at h1
      have hpx' : p = x := h1.2.2.1.symm.trans e
      have hmem : p ∈ 0 :: l1 := by rw [hp]; simp
      rw [hpx'] at hmem
      rcases List.mem_cons.mp hmem with h | h
      · exact hx0 h
      · exact (List.nodup_append.mp (List.nodup_cons.mp hnd).2).2.2 x h x (by simp) rfl
    have hnx : k.next x ≠ x := by
      intro e
      exact hpx (by rw [← e, hpn.2, e])
    have enext : ∀ y, ((k.remove x).reinsert x).next y = k.next y := by
      intro y
      simp only [Links.remove, Links.reinsert]
      rw [Function.update_of_ne hnx.symm]
      by_cases hy : y = k.prev x
      · subst hy; rw [Function.update_self, hpn.1]
      · rw [Function.update_of_ne hy, Function.update_of_ne hy]
    have eprev : ∀ y, ((k.remove x).reinsert x).prev y = k.prev y := by
      intro y
      simp only [Links.remove, Links.reinsert]
      rw [Function.update_of_ne hpx.symm]
      by_cases hy : y = k.next x
      · subst hy; rw [Function.update_self, hpn.2]
      · rw [Function.update_of_ne hy, Function.update_of_ne hy]
    cases hkk : (k.remove x).reinsert x with
    | mk n p =>
      cases k with
      | mk n' p' =>
        congr
        · funext y; have := enext y; rw [hkk] at this; exact this
        · funext y; have := eprev y; rw [hkk] at this; exact this
  induction xs generalizing k l with
  | nil => rfl
  | cons x xs ih =>
    have hx := hxs x List.mem_cons_self
    obtain ⟨l1, l2, rfl⟩ := List.append_of_mem hx
    have hk := c69_links_remove h
    have hnd' := List.nodup_cons.mp hnd
    have := ih (k := k.remove x) hk hnd'.2 (fun y hy => by
      have hyl := hxs y (List.mem_cons_of_mem _ hy)
      have hyx : y ≠ x := fun e => hnd'.1 (e ▸ hy)
      simp only [List.mem_append, List.mem_cons] at hyl ⊢
      tauto)
    rw [List.reverse_cons, List.foldl_append, List.foldl_cons, List.foldl_cons, List.foldl_nil, this]
    exact one k _ x h hx

/-- Three nodes, two of them removed: the hypotheses of the theorems above are met. -/
example : Holds (Links.empty.extend [3, 1, 2]) [3, 1, 2] ∧ Holds ((Links.empty.extend [3, 1, 2]).remove 1) [3, 2] :=
  ⟨c69_links_extend (by decide), c69_links_remove (l1 := [3]) (l2 := [2]) (c69_links_extend (by decide))⟩

end Verif.Props
