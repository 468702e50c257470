import Verif.Model.Solution
import Verif.Spec.Solution
import Verif.Proofs.Dict
import Mathlib.Tactic.Linarith

/-! # Lemmas about solution sets -/
namespace Verif.Proofs
open Verif.Model Verif.Spec

variable {α F : Type*}

/-! ### unique -/

section unique
variable {κ : Type*} [LinearOrder κ]

theorem lexLe_total (key : ℕ → κ) (i j : ℕ) : lexLe key i j ∨ lexLe key j i := by
  unfold lexLe
  rcases lt_trichotomy (key i) (key j) with h | h | h
  · exact Or.inl (Or.inl h)
  · rcases Nat.le_total i j with h2 | h2
    · exact Or.inl (Or.inr ⟨h, h2⟩)
    · exact Or.inr (Or.inr ⟨h.symm, h2⟩)
  · exact Or.inr (Or.inl h)

theorem lexLe_trans (key : ℕ → κ) {i j k : ℕ} (h1 : lexLe key i j) (h2 : lexLe key j k) : lexLe key i k := by
  unfold lexLe at *
  rcases h1 with h1 | ⟨h1, h1'⟩
  · rcases h2 with h2 | ⟨h2, _⟩
    · exact Or.inl (h1.trans h2)
    · exact Or.inl (h2 ▸ h1)
  · rcases h2 with h2 | ⟨h2, h2'⟩
    · exact Or.inl (h1 ▸ h2)
    · exact Or.inr ⟨h1.trans h2, h1'.trans h2'⟩

instance (key : ℕ → κ) : Std.Total (lexLe key) := ⟨lexLe_total key⟩
instance (key : ℕ → κ) : IsTrans ℕ (lexLe key) := ⟨fun _ _ _ => lexLe_trans key⟩

theorem lexLe_key {key : ℕ → κ} {i j : ℕ} (h : lexLe key i j) : key i ≤ key j := by
  rcases h with h | h
  · exact h.le
  · exact h.1.le

theorem runStarts_sublist (key : ℕ → κ) : ∀ (l : List ℕ) (p : Option ℕ), (runStarts key p l).Sublist l := by
  intro l
  induction l with
  | nil => intro p; cases p <;> exact List.Sublist.refl _
  | cons i l ih =>
    intro p
    cases p with
    | none => exact (ih _).cons_cons _
    | some q =>
      unfold runStarts
      split_ifs
      · exact (ih _).cons _
      · exact (ih _).cons_cons _

theorem mem_runStarts (key : ℕ → κ) : ∀ (l : List ℕ) (p : Option ℕ),
    l.Pairwise (lexLe key) → l.Nodup → (∀ q, p = some q → ∀ i ∈ l, lexLe key q i ∧ q ≠ i) →
    ∀ i, i ∈ runStarts key p l ↔ i ∈ l ∧ ∀ j, (j ∈ l ∨ p = some j) → j < i → key j ≠ key i := by
  intro l
  induction l with
  | nil => intro p _ _ _ i; cases p <;> simp [runStarts]
  | cons a l ih =>
    intro p hs hn hp i
    rw [List.pairwise_cons] at hs
    rw [List.nodup_cons] at hn
    have hnext : ∀ q, some a = some q → ∀ i ∈ l, lexLe key q i ∧ q ≠ i := by
      intro q hq i hi
      cases hq
      exact ⟨hs.1 i hi, fun h => hn.1 (h ▸ hi)⟩
    have IH := ih (some a) hs.2 hn.2 hnext
    have hahead : ∀ j ∈ l, j < a → key j ≠ key a := by
      intro j hj hlt heq
      rcases hs.1 j hj with h | ⟨_, h⟩
      · exact absurd heq.symm (ne_of_lt h)
      · omega
    cases p with
    | none =>
      simp only [runStarts, List.mem_cons, IH]
      constructor
      · rintro (rfl | ⟨h1, h2⟩)
        · refine ⟨Or.inl rfl, ?_⟩
          rintro j ((rfl | hj) | hj) hlt
          · omega
          · exact hahead j hj hlt
          · cases hj
        · refine ⟨Or.inr h1, ?_⟩
          rintro j ((rfl | hj) | hj) hlt
          · exact h2 j (Or.inr rfl) hlt
          · exact h2 j (Or.inl hj) hlt
          · cases hj
      · rintro ⟨rfl | h1, h2⟩
        · exact Or.inl rfl
        · refine Or.inr ⟨h1, ?_⟩
          rintro j (hj | hj) hlt
          · exact h2 j (Or.inl (Or.inr hj)) hlt
          · cases hj
            exact h2 a (Or.inl (Or.inl rfl)) hlt
    | some q =>
      have hq := hp q rfl
      obtain ⟨hqa, hqane⟩ := hq a (List.mem_cons_self ..)
      unfold runStarts
      split_ifs with hk
      · rw [IH]
        constructor
        · rintro ⟨h1, h2⟩
          refine ⟨List.mem_cons_of_mem _ h1, ?_⟩
          rintro j (hj | hj) hlt
          · rcases List.mem_cons.mp hj with rfl | hj
            · exact h2 j (Or.inr rfl) hlt
            · exact h2 j (Or.inl hj) hlt
          · cases hj
            intro heq
            have hai : key a = key i := hk.trans heq
            have : a < i := by
              rcases hs.1 i h1 with h | ⟨_, h⟩
              · exact absurd hai (ne_of_lt h)
              · have : a ≠ i := fun h => hn.1 (h ▸ h1)
                omega
            exact h2 a (Or.inr rfl) this hai
        · rintro ⟨h1, h2⟩
          rcases List.mem_cons.mp h1 with rfl | h1
          · exfalso
            have : q < i := by
              rcases hqa with h | ⟨_, h⟩
              · exact absurd hk.symm (ne_of_lt h)
              · omega
            exact h2 q (Or.inr rfl) this hk.symm
          · refine ⟨h1, ?_⟩
            rintro j (hj | hj) hlt
            · exact h2 j (Or.inl (List.mem_cons_of_mem _ hj)) hlt
            · cases hj
              exact h2 a (Or.inl (List.mem_cons_self ..)) hlt
      · simp only [List.mem_cons, IH]
        constructor
        · rintro (rfl | ⟨h1, h2⟩)
          · refine ⟨Or.inl rfl, ?_⟩
            rintro j ((rfl | hj) | hj) hlt
            · omega
            · exact hahead j hj hlt
            · cases hj
              exact fun h => hk h.symm
          · refine ⟨Or.inr h1, ?_⟩
            rintro j ((rfl | hj) | hj) hlt
            · exact h2 j (Or.inr rfl) hlt
            · exact h2 j (Or.inl hj) hlt
            · cases hj
              intro heq
              have l1 := lexLe_key hqa
              have l2 := lexLe_key (hs.1 i h1)
              exact hk (le_antisymm (heq ▸ l2) l1)
        · rintro ⟨rfl | h1, h2⟩
          · exact Or.inl rfl
          · refine Or.inr ⟨h1, ?_⟩
            rintro j (hj | hj) hlt
            · exact h2 j (Or.inl (Or.inr hj)) hlt
            · cases hj
              exact h2 a (Or.inl (Or.inl rfl)) hlt

theorem uniqueIndex_spec (key : ℕ → κ) (n : ℕ) :
    (uniqueIndex key n).Nodup ∧
    ∀ i, i ∈ uniqueIndex key n ↔ i < n ∧ ∀ j < i, key j ≠ key i := by
  have hp := List.perm_insertionSort (lexLe key) (List.range n)
  have hnd : (List.insertionSort (lexLe key) (List.range n)).Nodup := hp.nodup_iff.mpr List.nodup_range
  have hs := List.pairwise_insertionSort (lexLe key) (List.range n)
  refine ⟨hnd.sublist (runStarts_sublist key _ none), fun i => ?_⟩
  unfold uniqueIndex
  rw [mem_runStarts key _ none hs hnd (by simp) i, hp.mem_iff, List.mem_range]
  constructor
  · rintro ⟨h1, h2⟩
    exact ⟨h1, fun j hj => h2 j (Or.inl (hp.mem_iff.mpr (List.mem_range.mpr (hj.trans h1)))) hj⟩
  · rintro ⟨h1, h2⟩
    exact ⟨h1, fun j _ hj => h2 j hj⟩

end unique

theorem takeAt_length {β : Type*} (l : List β) (idx : List ℕ) (h : ∀ i ∈ idx, i < l.length) :
    (takeAt l idx).length = idx.length := by
  induction idx with
  | nil => rfl
  | cons i idx ih =>
    have hi := h i (List.mem_cons_self ..)
    unfold takeAt at *
    rw [List.filterMap_cons, List.getElem?_eq_getElem hi]
    simp [ih (fun j hj => h j (List.mem_cons_of_mem _ hj))]

/-! ### dictionaries -/

theorem dictSet_append {V : Type*} (d : List (String × V)) (k : String) (v : V) (h : k ∉ keys d) :
    dictSet d k v = d ++ [(k, v)] := by
  induction d with
  | nil => rfl
  | cons kv d ih =>
    obtain ⟨k', v'⟩ := kv
    simp only [keys, List.map_cons, List.mem_cons, not_or] at h
    simp [dictSet, Ne.symm h.1, ih h.2]

theorem dictUpdate_append {V : Type*} (items : List (String × V)) : ∀ d : List (String × V),
    (keys (d ++ items)).Nodup → dictUpdate d items = d ++ items := by
  induction items with
  | nil => intro d _; simp [dictUpdate]
  | cons kv items ih =>
    intro d h
    have hk : kv.1 ∉ keys d := by
      simp only [keys, List.map_append, List.map_cons] at h
      intro hc
      exact (List.nodup_append.mp h).2.2 _ hc _ (List.mem_cons_self ..) rfl
    have hset := dictSet_append d kv.1 kv.2 hk
    have : dictUpdate d (kv :: items) = dictUpdate (d ++ [kv]) items := by
      simp [dictUpdate, hset]
    rw [this, ih (d ++ [kv]) (by simpa using h)]
    simp

theorem dictOf_nodup {V : Type*} (items : List (String × V)) (h : (keys items).Nodup) :
    dictOf items = items := by
  unfold dictOf
  rw [dictUpdate_append items [] (by simpa using h)]
  simp

end Verif.Proofs
