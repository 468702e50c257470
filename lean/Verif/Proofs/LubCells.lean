import Verif.Proofs.Lub
import Verif.Spec.BoxDecomposition

/-!
# Local upper bounds: which entry belongs to a vector
-/
namespace Verif.Proofs

open Verif.Model Verif.Spec

variable {m : ℕ} {L : Type*} [LinearOrder L]

/-- The condition under which the box of an entry contains `v`, coordinate 0 left aside. -/
def Picks (v : Fin (m + 2) → L) (e : LubEntry (m + 2) L) : Prop :=
  ∀ j, j ≠ 0 → v j < e.u j ∧ ∀ k, k < j → e.Z k j ≤ v j

theorem picks_unique_u {D : Set (Fin (m + 2) → L)} {v : Fin (m + 2) → L} {e e' : LubEntry (m + 2) L}
    (he : Valid D e) (he' : Valid D e') (hp : Picks v e) (hp' : Picks v e') (i : ℕ) :
    ∀ h : i < m + 2, e.u ⟨i, h⟩ = e'.u ⟨i, h⟩ := by
  have key : ∀ {e e' : LubEntry (m + 2) L}, Valid D e → Valid D e' → Picks v e → Picks v e' →
      ∀ j : Fin (m + 2), (∀ l, l < j → e.u l = e'.u l) → e.u j ≤ e'.u j := by
    intro e e' he he' hp hp' j hl
    obtain ⟨k, hk⟩ := he.free _ (he'.mem j)
    rcases lt_trichotomy k j with h | h | h
    · have h1 := he'.off j k (ne_of_lt h)
      rw [← hl k h] at h1
      exact absurd h1 (not_lt.2 hk)
    · rw [h, he'.diag] at hk
      exact hk
    · have hk0 : k ≠ 0 := by
        rintro rfl
        exact absurd h (not_lt.2 (Fin.zero_le _))
      have h1 := (hp' k hk0).2 j h
      have h2 := (hp k hk0).1
      exact absurd (lt_of_le_of_lt h1 h2) (not_lt.2 hk)
  induction i using Nat.strong_induction_on with
  | _ i ih =>
    intro h
    apply le_antisymm
    · exact key he he' hp hp' ⟨i, h⟩ (fun l hl => ih l.1 hl l.2)
    · exact key he' he hp' hp ⟨i, h⟩ (fun l hl => (ih l.1 hl l.2).symm)

/-- The entry of a vector, built coordinate by coordinate. -/
theorem exists_picks {lo hi : Fin (m + 2) → L} {D : Set (Fin (m + 2) → L)} (hB : Based lo hi D)
    {v : Fin (m + 2) → L} (hlo : ∀ k, lo k ≤ v k)
    (hlo0 : ∀ n ∈ D, (∀ l, l ≠ 0 → n l ≤ v l) → lo 0 < n 0) :
    ∃ e, Valid D e ∧ Picks v e ∧ ∀ n ∈ D, (∀ l, l ≠ 0 → n l ≤ v l) → e.u 0 ≤ n 0 := by
  have main : ∀ i : ℕ, 1 ≤ i → i ≤ m + 2 → ∃ e : LubEntry (m + 2) L,
      (∀ k, k.1 < i → e.Z k ∈ D) ∧ (∀ k, k.1 < i → e.Z k k = e.u k) ∧
      (∀ k, k.1 < i → k ≠ 0 → v k < e.u k) ∧ lo 0 < e.u 0 ∧
      (∀ k l, k.1 < i → l ≠ k → l.1 < i → e.Z k l < e.u l) ∧
      (∀ k l, k.1 < i → k < l → e.Z k l ≤ v l) ∧
      (∀ n ∈ D, (∀ l, l.1 < i → n l < e.u l) → (∀ l, i ≤ l.1 → n l ≤ v l) → False) ∧
      (∀ n ∈ D, (∀ l, l ≠ 0 → n l ≤ v l) → e.u 0 ≤ n 0) := by
    intro i
    induction i with
    | zero => intro h; exact absurd h (by decide)
    | succ i ih =>
      intro _ hi'
      by_cases hi0 : i = 0
      · subst hi0
        obtain ⟨w, hwD, hw, hmin⟩ := exists_least hB.fin (fun n => ∀ l, l ≠ 0 → n l ≤ v l) 0
          ⟨_, hB.dummy 0, by
            intro l hl
            simp only [lubInit, if_neg hl]
            exact hlo l⟩
        have hz : ∀ k : Fin (m + 2), k.1 < 0 + 1 ↔ k = 0 := by
          intro k
          rw [Fin.ext_iff]
          simp
        refine ⟨⟨fun _ => w 0, fun _ => w⟩, fun _ _ => hwD, ?_, ?_, hlo0 w hwD hw, ?_, ?_, ?_, ?_⟩
        · intro k hk
          rw [(hz k).1 hk]
        · intro k hk hk0
          exact absurd ((hz k).1 hk) hk0
        · intro k l hk hlk hl
          rw [(hz k).1 hk, (hz l).1 hl] at hlk
          exact absurd rfl hlk
        · intro k l hk hkl
          apply hw
          rintro rfl
          exact absurd hkl (not_lt.2 (Fin.zero_le _))
        · intro n hn h1 h2
          have h3 := hmin n hn (fun l hl => h2 l (by
            have : l.1 ≠ 0 := fun h => hl (Fin.ext h)
            omega))
          have h4 := h1 0 (by simp)
          exact absurd h4 (not_lt.2 h3)
        · intro n hn h1
          exact hmin n hn h1
      · obtain ⟨e, a1, a2, a3, a4, a5, a6, a7, a8⟩ := ih (by omega) (by omega)
        let I : Fin (m + 2) := ⟨i, by omega⟩
        have hI0 : I ≠ 0 := fun h => hi0 (by simpa [I, Fin.ext_iff] using h)
        have hlou : ∀ l : Fin (m + 2), l.1 < i → lo l < e.u l := by
          intro l hl
          by_cases hl0 : l = 0
          · rw [hl0]; exact a4
          · exact lt_of_le_of_lt (hlo l) (a3 l hl hl0)
        obtain ⟨w, hwD, hw, hmin⟩ := exists_least hB.fin
          (fun n => (∀ l : Fin (m + 2), l.1 < i → n l < e.u l) ∧ ∀ l : Fin (m + 2), i < l.1 → n l ≤ v l) I
          ⟨_, hB.dummy I, by
            constructor
            · intro l hl
              have : l ≠ I := fun h => by rw [h] at hl; exact lt_irrefl _ hl
              simp only [lubInit, if_neg this]
              exact hlou l hl
            · intro l hl
              have : l ≠ I := fun h => by rw [h] at hl; exact lt_irrefl _ hl
              simp only [lubInit, if_neg this]
              exact hlo l⟩
        have hvw : v I < w I := by
          by_contra hcon
          rw [not_lt] at hcon
          apply a7 w hwD hw.1
          intro l hl
          rcases Nat.eq_or_lt_of_le hl with h | h
          · have : l = I := Fin.ext h.symm
            rw [this]; exact hcon
          · exact hw.2 l h
        have hcase : ∀ k : Fin (m + 2), k.1 < i + 1 → k = I ∨ (k ≠ I ∧ k.1 < i) := by
          intro k hk
          by_cases h : k = I
          · exact Or.inl h
          · refine Or.inr ⟨h, ?_⟩
            have : k.1 ≠ i := fun h' => h (Fin.ext h')
            omega
        have h0I : (0 : Fin (m + 2)) ≠ I := Ne.symm hI0
        refine ⟨⟨Function.update e.u I (w I), Function.update e.Z I w⟩, ?_, ?_, ?_, ?_, ?_, ?_, ?_, ?_⟩
        · intro k hk
          rcases hcase k hk with rfl | ⟨h1, h2⟩
          · simpa using hwD
          · simp only [Function.update_of_ne h1]
            exact a1 k h2
        · intro k hk
          rcases hcase k hk with rfl | ⟨h1, h2⟩
          · simp
          · simp only [Function.update_of_ne h1]
            exact a2 k h2
        · intro k hk hk0
          rcases hcase k hk with rfl | ⟨h1, h2⟩
          · simpa using hvw
          · simp only [Function.update_of_ne h1]
            exact a3 k h2 hk0
        · simp only [Function.update_of_ne h0I]
          exact a4
        · intro k l hk hlk hl
          rcases hcase k hk with rfl | ⟨h1, h2⟩
          · rcases hcase l hl with rfl | ⟨h3, h4⟩
            · exact absurd rfl hlk
            · simp only [Function.update_self, Function.update_of_ne h3]
              exact hw.1 l h4
          · rcases hcase l hl with rfl | ⟨h3, h4⟩
            · simp only [Function.update_self, Function.update_of_ne h1]
              exact lt_of_le_of_lt (a6 k I h2 h2) hvw
            · simp only [Function.update_of_ne h3, Function.update_of_ne h1]
              exact a5 k l h2 hlk h4
        · intro k l hk hkl
          rcases hcase k hk with rfl | ⟨h1, h2⟩
          · simp only [Function.update_self]
            exact hw.2 l hkl
          · simp only [Function.update_of_ne h1]
            exact a6 k l h2 hkl
        · intro n hn h1 h2
          have h3 : ∀ l : Fin (m + 2), l.1 < i → n l < e.u l := by
            intro l hl
            have hlI : l ≠ I := fun h => by rw [h] at hl; exact lt_irrefl _ hl
            have := h1 l (by omega)
            simpa only [Function.update_of_ne hlI] using this
          have h4 := hmin n hn ⟨h3, fun l hl => h2 l (by omega)⟩
          have h5 := h1 I (by simp [I])
          simp only [Function.update_self] at h5
          exact absurd h5 (not_lt.2 h4)
        · intro n hn h1
          simp only [Function.update_of_ne h0I]
          exact a8 n hn h1
  obtain ⟨e, a1, a2, a3, -, a5, a6, a7, a8⟩ := main (m + 2) (by omega) (le_refl _)
  refine ⟨e, ⟨fun k => a1 k k.2, fun k => a2 k k.2, fun k l h => a5 k l k.2 h l.2, ?_⟩, ?_, a8⟩
  · intro n hn
    by_contra hcon
    push Not at hcon
    exact a7 n hn (fun l _ => hcon l) (fun l hl => absurd l.2 (not_lt.2 hl))
  · intro j hj
    exact ⟨a3 j j.2 hj, fun k hk => a6 k j k.2 hk⟩

/-- Points in general position: exactly one entry of the run belongs to a vector. -/
theorem run_picks {lo hi : Fin (m + 2) → L} (hlt : ∀ k, lo k < hi k) (zs : List (Fin (m + 2) → L))
    (hf : Fresh lo hi zs) {v : Fin (m + 2) → L} (hlo : ∀ k, lo k ≤ v k) (hhi : ∀ k, v k < hi k) :
    ∃ e ∈ lubRun zs [lubInit lo hi], Picks v e ∧
      (∀ e' ∈ lubRun zs [lubInit lo hi], Picks v e' → e' = e) ∧
      (e.u 0 ≤ v 0 ↔ ∃ z ∈ zs, ∀ k, z k ≤ v k) := by
  obtain ⟨hB, hg, hn, hv⟩ := lubRun_valid hlt zs hf
  have hdum : ∀ j : Fin (m + 2), ¬ (lubInit lo hi).Z j j ≤ v j := by
    intro j
    simp only [lubInit, if_true, not_le]
    exact hhi j
  obtain ⟨e, he, hp, hmin⟩ := exists_picks hB hlo (by
    rintro n (hn | ⟨j, rfl⟩) h
    · exact lt_of_le_of_ne (hf.1 n hn 0).1 (Ne.symm (hf.1 n hn 0).2.1)
    · by_cases hj : j = 0
      · simp only [lubInit, hj, if_true]
        exact hlt 0
      · exact absurd (h j hj) (hdum j))
  refine ⟨e, (hv e).2 he, hp, ?_, ?_⟩
  · intro e' he' hp'
    have he'' := (hv e').1 he'
    apply valid_unique hg hB.above he'' he
    funext k
    exact picks_unique_u he'' he hp' hp k.1 k.2
  · constructor
    · intro h0
      rcases he.mem 0 with h | ⟨j, hj⟩
      · refine ⟨_, h, fun k => ?_⟩
        by_cases hk : k = 0
        · rw [hk, he.diag]; exact h0
        · exact (hp k hk).2 0 (Fin.pos_of_ne_zero hk)
      · exfalso
        apply hdum j
        rw [hj]
        by_cases hk : j = 0
        · rw [hk, he.diag]; exact h0
        · exact (hp j hk).2 0 (Fin.pos_of_ne_zero hk)
    · rintro ⟨z, hz, hzv⟩
      exact le_trans (hmin z (Or.inl hz) (fun l _ => hzv l)) (hzv 0)

/-- Points in general position: what lies strictly below a bound. -/
theorem run_below {lo hi : Fin (m + 2) → L} (hlt : ∀ k, lo k < hi k) (zs : List (Fin (m + 2) → L))
    (hf : Fresh lo hi zs) {v : Fin (m + 2) → L} (hlo : ∀ k, lo k ≤ v k) :
    (∃ e ∈ lubRun zs [lubInit lo hi], ∀ k, v k < e.u k) ↔
      (∀ k, v k < hi k) ∧ ∀ z ∈ zs, ¬ ∀ k, z k ≤ v k := by
  obtain ⟨hB, hg, hn, hval⟩ := lubRun_valid hlt zs hf
  constructor
  · rintro ⟨e, he, hv⟩
    have hve := (hval e).1 he
    constructor
    · intro k
      obtain ⟨l, hl⟩ := hve.free _ (hB.dummy k)
      by_cases h : l = k
      · rw [h] at hl
        simp only [lubInit, if_true] at hl
        exact lt_of_lt_of_le (hv k) hl
      · simp only [lubInit, if_neg h] at hl
        exact absurd (hve.lo_lt (hi := hi) hB.above l) (not_lt.2 hl)
    · intro z hz hzv
      obtain ⟨k, hk⟩ := hve.free z (Or.inl hz)
      exact absurd (lt_of_le_of_lt (hzv k) (hv k)) (not_lt.2 hk)
  · rintro ⟨hhi, hnd⟩
    obtain ⟨e, he, hp, -, h0⟩ := run_picks hlt zs hf hlo hhi
    refine ⟨e, he, fun k => ?_⟩
    by_cases hk : k = 0
    · rw [hk, ← not_le, h0]
      rintro ⟨z, hz, hzv⟩
      exact hnd z hz hzv
    · exact (hp k hk).1

/-! ### Breaking ties by the order of processing -/

/-- A vector with a time stamp in every coordinate. -/
def stamp (t : ℕ) (z : Fin m → L) : Fin m → L ×ₗ ℕ := fun k => toLex (z k, t)

/-- The points stamped with consecutive times. -/
def stampAll : ℕ → List (Fin m → L) → List (Fin m → L ×ₗ ℕ)
  | _, [] => []
  | t, z :: zs => stamp t z :: stampAll (t + 1) zs

/-- Forget the time stamps. -/
def strip (e : LubEntry m (L ×ₗ ℕ)) : LubEntry m L where
  u := fun k => (ofLex (e.u k)).1
  Z := fun j k => (ofLex (e.Z j k)).1

/-- All time stamps of the entry are below `t` and at least 1. -/
def Before (t : ℕ) (e : LubEntry m (L ×ₗ ℕ)) : Prop :=
  (∀ k, 1 ≤ (ofLex (e.u k)).2 ∧ (ofLex (e.u k)).2 < t) ∧
    ∀ j k, 1 ≤ (ofLex (e.Z j k)).2 ∧ (ofLex (e.Z j k)).2 < t

theorem lex_lt_late {a : L} {t : ℕ} {x : L ×ₗ ℕ} (h : (ofLex x).2 < t) :
    toLex (a, t) < x ↔ a < (ofLex x).1 := by
  rw [Prod.Lex.lt_iff]
  constructor
  · rintro (h1 | ⟨h1, h2⟩)
    · exact h1
    · exact absurd h2 (not_lt.2 h.le)
  · intro h1
    exact Or.inl h1

theorem lex_le_late {a : L} {t : ℕ} {x : L ×ₗ ℕ} (h : (ofLex x).2 < t) :
    x ≤ toLex (a, t) ↔ (ofLex x).1 ≤ a := by
  rw [← not_lt, lex_lt_late h, not_lt]

theorem lex_lt_early {a : L} {x : L ×ₗ ℕ} (h : 1 ≤ (ofLex x).2) :
    x < toLex (a, 0) ↔ (ofLex x).1 < a := by
  rw [Prod.Lex.lt_iff]
  constructor
  · rintro (h1 | ⟨h1, h2⟩)
    · exact h1
    · exact absurd h2 (by simp)
  · intro h1
    exact Or.inl h1

theorem lex_le_early {a : L} {x : L ×ₗ ℕ} (h : 1 ≤ (ofLex x).2) :
    toLex (a, 0) ≤ x ↔ a ≤ (ofLex x).1 := by
  rw [← not_lt, lex_lt_early h, not_lt]

theorem hit_stamp {e : LubEntry m (L ×ₗ ℕ)} {t : ℕ} (h : Before t e) (z : Fin m → L) :
    e.hit (stamp t z) = (strip e).hit z := by
  rw [Bool.eq_iff_iff, hit_iff, hit_iff]
  exact forall_congr' (fun k => lex_lt_late (h.1 k).2)

theorem addable_stamp {e : LubEntry m (L ×ₗ ℕ)} {t : ℕ} (h : Before t e) (z : Fin m → L) (j : Fin m) :
    e.addable (stamp t z) j = (strip e).addable z j := by
  rw [Bool.eq_iff_iff, addable_iff, addable_iff]
  exact forall_congr' (fun k => forall_congr' (fun _ => lex_le_late (h.2 k j).2))

theorem strip_replace (e : LubEntry m (L ×ₗ ℕ)) (t : ℕ) (z : Fin m → L) (j : Fin m) :
    strip (e.replace (stamp t z) j) = (strip e).replace z j := by
  ext k l
  · by_cases hk : k = j
    · subst hk
      simp [strip, LubEntry.replace, stamp]
    · simp [strip, LubEntry.replace, Function.update_of_ne hk]
  · by_cases hk : k = j
    · subst hk
      simp [strip, LubEntry.replace, stamp]
    · simp [strip, LubEntry.replace, Function.update_of_ne hk]

theorem before_replace {e : LubEntry m (L ×ₗ ℕ)} {t : ℕ} (ht : 1 ≤ t) (h : Before t e) (z : Fin m → L)
    (j : Fin m) : Before (t + 1) (e.replace (stamp t z) j) := by
  constructor
  · intro k
    by_cases hk : k = j
    · subst hk
      simp [LubEntry.replace, stamp, ht]
    · simp only [LubEntry.replace, Function.update_of_ne hk]
      exact ⟨(h.1 k).1, (h.1 k).2.trans (Nat.lt_succ_self t)⟩
  · intro i k
    by_cases hk : i = j
    · subst hk
      simp [LubEntry.replace, stamp, ht]
    · simp only [LubEntry.replace, Function.update_of_ne hk]
      exact ⟨(h.2 i k).1, (h.2 i k).2.trans (Nat.lt_succ_self t)⟩

theorem lubStep_stamp {S : List (LubEntry m (L ×ₗ ℕ))} {t : ℕ} (ht : 1 ≤ t) (hS : ∀ e ∈ S, Before t e)
    (z : Fin m → L) :
    lubStep (S.map strip) z = (lubStep S (stamp t z)).map strip ∧
      ∀ e ∈ lubStep S (stamp t z), Before (t + 1) e := by
  constructor
  · have hany : (S.map strip).any (LubEntry.hit z) = S.any (LubEntry.hit (stamp t z)) := by
      rw [List.any_map, Bool.eq_iff_iff, List.any_eq_true, List.any_eq_true]
      constructor
      · rintro ⟨e, he, h⟩
        exact ⟨e, he, by rw [hit_stamp (hS e he)]; exact h⟩
      · rintro ⟨e, he, h⟩
        exact ⟨e, he, by rw [hit_stamp (hS e he)] at h; exact h⟩
    unfold lubStep
    rw [hany]
    split_ifs with h
    · simp only [List.map_append, List.map_flatMap, List.map_map]
      congr 1
      · rw [List.filter_map]
        congr 1
        apply List.filter_congr
        intro e he
        simp [hit_stamp (hS e he)]
      · congr 1
        funext j
        rw [List.filter_map, List.filter_map, List.map_map]
        have h1 : S.filter (LubEntry.hit z ∘ strip) = S.filter (LubEntry.hit (stamp t z)) := by
          apply List.filter_congr
          intro e he
          simp [hit_stamp (hS e he)]
        rw [h1]
        have h2 : (S.filter (LubEntry.hit (stamp t z))).filter (LubEntry.addable z j ∘ strip) =
            (S.filter (LubEntry.hit (stamp t z))).filter (LubEntry.addable (stamp t z) j) := by
          apply List.filter_congr
          intro e he
          simp [addable_stamp (hS e (List.mem_filter.1 he).1)]
        rw [h2]
        apply List.map_congr_left
        intro e _
        simp [strip_replace]
    · rfl
  · intro e he
    rw [mem_lubStep] at he
    rcases he with ⟨h1, -⟩ | ⟨j, a, h1, -, -, rfl⟩
    · have := hS e h1
      exact ⟨fun k => ⟨(this.1 k).1, (this.1 k).2.trans (Nat.lt_succ_self t)⟩,
        fun i k => ⟨(this.2 i k).1, (this.2 i k).2.trans (Nat.lt_succ_self t)⟩⟩
    · exact before_replace ht (hS a h1) z j

theorem lubRun_stamp (zs : List (Fin m → L)) : ∀ {S : List (LubEntry m (L ×ₗ ℕ))} {t : ℕ}, 1 ≤ t →
    (∀ e ∈ S, Before t e) →
    lubRun zs (S.map strip) = (lubRun (stampAll t zs) S).map strip ∧
      ∀ e ∈ lubRun (stampAll t zs) S, Before (t + zs.length) e := by
  induction zs with
  | nil => intro S t _ hS; exact ⟨rfl, hS⟩
  | cons z zs ih =>
    intro S t ht hS
    obtain ⟨h1, h2⟩ := lubStep_stamp ht hS z
    obtain ⟨h3, h4⟩ := ih (S := lubStep S (stamp t z)) (t := t + 1) (by omega) h2
    constructor
    · simp only [lubRun, List.foldl_cons, stampAll] at h3 ⊢
      rw [h1]
      exact h3
    · intro e he
      have := h4 e he
      rw [List.length_cons, Nat.add_comm zs.length 1, ← Nat.add_assoc]
      exact this

theorem mem_stampAll {zs : List (Fin m → L)} : ∀ {t : ℕ} {y : Fin m → L ×ₗ ℕ}, y ∈ stampAll t zs →
    ∃ z ∈ zs, ∃ s, t ≤ s ∧ s < t + zs.length ∧ y = stamp s z := by
  induction zs with
  | nil => intro t y h; simp [stampAll] at h
  | cons z zs ih =>
    intro t y h
    simp only [stampAll, List.mem_cons] at h
    rcases h with rfl | h
    · exact ⟨z, by simp, t, le_refl _, by simp, rfl⟩
    · obtain ⟨z', hz', s, h1, h2, h3⟩ := ih h
      exact ⟨z', by simp [hz'], s, by omega, by simp; omega, h3⟩

theorem stampAll_mem {zs : List (Fin m → L)} : ∀ {t : ℕ} {z : Fin m → L}, z ∈ zs →
    ∃ s, t ≤ s ∧ s < t + zs.length ∧ stamp s z ∈ stampAll t zs := by
  induction zs with
  | nil => intro t z h; simp at h
  | cons y zs ih =>
    intro t z h
    rcases List.mem_cons.1 h with rfl | h
    · exact ⟨t, le_refl _, by simp, by simp [stampAll]⟩
    · obtain ⟨s, h1, h2, h3⟩ := ih (t := t + 1) h
      exact ⟨s, by omega, by simp; omega, by simp [stampAll, h3]⟩

theorem stampAll_pairwise (zs : List (Fin m → L)) (t : ℕ) :
    (stampAll t zs).Pairwise (fun z z' => ∀ j, z' j ≠ z j) := by
  induction zs generalizing t with
  | nil => exact List.Pairwise.nil
  | cons z zs ih =>
    rw [stampAll, List.pairwise_cons]
    refine ⟨?_, ih _⟩
    intro y hy j
    obtain ⟨z', _, s, h1, _, rfl⟩ := mem_stampAll hy
    intro h
    have : s = t := congrArg (fun x : L ×ₗ ℕ => (ofLex x).2) h
    omega

theorem fresh_stamp {lo hi : Fin m → L} {zs : List (Fin m → L)} (h : ∀ z ∈ zs, ∀ k, lo k ≤ z k) :
    Fresh (stamp 1 lo) (stamp 1 hi) (stampAll 2 zs) := by
  refine ⟨?_, stampAll_pairwise zs 2⟩
  intro y hy k
  obtain ⟨z, hz, s, h1, _, rfl⟩ := mem_stampAll hy
  refine ⟨?_, ?_, ?_⟩
  · exact (lex_le_late (x := stamp 1 lo k) (by simp [stamp]; omega)).2 (h z hz k)
  · intro h'
    have : s = 1 := congrArg (fun x : L ×ₗ ℕ => (ofLex x).2) h'
    omega
  · intro h'
    have : s = 1 := congrArg (fun x : L ×ₗ ℕ => (ofLex x).2) h'
    omega

theorem init_stamp (lo hi : Fin m → L) :
    strip (lubInit (stamp 1 lo) (stamp 1 hi)) = lubInit lo hi ∧
      Before 2 (lubInit (stamp 1 lo) (stamp 1 hi)) := by
  constructor
  · ext j k
    · rfl
    · simp only [strip, lubInit, stamp]
      split_ifs <;> rfl
  · constructor
    · intro k
      simp [lubInit, stamp]
    · intro j k
      simp only [lubInit, stamp]
      split_ifs <;> simp

theorem run_eq_strip (lo hi : Fin m → L) (zs : List (Fin m → L)) :
    lubRun zs [lubInit lo hi] =
      (lubRun (stampAll 2 zs) [lubInit (stamp 1 lo) (stamp 1 hi)]).map strip ∧
      ∀ e ∈ lubRun (stampAll 2 zs) [lubInit (stamp 1 lo) (stamp 1 hi)], Before (2 + zs.length) e := by
  obtain ⟨h1, h2⟩ := init_stamp lo hi
  have := lubRun_stamp zs (S := [lubInit (stamp 1 lo) (stamp 1 hi)]) (t := 2) (by omega)
    (by intro e he; rw [List.mem_singleton] at he; rw [he]; exact h2)
  rw [List.map_singleton, h1] at this
  exact this

theorem stamp_lt {lo hi : Fin m → L} (h : ∀ k, lo k < hi k) (k : Fin m) : stamp 1 lo k < stamp 1 hi k := by
  rw [Prod.Lex.lt_iff]
  exact Or.inl (h k)

/-- **Local upper bounds, any points.** -/
theorem lub_below {lo hi : Fin (m + 2) → L} (hlt : ∀ k, lo k < hi k) (zs : List (Fin (m + 2) → L))
    (hz : ∀ z ∈ zs, ∀ k, lo k ≤ z k) {v : Fin (m + 2) → L} (hlo : ∀ k, lo k ≤ v k) :
    (∃ e ∈ lubRun zs [lubInit lo hi], ∀ k, v k < e.u k) ↔
      (∀ k, v k < hi k) ∧ ∀ z ∈ zs, ¬ ∀ k, z k ≤ v k := by
  obtain ⟨hrun, hbef⟩ := run_eq_strip lo hi zs
  have key := run_below (stamp_lt hlt) (stampAll 2 zs) (fresh_stamp (hi := hi) hz)
    (v := stamp (2 + zs.length) v) (fun k =>
      (lex_le_late (x := stamp 1 lo k) (by simp [stamp]; omega)).2 (hlo k))
  rw [hrun]
  constructor
  · rintro ⟨e, he, hv⟩
    obtain ⟨a, ha, rfl⟩ := List.mem_map.1 he
    obtain ⟨h1, h2⟩ := key.1 ⟨a, ha, fun k => (lex_lt_late ((hbef a ha).1 k).2).2 (hv k)⟩
    refine ⟨fun k => (lex_lt_late (x := stamp 1 hi k) (by simp [stamp]; omega)).1 (h1 k), ?_⟩
    intro z hzz hzv
    obtain ⟨s, _, hs, hmem⟩ := stampAll_mem (t := 2) hzz
    exact h2 _ hmem (fun k => (lex_le_late (x := stamp s z k) (by simpa [stamp] using hs)).2 (hzv k))
  · rintro ⟨h1, h2⟩
    obtain ⟨a, ha, hv⟩ := key.2 ⟨fun k =>
        (lex_lt_late (x := stamp 1 hi k) (by simp [stamp]; omega)).2 (h1 k), by
      intro y hy hyv
      obtain ⟨z, hzz, s, _, hs, rfl⟩ := mem_stampAll hy
      exact h2 z hzz (fun k => (lex_le_late (x := stamp s z k) (by simpa [stamp] using hs)).1 (hyv k))⟩
    exact ⟨strip a, List.mem_map.2 ⟨a, ha, rfl⟩, fun k => (lex_lt_late ((hbef a ha).1 k).2).1 (hv k)⟩

theorem foldl_max_lt {α : Type*} (f : α → L) (l : List α) (a x : L) :
    l.foldl (fun b k => max b (f k)) a < x ↔ a < x ∧ ∀ k ∈ l, f k < x := by
  induction l generalizing a with
  | nil => simp
  | cons y l ih =>
    rw [List.foldl_cons, ih, max_lt_iff]
    simp only [List.mem_cons, forall_eq_or_imp]
    tauto

theorem maxBefore_lt {Z : Fin (m + 1) → Fin (m + 1) → L} {j : Fin (m + 1)} (hj : j ≠ 0) {x : L} :
    maxBefore Z j < x ↔ ∀ k, k < j → Z k j < x := by
  unfold maxBefore
  rw [foldl_max_lt]
  constructor
  · rintro ⟨-, h⟩ k hk
    exact h k (by simpa using hk)
  · intro h
    exact ⟨h 0 (Fin.pos_of_ne_zero hj), fun k hk => h k (by simpa using hk)⟩

theorem inCell_cell {ref : Fin (m + 2) → L} {e : LubEntry (m + 2) L} {v : Fin (m + 2) → L}
    (hv : v 0 ≤ ref 0) :
    InCell (e.cell ref) v ↔ e.Z 0 0 < v 0 ∧ ∀ j, j ≠ 0 → v j ≤ e.u j ∧ ∀ k, k < j → e.Z k j < v j := by
  constructor
  · rintro ⟨h1, h2⟩
    refine ⟨by simpa [LubEntry.cell] using h1 0, fun j hj => ⟨?_, ?_⟩⟩
    · have := h2 j
      simpa only [LubEntry.cell, if_neg hj] using this
    · have := h1 j
      simp only [LubEntry.cell, if_neg hj] at this
      exact (maxBefore_lt hj).1 this
  · rintro ⟨h1, h2⟩
    constructor
    · intro j
      by_cases hj : j = 0
      · subst hj
        simpa [LubEntry.cell] using h1
      · simp only [LubEntry.cell, if_neg hj]
        exact (maxBefore_lt hj).2 (h2 j hj).2
    · intro j
      by_cases hj : j = 0
      · subst hj
        simpa [LubEntry.cell] using hv
      · simp only [LubEntry.cell, if_neg hj]
        exact (h2 j hj).1

theorem countP_eq_one {α : Type*} [DecidableEq α] {l : List α} (hn : l.Nodup) {p : α → Bool} {a : α}
    (ha : a ∈ l) (hp : p a = true) (hu : ∀ b ∈ l, p b = true → b = a) : l.countP p = 1 := by
  have : l.countP p = l.count a := by
    rw [List.count]
    apply List.countP_congr
    intro b hb
    constructor
    · intro h; simp [hu b hb h]
    · intro h
      have : b = a := by simpa using h
      rw [this]; exact hp
  rw [this, List.count_eq_one_of_mem hn ha]

theorem coverage_partitionBounds (ref : Fin (m + 2) → L) (S : List (LubEntry (m + 2) L))
    (v : Fin (m + 2) → L) :
    coverage (partitionBounds ref S) v = coverage (S.map (LubEntry.cell ref)) v := by
  classical
  unfold coverage partitionBounds
  rw [List.countP_filter]
  apply List.countP_congr
  intro c _
  simp only [Bool.and_eq_true, decide_eq_true_eq, Bool.not_eq_true', decide_eq_false_iff_not]
  constructor
  · exact fun h => h.1
  · intro h
    refine ⟨h, ?_⟩
    rintro ⟨k, hk⟩
    exact absurd (lt_of_lt_of_le (h.1 k) (h.2 k)) (not_lt.2 hk)

/-- **The boxes of the local upper bounds, any points.** -/
theorem lub_cells {lo hi : Fin (m + 2) → L} (hlt : ∀ k, lo k < hi k) (zs : List (Fin (m + 2) → L))
    (hz : ∀ z ∈ zs, ∀ k, lo k ≤ z k) {v : Fin (m + 2) → L} (hhi : ∀ k, v k < hi k) :
    ((∃ z ∈ zs, ∀ k, z k < v k) →
        coverage (partitionBounds hi (lubRun zs [lubInit lo hi])) v = 1) ∧
      ((¬ ∃ z ∈ zs, ∀ k, z k < v k) →
        coverage (partitionBounds hi (lubRun zs [lubInit lo hi])) v = 0) := by
  classical
  obtain ⟨hrun, hbef⟩ := run_eq_strip lo hi zs
  rw [coverage_partitionBounds, hrun]
  set R := lubRun (stampAll 2 zs) [lubInit (stamp 1 lo) (stamp 1 hi)] with hR
  have hcov : coverage ((R.map strip).map (LubEntry.cell hi)) v =
      R.countP (fun e => decide (InCell ((strip e).cell hi) v)) := by
    unfold coverage
    rw [List.map_map, List.countP_map]
    rfl
  rw [hcov]
  obtain ⟨hB, -, hnd, hval⟩ := lubRun_valid (stamp_lt hlt) (stampAll 2 zs) (fresh_stamp (hi := hi) hz)
  have hpick : ∀ e ∈ R, InCell ((strip e).cell hi) v ↔
      (e.u 0 ≤ stamp 0 v 0 ∧ Picks (stamp 0 v) e) := by
    intro e he
    have hb := hbef e he
    rw [inCell_cell (hhi 0).le]
    have hne : ∀ x : L ×ₗ ℕ, 1 ≤ (ofLex x).2 → ∀ j, x ≠ stamp 0 v j := by
      rintro x hx j rfl
      simp [stamp] at hx
    apply and_congr
    · rw [← ((hval e).1 he).diag 0, le_iff_lt_or_eq, or_iff_left (hne _ (hb.2 0 0).1 0)]
      exact (lex_lt_early (hb.2 0 0).1).symm
    · refine forall_congr' (fun j => forall_congr' (fun _ => and_congr ?_ ?_))
      · rw [lt_iff_le_and_ne, and_iff_left (Ne.symm (hne _ (hb.1 j).1 j))]
        exact (lex_le_early (hb.1 j).1).symm
      · refine forall_congr' (fun k => forall_congr' (fun _ => ?_))
        rw [le_iff_lt_or_eq, or_iff_left (hne _ (hb.2 k j).1 j)]
        exact (lex_lt_early (hb.2 k j).1).symm
  by_cases hlo : ∀ k, lo k < v k
  · obtain ⟨e, he, hp, hu, h0⟩ := run_picks (stamp_lt hlt) (stampAll 2 zs) (fresh_stamp (hi := hi) hz)
      (v := stamp 0 v) (fun k => ((lex_lt_early (x := stamp 1 lo k) (le_refl _)).2 (hlo k)).le)
      (fun k => lt_of_le_of_ne ((lex_le_early (x := stamp 1 hi k) (le_refl _)).2 (hhi k).le) (by
        intro h
        have : (0 : ℕ) = 1 := congrArg (fun x : L ×ₗ ℕ => (ofLex x).2) h
        omega))
    have hdom : (∃ z ∈ stampAll 2 zs, ∀ k, z k ≤ stamp 0 v k) ↔ ∃ z ∈ zs, ∀ k, z k < v k := by
      constructor
      · rintro ⟨y, hy, hyv⟩
        obtain ⟨z, hzz, s, hs, _, rfl⟩ := mem_stampAll hy
        refine ⟨z, hzz, fun k => ?_⟩
        have h1 : stamp s z k < stamp 0 v k := by
          apply lt_of_le_of_ne (hyv k)
          intro h
          have : s = 0 := congrArg (fun x : L ×ₗ ℕ => (ofLex x).2) h
          omega
        exact (lex_lt_early (x := stamp s z k) (by simp [stamp]; omega)).1 h1
      · rintro ⟨z, hzz, hzv⟩
        obtain ⟨s, hs, _, hmem⟩ := stampAll_mem (t := 2) hzz
        exact ⟨_, hmem, fun k =>
          ((lex_lt_early (x := stamp s z k) (by simp [stamp]; omega)).2 (hzv k)).le⟩
    rw [hdom] at h0
    constructor
    · intro h
      apply countP_eq_one hnd he
      · simp only [decide_eq_true_eq]
        exact (hpick e he).2 ⟨h0.2 h, hp⟩
      · intro b hb hbp
        simp only [decide_eq_true_eq] at hbp
        exact hu b hb ((hpick b hb).1 hbp).2
    · intro h
      rw [List.countP_eq_zero]
      intro b hb hbp
      simp only [decide_eq_true_eq] at hbp
      obtain ⟨h1, h2⟩ := (hpick b hb).1 hbp
      rw [hu b hb h2] at h1
      exact h (h0.1 h1)
  · push Not at hlo
    obtain ⟨i, hi'⟩ := hlo
    constructor
    · rintro ⟨z, hzz, hzv⟩
      exact absurd (lt_of_le_of_lt (hz z hzz i) (hzv i)) (not_lt.2 hi')
    · intro _
      rw [List.countP_eq_zero]
      intro b hb hbp
      simp only [decide_eq_true_eq] at hbp
      rw [inCell_cell (hhi 0).le] at hbp
      have hab : stamp 1 lo i ≤ b.Z 0 i := hB.above _ (((hval b).1 hb).mem 0) i
      have hab' : lo i ≤ (strip b).Z 0 i := by
        rcases (Prod.Lex.le_iff).1 hab with h | h
        · exact h.le
        · exact h.1.le
      have : (strip b).Z 0 i < v i := by
        by_cases h : i = 0
        · rw [h]; exact hbp.1
        · exact (hbp.2 i h).2 0 (Fin.pos_of_ne_zero h)
      exact absurd (lt_of_le_of_lt hab' this) (not_lt.2 hi')

end Verif.Proofs
