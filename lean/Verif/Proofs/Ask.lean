import Verif.Model.Ask
import Verif.Spec.Ask
import Mathlib.Tactic.Linarith
import Mathlib.Data.List.GetD

/-! # Lemmas about `ask` -/
namespace Verif.Proofs
open Verif.Model Verif.Spec

theorem mem_typeIds {ks : List Kind} {τ : VType} {j : ℕ} :
    j ∈ typeIds ks τ ↔ ∃ k, ks[j]? = some k ∧ k.vtype = τ := by
  unfold typeIds
  rw [List.mem_filter, List.mem_range]
  constructor
  · rintro ⟨h, h2⟩
    rw [List.getElem?_eq_getElem h] at h2 ⊢
    exact ⟨_, rfl, by simpa using h2⟩
  · rintro ⟨k, hk, ht⟩
    obtain ⟨h, _⟩ := List.getElem?_eq_some_iff.mp hk
    exact ⟨h, by simp [hk, ht]⟩

theorem mem_categoricalIds {ks : List Kind} {j : ℕ} :
    j ∈ categoricalIds ks ↔ ∃ k, ks[j]? = some k ∧ k.vtype ≠ .real ∧ k.vtype ≠ .integer := by
  simp only [categoricalIds, List.mem_append, mem_typeIds]
  constructor
  · rintro (((⟨k, hk, h⟩ | ⟨k, hk, h⟩) | ⟨k, hk, h⟩) | ⟨k, hk, h⟩) <;>
      exact ⟨k, hk, by rw [h]; decide, by rw [h]; decide⟩
  · rintro ⟨k, hk, h1, h2⟩
    cases h : k.vtype with
    | real => exact absurd h h1
    | integer => exact absurd h h2
    | ordinal => exact Or.inl (Or.inl (Or.inr ⟨k, hk, h⟩))
    | discrete => exact Or.inl (Or.inl (Or.inl ⟨k, hk, h⟩))
    | bool => exact Or.inl (Or.inr ⟨k, hk, h⟩)
    | subset => exact Or.inr ⟨k, hk, h⟩

/-- A row is not a duplicate iff it differs in a coordinate (real coordinates holding floats). -/
theorem differs_of_not_matches {ks : List Kind} {y x : Row} (h : ¬ matchesRow ks y x) : Differs ks x y := by
  unfold matchesRow at h
  rw [not_and_or, not_and_or] at h
  rcases h with h | h | h
  · push Not at h
    obtain ⟨j, hj, hc⟩ := h
    obtain ⟨k, hk, ht⟩ := mem_typeIds.mp hj
    refine ⟨j, k, hk, fun hne => absurd ht hne, fun _ a b ha hb => ?_⟩
    rw [ha, hb] at hc
    simp only [closeAt, isClose, not_le] at hc
    exact hc
  · push Not at h
    obtain ⟨j, hj, hc⟩ := h
    obtain ⟨k, hk, ht⟩ := mem_typeIds.mp hj
    exact ⟨j, k, hk, fun _ => hc, fun hr => by rw [ht] at hr; cases hr⟩
  · push Not at h
    obtain ⟨j, hj, hc⟩ := h
    obtain ⟨k, hk, h1, _⟩ := mem_categoricalIds.mp hj
    exact ⟨j, k, hk, fun _ => hc, fun hr => absurd hr h1⟩

/-- Two rows with floats in the real coordinates that differ in a coordinate do not match. -/
theorem not_matches_of_differs {ks : List Kind} {y x : Row} (h : Differs ks x y) : ¬ matchesRow ks y x := by
  rintro ⟨hr, hi, hc⟩
  obtain ⟨j, k, hk, h1, h2⟩ := h
  by_cases ht : k.vtype = .real
  · have hm := hr j (mem_typeIds.mpr ⟨k, hk, ht⟩)
    unfold closeAt at hm
    split at hm
    · rename_i a b ha hb
      have := h2 ht a b ha hb
      unfold isClose at hm
      linarith
    · exact hm
  · by_cases hti : k.vtype = .integer
    · exact h1 ht (hi j (mem_typeIds.mpr ⟨k, hk, hti⟩))
    · exact h1 ht (hc j (mem_categoricalIds.mpr ⟨k, hk, ht, hti⟩))

/-! ### the duplicate check -/

theorem preEvalCheck_length (ks : List Kind) (data X : List Row) :
    (preEvalCheck ks data X).length ≤ X.length := by
  unfold preEvalCheck
  rw [List.length_map]
  exact (List.length_filter_le _ _).trans (by simp)

open Classical in
theorem keep_spec {ks : List Kind} {data X : List Row} {i : ℕ} :
    i ∈ ((List.range X.length).filter (fun i =>
    ! (List.range (X ++ data).length).any (fun j =>
      decide (j ≠ i ∧ matchesRow ks ((X ++ data).getD j []) ((X ++ data).getD i [])))))
    ↔ i < X.length ∧ ∀ j : ℕ, j < (X ++ data).length → j ≠ i →
        ¬ matchesRow ks ((X ++ data).getD j []) ((X ++ data).getD i []) := by
  rw [List.mem_filter, List.mem_range]
  simp only [Bool.not_eq_true', List.any_eq_false, List.mem_range, decide_eq_true_eq]
  constructor
  · rintro ⟨h1, h2⟩
    exact ⟨h1, fun j hj hji hm => h2 j hj ⟨hji, hm⟩⟩
  · rintro ⟨h1, h2⟩
    exact ⟨h1, fun j hj ⟨hji, hm⟩ => h2 j hj hji hm⟩

theorem mem_preEvalCheck {ks : List Kind} {data X : List Row} {x : Row} :
    x ∈ preEvalCheck ks data X ↔ ∃ i : ℕ, X[i]? = some x ∧
      (∀ d ∈ data, ¬ matchesRow ks d x) ∧ (∀ (j : ℕ) y, X[j]? = some y → j ≠ i → ¬ matchesRow ks y x) := by
  unfold preEvalCheck
  rw [List.mem_map]
  have hget : ∀ i, i < X.length → (X ++ data).getD i [] = X.getD i [] := by
    intro i hi
    rw [List.getD_eq_getElem?_getD, List.getElem?_append_left hi, ← List.getD_eq_getElem?_getD]
  have hgs : ∀ i, i < X.length → X[i]? = some (X.getD i []) := by
    intro i hi
    rw [List.getD_eq_getElem?_getD, List.getElem?_eq_getElem hi, Option.getD_some]
  constructor
  · rintro ⟨i, hi, rfl⟩
    obtain ⟨h1, h2⟩ := keep_spec.mp hi
    rw [hget i h1] at h2 ⊢
    refine ⟨i, hgs i h1, fun d hd => ?_, fun j y hj hji => ?_⟩
    · obtain ⟨m, hm, rfl⟩ := List.mem_iff_getElem.mp hd
      have := h2 (X.length + m) (by rw [List.length_append]; omega) (by omega)
      rwa [List.getD_eq_getElem?_getD, List.getElem?_append_right (by omega), Nat.add_sub_cancel_left,
        List.getElem?_eq_getElem hm, Option.getD_some] at this
    · obtain ⟨hjl, hjv⟩ := List.getElem?_eq_some_iff.mp hj
      have := h2 j (by rw [List.length_append]; omega) hji
      rwa [hget j hjl, List.getD_eq_getElem?_getD, hj, Option.getD_some] at this
  · rintro ⟨i, hi, h1, h2⟩
    obtain ⟨hil, hiv⟩ := List.getElem?_eq_some_iff.mp hi
    have hx : X.getD i [] = x := by rw [List.getD_eq_getElem?_getD, hi, Option.getD_some]
    refine ⟨i, keep_spec.mpr ⟨hil, fun j hj hji => ?_⟩, by rw [hget i hil, hx]⟩
    rw [hget i hil, hx]
    by_cases hjl : j < X.length
    · rw [hget j hjl]
      exact h2 j _ (hgs j hjl) hji
    · rw [List.getD_eq_getElem?_getD, List.getElem?_append_right (by omega)]
      have hjd : j - X.length < data.length := by rw [List.length_append] at hj; omega
      rw [List.getElem?_eq_getElem hjd, Option.getD_some]
      exact h1 _ (List.getElem_mem hjd)

/-- The survivors of one check are pairwise different, in both directions. -/
theorem preEvalCheck_pairwise (ks : List Kind) (data X : List Row) :
    (preEvalCheck ks data X).Pairwise (fun a b => ¬ matchesRow ks b a ∧ ¬ matchesRow ks a b) := by
  unfold preEvalCheck
  rw [List.pairwise_map]
  refine List.Pairwise.imp_of_mem ?_ (List.Pairwise.filter _ List.nodup_range)
  intro i j hi hj hij
  obtain ⟨hi1, hi2⟩ := keep_spec.mp hi
  obtain ⟨hj1, hj2⟩ := keep_spec.mp hj
  exact ⟨hi2 j (by rw [List.length_append]; omega) (Ne.symm hij),
    hj2 i (by rw [List.length_append]; omega) hij⟩

theorem preEvalCheck_subset {ks : List Kind} {data X : List Row} {x : Row} (h : x ∈ preEvalCheck ks data X) :
    x ∈ X := by
  obtain ⟨i, hi, _⟩ := mem_preEvalCheck.mp h
  exact List.mem_of_getElem? hi

/-! ### filling in fixed values -/

theorem honours_cons {fixed : List (String × Val)} {n : String} {k : Kind} {vars : Vars} {v : Val} {r : Row}
    (h : Honours vars fixed r) (hf : ∀ w, fixed.lookup n = some w → v = w)
    (hc : fixed.lookup n = none → k.contains v) : Honours ((n, k) :: vars) fixed (v :: r) := by
  refine ⟨by simp [h.1], ?_⟩
  intro j name k' v' hj hv
  cases j with
  | zero =>
    simp only [List.getElem?_cons_zero, Option.some.injEq, Prod.mk.injEq] at hj hv
    obtain ⟨⟨rfl, rfl⟩, rfl⟩ := And.intro hj hv
    exact ⟨hf, hc⟩
  | succ j => exact h.2 j name k' v' (by simpa using hj) (by simpa using hv)

theorem pointOf_cons {k : Kind} {ks : List Kind} {r : Row} (h : PointOf (k :: ks) r) :
    ∃ v r', r = v :: r' ∧ k.contains v ∧ PointOf ks r' := by
  obtain ⟨hl, hc⟩ := h
  cases r with
  | nil => simp at hl
  | cons v r' =>
    refine ⟨v, r', rfl, hc 0 k v rfl rfl, by simpa using hl, ?_⟩
    intro j k' v' hj hv
    exact hc (j + 1) k' v' (by simpa using hj) (by simpa using hv)

theorem fillRow_spec (fixed : List (String × Val)) (vars : Vars) :
    ∀ r, PointOf ((freeVars vars fixed).map Prod.snd) r →
      ∃ x, fillRow fixed (vars.map Prod.fst) r = some x ∧ Honours vars fixed x := by
  induction vars with
  | nil =>
    intro r hr
    have : r = [] := by
      have := hr.1
      simpa [freeVars] using this
    subst this
    exact ⟨[], rfl, rfl, by simp⟩
  | cons nk vars ih =>
    obtain ⟨n, k⟩ := nk
    intro r hr
    rw [List.map_cons]
    cases hl : fixed.lookup n with
    | some w =>
      have hf : freeVars ((n, k) :: vars) fixed = freeVars vars fixed := by
        simp [freeVars, List.filter_cons, hl]
      rw [hf] at hr
      obtain ⟨x, hx, hh⟩ := ih r hr
      refine ⟨w :: x, by simp [fillRow, hl, hx], honours_cons hh (fun w' hw' => ?_) (fun h => ?_)⟩
      · rw [hl] at hw'; exact Option.some.inj hw'
      · rw [hl] at h; cases h
    | none =>
      have hf : freeVars ((n, k) :: vars) fixed = (n, k) :: freeVars vars fixed := by
        simp [freeVars, List.filter_cons, hl]
      rw [hf, List.map_cons] at hr
      obtain ⟨v, r', rfl, hv, hr'⟩ := pointOf_cons hr
      obtain ⟨x, hx, hh⟩ := ih r' hr'
      refine ⟨v :: x, by simp [fillRow, hl, hx], honours_cons hh (fun w' hw' => ?_) (fun _ => hv)⟩
      rw [hl] at hw'; cases hw'

theorem honours_empty {vars : Vars} {x : Row} (h : PointOf ((freeVars vars []).map Prod.snd) x) :
    Honours vars [] x := by
  have hf : freeVars vars [] = vars := by simp [freeVars]
  rw [hf] at h
  refine ⟨by simpa using h.1, fun j name k v hj hv => ⟨by simp, fun _ => h.2 j k v (by simp [hj]) hv⟩⟩

theorem mapM_option_spec {α β : Type*} (f : α → Option β) (Q : β → Prop) :
    ∀ l : List α, (∀ a ∈ l, ∃ b, f a = some b ∧ Q b) →
      ∃ bs, l.mapM f = some bs ∧ bs.length = l.length ∧ ∀ b ∈ bs, Q b := by
  intro l
  induction l with
  | nil => exact fun _ => ⟨[], by simp, rfl, by simp⟩
  | cons a l ih =>
    intro h
    obtain ⟨b, hb, hq⟩ := h a (List.mem_cons_self ..)
    obtain ⟨bs, hbs, hl, hqs⟩ := ih (fun a ha => h a (List.mem_cons_of_mem _ ha))
    refine ⟨b :: bs, by simp [List.mapM_cons, hb, hbs], by simp [hl], ?_⟩
    intro c hc
    rcases List.mem_cons.mp hc with rfl | hc
    · exact hq
    · exact hqs c hc

theorem fillin_spec (vars : Vars) (fixed : Option (List (String × Val))) (X : List Row)
    (hX : ∀ r ∈ X, PointOf ((freeVars vars (fixed.getD [])).map Prod.snd) r) :
    ∃ Y, fillin (vars.map Prod.fst) fixed X = some Y ∧ Y.length = X.length ∧
      ∀ x ∈ Y, Honours vars (fixed.getD []) x := by
  cases fixed with
  | none => exact ⟨X, rfl, rfl, fun x hx => honours_empty (hX x hx)⟩
  | some f =>
    unfold fillin
    by_cases he : X.isEmpty
    · simp only [he, if_true]
      rw [List.isEmpty_iff] at he
      subst he
      exact ⟨[], rfl, rfl, by simp⟩
    · simp only [he, Bool.false_eq_true, if_false]
      exact mapM_option_spec _ _ X (fun r hr => fillRow_spec f vars r (hX r hr))

/-! ### rounding -/

theorem roundVal_contains {k : Kind} {v : Val} (hk : ∀ r, k = .real r → r.lo ≤ r.hi) (h : k.contains v) :
    k.contains (roundVal k v) := by
  cases k with
  | real r =>
    cases v with
    | real x =>
      simp only [roundVal, Kind.contains, RealVar.contains] at h ⊢
      unfold RealVar.round
      cases r.precision with
      | none => exact h
      | some p =>
        have := hk r rfl
        simp only [clip]
        exact ⟨le_min (le_max_right _ _) this, min_le_right _ _⟩
    | int z => exact h
    | lvl l => exact h
  | integer r => simpa [roundVal] using h
  | ordinal r => simpa [roundVal] using h
  | discrete r => simpa [roundVal] using h
  | bool => simpa [roundVal] using h
  | subset r => simpa [roundVal] using h

theorem roundRow_honours {vars : Vars} {fixed : List (String × Val)} {x : Row} (hb : OrderedBounds vars)
    (hs : RoundStable vars fixed) (h : Honours vars fixed x) :
    Honours vars fixed (roundRow (vars.map Prod.snd) x) := by
  refine ⟨by simp [roundRow, h.1], ?_⟩
  intro j name k v hj hv
  unfold roundRow at hv
  rw [List.getElem?_zipWith] at hv
  rw [List.getElem?_map, hj, Option.map_some] at hv
  cases hx : x[j]? with
  | none => rw [hx] at hv; simp at hv
  | some u =>
    rw [hx] at hv
    simp only [Option.some.injEq] at hv
    subst hv
    obtain ⟨h1, h2⟩ := h.2 j name k u hj hx
    have hm : (name, k) ∈ vars := List.mem_of_getElem? hj
    refine ⟨fun w hw => ?_, fun hn => ?_⟩
    · rw [h1 w hw]
      cases k with
      | real r =>
        cases w with
        | real y => simp only [roundVal, hs name r y hm hw]
        | int z => rfl
        | lvl l => rfl
      | _ => rfl
    · exact roundVal_contains (fun r hr => hb name r (hr ▸ hm)) (h2 hn)

/-! ### the random design -/

theorem doeLoop_spec (vars : Vars) (fixed : List (String × Val)) (data : List Row)
    (sample : ℕ → ℤ → List Row) (hb : OrderedBounds vars) (hst : RoundStable vars fixed)
    (hs : SamplerOk vars fixed sample) :
    ∀ k n acc, 0 ≤ n → ∃ X, doeLoop vars fixed data sample k n acc = some (acc ++ X) ∧ (X.length : ℤ) ≤ n ∧
      ∀ x ∈ X, Honours vars fixed x := by
  intro k
  induction k with
  | zero => exact fun n acc hn => ⟨[], by simp [doeLoop], by simpa using hn, by simp⟩
  | succ k ih =>
    intro n acc hn
    unfold doeLoop
    by_cases h0 : n = 0
    · exact ⟨[], by simp [h0], by simp [h0], by simp⟩
    · rw [if_neg h0]
      obtain ⟨hl, hp⟩ := hs k n (by omega)
      obtain ⟨Y, hY, hYl, hYh⟩ := fillin_spec vars (some fixed) (sample k n) (by simpa using hp)
      rw [hY, Option.bind_some]
      by_cases he : Y.isEmpty
      · rw [if_pos he]
        exact ih n acc hn
      · rw [if_neg he]
        have hlen := preEvalCheck_length (vars.map Prod.snd) data (Y.map (roundRow (vars.map Prod.snd)))
        rw [List.length_map] at hlen
        obtain ⟨Z, hZ, hZl, hZh⟩ := ih
          (n - (preEvalCheck (vars.map Prod.snd) data (Y.map (roundRow (vars.map Prod.snd)))).length)
          (acc ++ preEvalCheck (vars.map Prod.snd) data (Y.map (roundRow (vars.map Prod.snd)))) (by omega)
        refine ⟨preEvalCheck (vars.map Prod.snd) data (Y.map (roundRow (vars.map Prod.snd))) ++ Z, ?_, ?_, ?_⟩
        · dsimp only
          rw [hZ, List.append_assoc]
        · rw [List.length_append]; push_cast; omega
        · intro x hx
          rcases List.mem_append.mp hx with hx | hx
          · obtain ⟨y, hy, rfl⟩ := List.mem_map.mp (preEvalCheck_subset hx)
            exact roundRow_honours hb hst (hYh y hy)
          · exact hZh x hx

/-- Every block added to the design is the result of one duplicate check. -/
theorem doeLoop_blocks (vars : Vars) (fixed : List (String × Val)) (data : List Row)
    (sample : ℕ → ℤ → List Row) :
    ∀ k n acc X, doeLoop vars fixed data sample k n acc = some X →
      ∃ blocks : List (List Row), X = acc ++ blocks.flatten ∧ blocks.length ≤ k ∧
        ∀ b ∈ blocks, ∃ Y, b = preEvalCheck (vars.map Prod.snd) data Y := by
  intro k
  induction k with
  | zero =>
    intro n acc X h
    simp only [doeLoop, Option.some.injEq] at h
    exact ⟨[], by simp [h], by simp, by simp⟩
  | succ k ih =>
    intro n acc X h
    unfold doeLoop at h
    by_cases h0 : n = 0
    · rw [if_pos h0, Option.some.injEq] at h
      exact ⟨[], by simp [h], by simp, by simp⟩
    · rw [if_neg h0] at h
      cases hY : fillin (vars.map Prod.fst) (some fixed) (sample k n) with
      | none => rw [hY] at h; cases h
      | some Y =>
        rw [hY, Option.bind_some] at h
        by_cases he : Y.isEmpty
        · rw [if_pos he] at h
          obtain ⟨bs, h1, h2, h3⟩ := ih n acc X h
          exact ⟨bs, h1, by omega, h3⟩
        · rw [if_neg he] at h
          obtain ⟨bs, h1, h2, h3⟩ := ih _ _ X h
          refine ⟨preEvalCheck (vars.map Prod.snd) data (Y.map (roundRow (vars.map Prod.snd))) :: bs, ?_, ?_, ?_⟩
          · rw [h1, List.flatten_cons, List.append_assoc]
          · simp; omega
          · intro b hb
            rcases List.mem_cons.mp hb with rfl | hb
            · exact ⟨_, rfl⟩
            · exact h3 b hb

end Verif.Proofs
