import Verif.Spec.Metropolis

namespace Verif.Proofs
open Verif.Model Verif.Spec

theorem mapM_some_iff {α β : Type*} (f : α → Option β) (l : List α) (r : List β) :
    l.mapM f = some r ↔ l.length = r.length ∧ ∀ (i : ℕ) (a : α) (b : β), l[i]? = some a → r[i]? = some b → f a = some b := by
  induction l generalizing r with
  | nil =>
    rw [List.mapM_nil]
    constructor
    · intro h
      cases h
      exact ⟨rfl, by simp⟩
    · rintro ⟨h, _⟩
      rw [List.eq_nil_of_length_eq_zero h.symm]; rfl
  | cons x l ih =>
    rw [List.mapM_cons]
    constructor
    · intro h
      cases hx : f x with
      | none => rw [hx] at h; exact absurd h (by simp)
      | some y =>
        rw [hx] at h
        cases hl : l.mapM f with
        | none => rw [hl] at h; exact absurd h (by simp)
        | some r' =>
          rw [hl] at h
          have h : some (y :: r') = some r := h
          cases h
          obtain ⟨h1, h2⟩ := (ih r').1 hl
          refine ⟨by simp [h1], fun i a b ha hb => ?_⟩
          cases i with
          | zero => simp at ha hb; rw [← ha, ← hb, hx]
          | succ i => exact h2 i a b (by simpa using ha) (by simpa using hb)
    · rintro ⟨h1, h2⟩
      cases r with
      | nil => simp at h1
      | cons y r =>
        rw [h2 0 x y rfl rfl, (ih r).2 ⟨by simpa using h1, fun i a b ha hb => h2 (i + 1) a b (by simpa using ha) (by simpa using hb)⟩]
        rfl

theorem whereMask_get {α : Type*} (mask : List Bool) (a b : List α) (k : ℕ) (m : Bool) (x y : α) (hm : mask[k]? = some m) (hx : a[k]? = some x)
    (hy : b[k]? = some y) : (whereMask mask a b)[k]? = some (if m = true then y else x) := by
  unfold whereMask
  rw [List.getElem?_zipWith, hm, (List.getElem?_zip_eq_some (z := (x, y))).2 ⟨hx, hy⟩]

theorem whereMask_length {α : Type*} (mask : List Bool) (a b : List α) (h1 : mask.length = a.length) (h2 : b.length = a.length) :
    (whereMask mask a b).length = a.length := by
  unfold whereMask; simp [h1, h2]

theorem acceptProbs_length (limit : ℝ) (lp lp' : List ℝ) (h : lp'.length = lp.length) : (acceptProbs limit lp lp').length = lp.length := by
  unfold acceptProbs
  dsimp only
  split_ifs <;> simp [h]

theorem acceptMask_length (limit : ℝ) (lp lp' u : List ℝ) (h : lp'.length = lp.length) (hu : u.length = lp.length) :
    (acceptMask limit lp lp' u).length = lp.length := by
  unfold acceptMask; rw [List.length_zipWith, acceptProbs_length _ _ _ h, hu, min_self]

theorem takeColumn_length {V : Type*} (i : ℕ) (X P : List (List V)) (h : P.length = X.length) : (takeColumn i X P).length = X.length := by
  unfold takeColumn; simp [h]

theorem takeColumn_get {V : Type*} (i k : ℕ) (X P : List (List V)) (x p : List V) (hx : X[k]? = some x) (hp : P[k]? = some p) :
    (takeColumn i X P)[k]? = some (moved i x p) := by
  unfold takeColumn moved
  rw [List.getElem?_zipWith, hx, hp]

/-- The invariant of the cache. -/
structure Cached {V : Type*} (logp : List V → Option ℝ) (s : List (List V) × List ℝ) : Prop where
  eq : s.1.mapM logp = some s.2

theorem Cached.length {V : Type*} {logp : List V → Option ℝ} {s : List (List V) × List ℝ} (h : Cached logp s) : s.1.length = s.2.length :=
  ((mapM_some_iff _ _ _).1 h.eq).1

theorem mhCoordinate_spec {V : Type*} {limit : ℝ} {logp : List V → Option ℝ} {P : List (List V)} {u : List ℝ} {i : ℕ} {s s' : List (List V) × List ℝ}
    (hs : Cached logp s) (hP : P.length = s.1.length) (hu : u.length = s.1.length) (h : mhCoordinate limit logp P u i s = some s') :
    Cached logp s' ∧ s'.1.length = s.1.length ∧
    ∃ lp', (takeColumn i s.1 P).mapM logp = some lp' ∧ s' = (whereMask (acceptMask limit s.2 lp' u) s.1 (takeColumn i s.1 P),
      whereMask (acceptMask limit s.2 lp' u) s.2 lp') := by
  unfold mhCoordinate at h
  dsimp only at h
  obtain ⟨lp', hlp, rfl⟩ := Option.map_eq_some_iff.1 h
  obtain ⟨l1, g1⟩ := (mapM_some_iff _ _ _).1 hs.eq
  obtain ⟨l2, g2⟩ := (mapM_some_iff _ _ _).1 hlp
  have hT := takeColumn_length i s.1 P hP
  have hm : (acceptMask limit s.2 lp' u).length = s.2.length := acceptMask_length _ _ _ _ (by omega) (by omega)
  have hw1 : (whereMask (acceptMask limit s.2 lp' u) s.1 (takeColumn i s.1 P)).length = s.1.length := whereMask_length _ _ _ (by omega) hT
  have hw2 : (whereMask (acceptMask limit s.2 lp' u) s.2 lp').length = s.2.length := whereMask_length _ _ _ (by omega) (by omega)
  refine ⟨⟨(mapM_some_iff _ _ _).2 ⟨by simp only [hw1, hw2]; exact l1, ?_⟩⟩, hw1, lp', hlp, rfl⟩
  intro k a b ha hb
  have hk : k < s.1.length := by rw [← hw1]; exact (List.getElem?_eq_some_iff.1 ha).1
  have e1 := List.getElem?_eq_getElem hk
  have e2 := List.getElem?_eq_getElem (l := s.2) (i := k) (by omega)
  have e3 := List.getElem?_eq_getElem (l := takeColumn i s.1 P) (i := k) (by omega)
  have e4 := List.getElem?_eq_getElem (l := lp') (i := k) (by omega)
  have e5 := List.getElem?_eq_getElem (l := acceptMask limit s.2 lp' u) (i := k) (by omega)
  have ha' := whereMask_get _ _ _ k _ _ _ e5 e1 e3
  have hb' := whereMask_get _ _ _ k _ _ _ e5 e2 e4
  dsimp only at ha hb
  rw [ha', Option.some.injEq] at ha
  rw [hb', Option.some.injEq] at hb
  rw [← ha, ← hb]
  split_ifs
  · exact g2 k _ _ e3 e4
  · exact g1 k _ _ e1 e2

theorem foldlM_invariant {σ ι : Type*} (I : σ → Prop) (f : σ → ι → Option σ) (l : List ι) (hf : ∀ s s' i, i ∈ l → I s → f s i = some s' → I s') (s s' : σ)
    (h : I s) (hl : l.foldlM f s = some s') : I s' := by
  induction l generalizing s with
  | nil =>
    have : some s = some s' := hl
    cases this; exact h
  | cons i l ih =>
    rw [List.foldlM_cons] at hl
    cases hi : f s i with
    | none => rw [hi] at hl; exact absurd hl (by simp)
    | some s1 =>
      rw [hi] at hl
      exact ih (fun s s' i hi => hf s s' i (List.mem_cons_of_mem _ hi)) s1 (hf s s1 i (List.mem_cons_self ..) h hi) hl

end Verif.Proofs
