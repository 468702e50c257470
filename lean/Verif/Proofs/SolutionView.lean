import Verif.Spec.SolutionView
import Verif.Proofs.Solution

/-!
# Lemmas for views of solutions
-/
namespace Verif.Proofs

open Verif.Model Verif.Spec

theorem takeAt_get {β : Type*} (l : List β) (idx : List ℕ) (h : ∀ i ∈ idx, i < l.length) (j : ℕ) :
    (takeAt l idx)[j]? = (idx[j]?).bind fun i => l[i]? := by
  unfold takeAt
  induction idx generalizing j with
  | nil => simp
  | cons i idx ih =>
    have hi := h i (List.mem_cons_self ..)
    rw [List.filterMap_cons, List.getElem?_eq_getElem hi]
    cases j with
    | zero => simp [List.getElem?_eq_getElem hi]
    | succ j =>
      simp only [List.getElem?_cons_succ]
      exact ih (fun i hi => h i (List.mem_cons_of_mem _ hi)) j

theorem slicePos_lt {n : ℕ} {a b : Option ℤ} {c : ℕ} : ∀ i ∈ slicePos n a b c, i < n := fun _ hi => List.mem_range.1 (List.mem_filter.1 hi).1

theorem slicePos_nodup (n : ℕ) (a b : Option ℤ) (c : ℕ) : (slicePos n a b c).Nodup := List.nodup_range.filter _

theorem takeAt_nodup {l : List ℕ} {idx : List ℕ} (hl : l.Nodup) (h : ∀ i ∈ idx, i < l.length) (hi : idx.Nodup) : (takeAt l idx).Nodup := by
  unfold takeAt
  induction idx with
  | nil => simp
  | cons i idx ih =>
    have hil := h i (List.mem_cons_self ..)
    rw [List.nodup_cons] at hi
    rw [List.filterMap_cons, List.getElem?_eq_getElem hil]
    refine List.nodup_cons.2 ⟨fun hm => ?_, ih (fun i hi => h i (List.mem_cons_of_mem _ hi)) hi.2⟩
    obtain ⟨k, hk, e⟩ := List.mem_filterMap.1 hm
    have hkl := h k (List.mem_cons_of_mem _ hk)
    rw [List.getElem?_eq_getElem hkl, Option.some.injEq] at e
    have : k = i := (List.Nodup.getElem_inj_iff hl).1 e
    exact hi.1 (this ▸ hk)

theorem takeAt_mem {β : Type*} {l : List β} {idx : List ℕ} {b : β} (h : b ∈ takeAt l idx) : b ∈ l := by
  obtain ⟨i, _, e⟩ := List.mem_filterMap.1 h
  exact List.mem_of_getElem? e

theorem takeAt_zip {β γ : Type*} (l : List β) (m : List γ) (hlm : l.length = m.length) (idx : List ℕ) (h : ∀ i ∈ idx, i < l.length) :
    (takeAt l idx).zip (takeAt m idx) = takeAt (l.zip m) idx := by
  unfold takeAt
  induction idx with
  | nil => simp
  | cons i idx ih =>
    have hi := h i (List.mem_cons_self ..)
    have hm : i < m.length := hlm ▸ hi
    have hz : i < (l.zip m).length := by simp; omega
    rw [List.filterMap_cons, List.filterMap_cons, List.filterMap_cons, List.getElem?_eq_getElem hi, List.getElem?_eq_getElem hm,
      List.getElem?_eq_getElem hz]
    simp only [List.zip_cons_cons, List.getElem_zip]
    rw [ih fun i hi => h i (List.mem_cons_of_mem _ hi)]

/-- All entries of a well-formed view can be read. -/
theorem metas_get {α F : Type*} {st : MetaStore F} {v : SolView α} {b : List (SolMeta F)} (hb : st[v.buf]? = some b) (hp : ∀ p ∈ v.pos, p < b.length) :
    v.metas st = takeAt b v.pos := by
  unfold SolView.metas takeAt
  rw [hb]
  rfl

theorem metas_length {α F : Type*} {st : MetaStore F} {v : SolView α} (h : ViewOk st v) : (v.metas st).length = v.rows.length := by
  obtain ⟨b, hb, hp⟩ := h.alive
  rw [metas_get hb hp, takeAt_length _ _ hp, h.lengths]

theorem takeAt_takeAt {β : Type*} (b : List β) (pos idx : List ℕ) (hp : ∀ p ∈ pos, p < b.length) (hi : ∀ i ∈ idx, i < pos.length) :
    takeAt b (takeAt pos idx) = takeAt (takeAt b pos) idx := by
  apply List.ext_getElem?
  intro j
  have h1 : ∀ i ∈ takeAt pos idx, i < b.length := fun i h => hp i (takeAt_mem h)
  have h2 : ∀ i ∈ idx, i < (takeAt b pos).length := by rw [takeAt_length _ _ hp]; exact hi
  rw [takeAt_get _ _ h1, takeAt_get _ _ h2, takeAt_get _ _ hi]
  cases e : idx[j]? with
  | none => rfl
  | some i =>
    simp only [Option.bind_some]
    rw [takeAt_get _ _ hp]

/-- Taking the same positions of rows and of attributes. -/
theorem view_takeAt {α F : Type*} {st : MetaStore F} {v : SolView α} (h : ViewOk st v) (idx : List ℕ) (hi : ∀ i ∈ idx, i < v.rows.length)
    (hn : idx.Nodup) (w : SolView α) (hr : w.rows = takeAt v.rows idx) (hb : w.buf = v.buf) (hp : w.pos = takeAt v.pos idx) :
    ViewOk st w ∧ viewRecords st w = takeAt (viewRecords st v) idx := by
  obtain ⟨b, hb', hp'⟩ := h.alive
  have hi' : ∀ i ∈ idx, i < v.pos.length := by rw [h.lengths]; exact hi
  have hal : ∀ p ∈ w.pos, p < b.length := by rw [hp]; exact fun p hm => hp' p (takeAt_mem hm)
  refine ⟨⟨?_, ?_, b, by rw [hb]; exact hb', hal⟩, ?_⟩
  · rw [hp, hr, takeAt_length _ _ hi', takeAt_length _ _ hi]
  · rw [hp]; exact takeAt_nodup h.distinct hi' hn
  · unfold viewRecords
    rw [hr, metas_get (by rw [hb]; exact hb') hal, hp, takeAt_takeAt _ _ _ hp' hi', ← metas_get hb' hp']
    exact takeAt_zip _ _ (metas_length h).symm idx hi

theorem sliceRows_ok {α F : Type*} {st : MetaStore F} {v : SolView α} (h : ViewOk st v) (a b : Option ℤ) (c : ℕ) :
    ViewOk st (v.sliceRows a b c) ∧ viewRecords st (v.sliceRows a b c) = pySlice (viewRecords st v) a b c := by
  have hl : (viewRecords st v).length = v.rows.length := by
    unfold viewRecords; rw [List.length_zip, metas_length h, min_self]
  have e : pySlice (viewRecords st v) a b c = takeAt (viewRecords st v) (slicePos v.rows.length a b c) := by unfold pySlice; rw [hl]
  rw [e]
  refine view_takeAt h _ slicePos_lt (slicePos_nodup ..) _ rfl rfl ?_
  show takeAt v.pos (slicePos v.pos.length a b c) = _
  rw [h.lengths]

theorem newView_ok {α F : Type*} (st : MetaStore F) (rows : List (List α)) (o : Bool) (names : List String) (metas : List (SolMeta F))
    (h : metas.length = rows.length) :
    ViewOk (newView st rows o names metas).1 (newView st rows o names metas).2 ∧
    viewRecords (newView st rows o names metas).1 (newView st rows o names metas).2 = rows.zip metas := by
  have hb : (newView st rows o names metas).1[(newView st rows o names metas).2.buf]? = some metas := by
    show (st ++ [metas])[st.length]? = some metas
    simp
  have hp : ∀ p ∈ (newView st rows o names metas).2.pos, p < metas.length := fun p hp => List.mem_range.1 hp
  refine ⟨⟨?_, List.nodup_range, metas, hb, hp⟩, ?_⟩
  · show (List.range metas.length).length = rows.length
    rw [List.length_range, h]
  · unfold viewRecords
    rw [metas_get hb hp]
    congr 1
    apply List.ext_getElem?
    intro j
    rw [takeAt_get _ _ hp]
    show ((List.range metas.length)[j]?).bind _ = _
    by_cases hj : j < metas.length
    · rw [List.getElem?_range hj]; rfl
    · rw [List.getElem?_eq_none (by simpa using hj), List.getElem?_eq_none (by omega)]; rfl

/-! ### Single rows -/

theorem slicePos_one {n k : ℕ} (hk : k < n) {i : ℤ} (hi : i = k ∨ i = (k : ℤ) - n) (h1 : i ≠ -1) : slicePos n (some i) (some (i + 1)) 1 = [k] := by
  have ha : sliceBound n 0 (some i) = k := by
    unfold sliceBound
    rcases hi with rfl | rfl
    · simp only []
      rw [if_neg (by omega)]
      simp; omega
    · simp only []
      rw [if_pos (by omega)]
      omega
  have hb : sliceBound n n (some (i + 1)) = k + 1 := by
    unfold sliceBound
    rcases hi with rfl | rfl
    · simp only []
      rw [if_neg (by omega)]
      omega
    · simp only []
      rw [if_pos (by omega)]
      omega
  unfold slicePos
  rw [ha, hb]
  refine List.perm_singleton.1 ((List.perm_ext_iff_of_nodup (List.nodup_range.filter _) (List.nodup_singleton k)).2 fun a => ?_)
  simp only [List.mem_filter, List.mem_range, decide_eq_true_eq, List.mem_singleton]
  constructor
  · rintro ⟨_, h1, h2, _⟩; omega
  · rintro rfl
    exact ⟨hk, le_refl _, by omega, by simp⟩

theorem pyIndex_some {n k : ℕ} {i : ℤ} (h : pyIndex n i = some k) : k < n ∧ (i = k ∨ i = (k : ℤ) - n) := by
  unfold pyIndex at h
  split_ifs at h <;> simp only [Option.some.injEq] at h <;> omega

/-! ### Writing -/

theorem foldl_modify_get {β γ : Type*} (g : γ → β → β) (ws : List (ℕ × γ)) (hn : (ws.map Prod.fst).Nodup) (b : List β) (p : ℕ) :
    (ws.foldl (fun b pv => b.modify pv.1 (g pv.2)) b)[p]? =
      match ws.find? (fun pv => pv.1 == p) with
      | some pv => (b[p]?).map (g pv.2)
      | none => b[p]? := by
  induction ws generalizing b with
  | nil => rfl
  | cons w ws ih =>
    rw [List.map_cons, List.nodup_cons] at hn
    rw [List.foldl_cons, ih hn.2, List.find?_cons]
    by_cases e : w.1 = p
    · have : ws.find? (fun pv => pv.1 == p) = none := by
        rw [List.find?_eq_none]
        intro x hx
        simp only [beq_iff_eq]
        rintro rfl
        exact hn.1 (e ▸ List.mem_map_of_mem hx)
      rw [this]
      simp only [e, beq_self_eq_true]
      rw [List.getElem?_modify_eq]
      rfl
    · have e' : (w.1 == p) = false := by simpa using e
      simp only [e']
      rw [List.getElem?_modify_ne _ _ e]

theorem find_zip {γ : Type*} (pos : List ℕ) (vs : List γ) (hl : vs.length = pos.length) (hn : pos.Nodup) (p : ℕ) :
    (∀ j : ℕ, pos[j]? = some p → ∃ x, vs[j]? = some x ∧ (pos.zip vs).find? (fun pv => pv.1 == p) = some (p, x)) ∧
    (p ∉ pos → (pos.zip vs).find? (fun pv => pv.1 == p) = none) := by
  induction pos generalizing vs with
  | nil => simp
  | cons q pos ih =>
    cases vs with
    | nil => simp at hl
    | cons y vs =>
      rw [List.nodup_cons] at hn
      obtain ⟨i1, i2⟩ := ih vs (by simpa using hl) hn.2
      rw [List.zip_cons_cons, List.find?_cons]
      constructor
      · intro j hj
        cases j with
        | zero =>
          simp only [List.getElem?_cons_zero, Option.some.injEq] at hj
          subst hj
          exact ⟨y, rfl, by simp⟩
        | succ j =>
          simp only [List.getElem?_cons_succ] at hj ⊢
          have hne : (q == p) = false := by
            simp only [beq_eq_false_iff_ne]
            rintro rfl
            exact hn.1 (List.mem_of_getElem? hj)
          simp only [hne]
          exact i1 j hj
      · intro hp
        rw [List.mem_cons, not_or] at hp
        have hne : (q == p) = false := by simpa using fun e => hp.1 e.symm
        simp only [hne]
        exact i2 hp.2

/-- What another view reads after the fitness of a view was set. -/
theorem setFitness_get {α F : Type*} {st : MetaStore F} {v : SolView α} (h : ViewOk st v) (vals : List F) (hl : vals.length = v.pos.length) :
    ∃ st', v.setFitness st vals = some st' ∧ st'.length = st.length ∧
      (∀ c, c ≠ v.buf → st'[c]? = st[c]?) ∧
      ∃ b b', st[v.buf]? = some b ∧ st'[v.buf]? = some b' ∧ b'.length = b.length ∧
        (∀ (j p : ℕ) (x : F), v.pos[j]? = some p → vals[j]? = some x → b'[p]? = (b[p]?).map fun m : SolMeta F => { m with fitness := x }) ∧
        ∀ p, p ∉ v.pos → b'[p]? = b[p]? := by
  obtain ⟨b, hb, hp⟩ := h.alive
  have hbr : broadcastTo vals v.pos.length = some vals := by
    unfold broadcastTo
    split
    · rename_i a
      rw [← hl]; rfl
    · rw [if_pos hl]
  set W := fun b : List (SolMeta F) => (v.pos.zip vals).foldl (fun b pv => b.modify pv.1 fun m => { m with fitness := pv.2 }) b with hW
  have hlen : (W b).length = b.length := by
    simp only [hW]
    generalize v.pos.zip vals = ws
    induction ws generalizing b with
    | nil => rfl
    | cons w ws ih =>
      rw [List.foldl_cons]
      have hal : st[v.buf]? = some b := hb
      clear hb hp hal
      have aux : ∀ (ws : List (ℕ × F)) (b : List (SolMeta F)),
          (ws.foldl (fun b pv => b.modify pv.1 fun m => { m with fitness := pv.2 }) b).length = b.length := by
        intro ws
        induction ws with
        | nil => intro b; rfl
        | cons w ws ih => intro b; rw [List.foldl_cons, ih, List.length_modify]
      rw [aux, List.length_modify]
  refine ⟨st.modify v.buf W, ?_, by rw [List.length_modify], fun c hc => List.getElem?_modify_ne _ _ (Ne.symm hc), b, W b, hb, ?_, hlen, ?_, ?_⟩
  · unfold SolView.setFitness
    rw [hbr]; rfl
  · rw [List.getElem?_modify_eq, hb]; rfl
  · intro j p x hj hx
    have hfst : ((v.pos.zip vals).map Prod.fst).Nodup := by
      rw [List.map_fst_zip (by omega)]; exact h.distinct
    obtain ⟨x', hx', hf⟩ := (find_zip v.pos vals hl h.distinct p).1 j hj
    rw [hx] at hx'
    cases hx'
    have := foldl_modify_get (fun x (m : SolMeta F) => { m with fitness := x }) (v.pos.zip vals) hfst b p
    rw [hf] at this
    exact this
  · intro p hp
    have hfst : ((v.pos.zip vals).map Prod.fst).Nodup := by
      rw [List.map_fst_zip (by omega)]; exact h.distinct
    have := foldl_modify_get (fun x (m : SolMeta F) => { m with fitness := x }) (v.pos.zip vals) hfst b p
    rw [(find_zip v.pos vals hl h.distinct p).2 hp] at this
    exact this

end Verif.Proofs
