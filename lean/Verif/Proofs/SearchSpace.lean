import Std.Data.String.ToNat
import Mathlib.Data.List.Nodup
import Mathlib.Data.List.GetD
import Verif.Spec.SearchSpace
import Verif.Proofs.Variables

/-!
# Lemmas on search spaces
-/
namespace Verif.Proofs
open Verif.Model Verif.Spec

/-! ### writes -/

theorem setName_length (h : Heap) (w : ℕ × String) : (setName h w).length = h.length := by
  simp [setName]

theorem foldl_setName_length (ws : List (ℕ × String)) (h : Heap) : (ws.foldl setName h).length = h.length := by
  induction ws generalizing h with
  | nil => rfl
  | cons w ws ih => rw [List.foldl_cons, ih, setName_length]

theorem setName_get (h : Heap) (w : ℕ × String) (r : ℕ) :
    (setName h w)[r]? = if w.1 = r then (h[r]?).map (fun v => { v with name := w.2 }) else h[r]? := by
  unfold setName
  rw [List.getElem?_modify]
  split_ifs with hw
  · rfl
  · simp

theorem setName_anon (h : Heap) (w : ℕ × String) (r : ℕ) :
    ((setName h w)[r]?).map anon = (h[r]?).map anon := by
  rw [setName_get]
  split_ifs
  · cases h[r]? <;> simp [anon]
  · rfl

theorem foldl_setName_anon (ws : List (ℕ × String)) (h : Heap) (r : ℕ) :
    ((ws.foldl setName h)[r]?).map anon = (h[r]?).map anon := by
  induction ws generalizing h with
  | nil => rfl
  | cons w ws ih => rw [List.foldl_cons, ih, setName_anon]

theorem foldl_setName_untouched (ws : List (ℕ × String)) (h : Heap) (r : ℕ) (hr : ∀ w ∈ ws, w.1 ≠ r) :
    (ws.foldl setName h)[r]? = h[r]? := by
  induction ws generalizing h with
  | nil => rfl
  | cons w ws ih =>
    rw [List.foldl_cons, ih _ (fun w hw => hr w (List.mem_cons_of_mem _ hw)), setName_get,
      if_neg (hr w (by simp))]

theorem foldl_setName_name (ws : List (ℕ × String)) (h : Heap) (r : ℕ) (s : String) (hr : r < h.length)
    (hs : ∀ w ∈ ws, w.1 = r → w.2 = s) (hw : nameOf h r = s ∨ ∃ w ∈ ws, w.1 = r) :
    nameOf (ws.foldl setName h) r = s := by
  induction ws generalizing h with
  | nil =>
    rcases hw with hw | ⟨w, hw, _⟩
    · exact hw
    · simp at hw
  | cons w ws ih =>
    rw [List.foldl_cons]
    apply ih
    · rw [setName_length]; exact hr
    · exact fun w hw => hs w (List.mem_cons_of_mem _ hw)
    · by_cases hwr : w.1 = r
      · left
        unfold nameOf
        rw [setName_get, if_pos hwr, List.getElem?_eq_getElem hr]
        simp [hs w (by simp) hwr]
      · rcases hw with hw | ⟨w', hw', hr'⟩
        · left
          unfold nameOf
          rw [setName_get, if_neg hwr]
          exact hw
        · rw [List.mem_cons] at hw'
          rcases hw' with rfl | hw'
          · exact absurd hr' hwr
          · exact Or.inr ⟨w', hw', hr'⟩

theorem positions_get (n : String) (names : List String) (off i k : ℕ) :
    (positions n names off)[i]? = some k ↔
      ∃ j, k = off + j ∧ names[j]? = some n ∧ (names.take j).count n = i := by
  induction names generalizing off i with
  | nil => simp [positions]
  | cons m ms ih =>
    simp only [positions]
    split_ifs with h
    · subst h
      cases i with
      | zero =>
        simp only [List.getElem?_cons_zero, Option.some.injEq]
        constructor
        · rintro rfl
          exact ⟨0, rfl, rfl, rfl⟩
        · rintro ⟨j, rfl, _, h3⟩
          cases j with
          | zero => rfl
          | succ j => simp at h3
      | succ i =>
        rw [List.getElem?_cons_succ, ih]
        constructor
        · rintro ⟨j, rfl, h2, h3⟩
          exact ⟨j + 1, by omega, by simpa using h2, by simp [h3]⟩
        · rintro ⟨j, rfl, h2, h3⟩
          cases j with
          | zero => simp at h3
          | succ j => exact ⟨j, by omega, by simpa using h2, by simpa using h3⟩
    · rw [ih]
      constructor
      · rintro ⟨j, rfl, h2, h3⟩
        exact ⟨j + 1, by omega, by simpa using h2, by simp [h3, h]⟩
      · rintro ⟨j, rfl, h2, h3⟩
        cases j with
        | zero => simp at h2; exact absurd h2 h
        | succ j => exact ⟨j, by omega, by simpa using h2, by simpa [h] using h3⟩

theorem mem_renameWrites (names : List String) (data : List ℕ) (r : ℕ) (s : String) :
    (r, s) ∈ renameWrites names data ↔ ∃ (j : ℕ) (n : String), names[j]? = some n ∧ names.count n > 1 ∧
      r = data.getD j 0 ∧ s = n ++ toString ((names.take j).count n) := by
  unfold renameWrites
  rw [List.mem_flatMap]
  constructor
  · rintro ⟨n, hn, h⟩
    split_ifs at h with hc
    · rw [List.mem_map] at h
      obtain ⟨⟨k, i⟩, hk, he⟩ := h
      rw [List.mem_zipIdx_iff_getElem?, positions_get] at hk
      obtain ⟨j, h1, h2, h3⟩ := hk
      simp only [Nat.zero_add] at h1
      simp only [Prod.mk.injEq] at he
      refine ⟨j, n, h2, hc, ?_, ?_⟩
      · rw [← he.1, h1]
      · rw [← he.2, h3]
    · simp at h
  · rintro ⟨j, n, h1, h2, h3, h4⟩
    refine ⟨n, (mem_dedupLevels _ _).2 (List.mem_of_getElem? h1), ?_⟩
    rw [if_pos h2, List.mem_map]
    refine ⟨(j, (names.take j).count n), ?_, by rw [h3, h4]⟩
    rw [List.mem_zipIdx_iff_getElem?, positions_get]
    exact ⟨j, by simp, h1, rfl⟩

theorem nodup_getD {data : List ℕ} (hd : data.Nodup) {i j : ℕ} (hi : i < data.length) (hj : j < data.length)
    (h : data.getD i 0 = data.getD j 0) : i = j := by
  rw [List.getD_eq_getElem _ _ hi, List.getD_eq_getElem _ _ hj] at h
  exact (List.Nodup.getElem_inj_iff hd).1 h

theorem checkData_length (h : Heap) (data : List ℕ) : (checkData h data).length = h.length :=
  foldl_setName_length _ _

theorem checkData_anon (h : Heap) (data : List ℕ) (r : ℕ) :
    ((checkData h data)[r]?).map anon = (h[r]?).map anon := foldl_setName_anon _ _ _

theorem checkData_outside (h : Heap) (data : List ℕ) (r : ℕ) (hr : r ∉ data) :
    (checkData h data)[r]? = h[r]? := by
  apply foldl_setName_untouched
  rintro ⟨r', s⟩ hw
  rw [mem_renameWrites] at hw
  obtain ⟨j, n, h1, _, h3, _⟩ := hw
  have hj : j < data.length := by
    have := (List.getElem?_eq_some_iff.1 h1).1
    simpa using this
  simp only []
  rintro rfl
  apply hr
  rw [h3, List.getD_eq_getElem _ _ hj]
  exact List.getElem_mem hj

/-- The names after `_check_data`, when the references are distinct. -/
theorem checkData_names (h : Heap) (data : List ℕ) (hd : data.Nodup) (ha : ∀ r ∈ data, r < h.length) :
    data.map (nameOf (checkData h data)) = numbered (data.map (nameOf h)) := by
  apply List.ext_getElem
  · simp [numbered]
  · intro k h1 h2
    have hk : k < data.length := by simpa using h1
    have hnk : (data.map (nameOf h))[k]? = some (nameOf h data[k]) := by
      simp [hk]
    have hgd : (data.map (nameOf h)).getD k "" = nameOf h data[k] := by
      rw [List.getD_eq_getElem?_getD, hnk]
      rfl
    simp only [numbered, List.getElem_map, List.getElem_range]
    rw [hgd]
    have hmem : ∀ s, (data[k], s) ∈ renameWrites (data.map (nameOf h)) data →
        (data.map (nameOf h)).count (nameOf h data[k]) > 1 ∧
        s = nameOf h data[k] ++ toString (((data.map (nameOf h)).take k).count (nameOf h data[k])) := by
      intro s hs
      rw [mem_renameWrites] at hs
      obtain ⟨j, n, g1, g2, g3, g4⟩ := hs
      have hj : j < data.length := by
        have := (List.getElem?_eq_some_iff.1 g1).1
        simpa using this
      have : j = k := by
        apply nodup_getD hd hj hk
        rw [← g3, List.getD_eq_getElem _ _ hk]
      subst this
      rw [hnk] at g1
      cases g1
      exact ⟨g2, g4⟩
    unfold checkData
    apply foldl_setName_name _ _ _ _ (ha _ (List.getElem_mem hk))
    · rintro ⟨r, s⟩ hw hr
      simp only [] at hr ⊢
      subst hr
      obtain ⟨c1, c2⟩ := hmem s hw
      rw [if_pos c1, c2]
    · split_ifs with hc
      · right
        refine ⟨(data[k], _), (mem_renameWrites _ _ _ _).2 ⟨k, _, hnk, hc, ?_, rfl⟩, rfl⟩
        rw [List.getD_eq_getElem _ _ hk]
      · left; rfl

/-- Distinct names are not changed. -/
theorem numbered_of_nodup {names : List String} (h : names.Nodup) : numbered names = names := by
  apply List.ext_getElem
  · simp [numbered]
  · intro k h1 h2
    simp only [numbered, List.getElem_map, List.getElem_range]
    rw [List.getD_eq_getElem _ _ h2, if_neg]
    have := List.nodup_iff_count_le_one.1 h names[k]
    omega

theorem renameWrites_nil {names : List String} (h : names.Nodup) (data : List ℕ) :
    renameWrites names data = [] := by
  unfold renameWrites
  rw [List.flatMap_eq_nil_iff]
  intro n _
  rw [if_neg]
  have := List.nodup_iff_count_le_one.1 h n
  omega

theorem checkData_of_nodup (h : Heap) (data : List ℕ) (hn : (data.map (nameOf h)).Nodup) :
    checkData h data = h := by
  unfold checkData
  rw [renameWrites_nil hn]
  rfl

/-! ### uniqueness of numbered names -/

theorem toString_digits (n : ℕ) : (∀ c ∈ (toString n).toList, c.isDigit = true) ∧ (toString n).toList ≠ [] := by
  have h : toString n = n.repr := rfl
  rw [h]
  constructor
  · intro c hc
    rw [Nat.repr_eq_ofList_toDigits, String.toList_ofList] at hc
    exact Nat.isDigit_of_mem_toDigits (by decide) (by decide) hc
  · intro hc
    apply Nat.repr_ne_empty (n := n)
    have := congrArg String.ofList hc
    rw [String.ofList_toList] at this
    rw [this]

theorem count_take_lt (names : List String) (n : String) (k j : ℕ) (hkj : k < j) (hk : names[k]? = some n) :
    (names.take k).count n < (names.take j).count n := by
  obtain ⟨hlt, hkn⟩ := List.getElem?_eq_some_iff.1 hk
  have h1 : (names.take (k + 1)).count n = (names.take k).count n + 1 := by
    rw [List.take_succ_eq_append_getElem hlt, List.count_append, hkn]
    simp
  have h2 : (names.take (k + 1)).count n ≤ (names.take j).count n :=
    List.Sublist.count_le _ (List.take_sublist_take_left hkj)
  omega

theorem numbered_nodup (names : List String) (h : ¬ DigitClash names) : (numbered names).Nodup := by
  have hclash : ∀ a ∈ names, ∀ b ∈ names, names.count a > 1 → ∀ s : List Char, s ≠ [] →
      (∀ c ∈ s, c.isDigit = true) → b.toList ≠ a.toList ++ s := by
    intro a ha b hb hc s hs hd he
    exact h ⟨a, ha, b, hb, hc, s, hs, hd, he⟩
  unfold numbered
  rw [List.nodup_map_iff_inj_on List.nodup_range]
  intro i hi j hj hij
  rw [List.mem_range] at hi hj
  simp only [] at hij
  have gi : names[i]? = some (names.getD i "") := by
    rw [List.getD_eq_getElem _ _ hi]; exact List.getElem?_eq_getElem hi
  have gj : names[j]? = some (names.getD j "") := by
    rw [List.getD_eq_getElem _ _ hj]; exact List.getElem?_eq_getElem hj
  have mi := List.mem_of_getElem? gi
  have mj := List.mem_of_getElem? gj
  generalize names.getD i "" = a at *
  generalize names.getD j "" = b at *
  -- distinct positions with the same name make it repeated
  have hrep : a = b → i ≠ j → names.count a > 1 := by
    intro hab hne
    subst hab
    rcases Nat.lt_or_gt_of_ne hne with hlt | hlt
    · have h1 := count_take_lt names a i j hlt gi
      have h2 := count_take_lt names a j names.length hj gj
      rw [List.take_length] at h2
      omega
    · have h1 := count_take_lt names a j i hlt gj
      have h2 := count_take_lt names a i names.length hi gi
      rw [List.take_length] at h2
      omega
  have hsame : ∀ u v : ℕ, a.toList ++ (toString u).toList = b.toList ++ (toString v).toList →
      names.count a > 1 → names.count b > 1 → a = b ∧ u = v := by
    intro u v he ca cb
    obtain ⟨du, nu⟩ := toString_digits u
    obtain ⟨dv, nv⟩ := toString_digits v
    rw [List.append_eq_append_iff] at he
    rcases he with ⟨s, hs1, hs2⟩ | ⟨s, hs1, hs2⟩
    · by_cases hsn : s = []
      · subst hsn
        simp only [List.append_nil] at hs1
        simp only [List.nil_append] at hs2
        refine ⟨(String.toList_inj.1 hs1).symm, ?_⟩
        exact Nat.repr_injective (String.toList_inj.1 hs2)
      · exact absurd hs1 (hclash a mi b mj ca s hsn (fun c hc => du c (by rw [hs2]; simp [hc])))
    · by_cases hsn : s = []
      · subst hsn
        simp only [List.append_nil] at hs1
        simp only [List.nil_append] at hs2
        refine ⟨String.toList_inj.1 hs1, ?_⟩
        exact (Nat.repr_injective (String.toList_inj.1 hs2)).symm
      · exact absurd hs1 (hclash b mj a mi cb s hsn (fun c hc => dv c (by rw [hs2]; simp [hc])))
  by_contra hne
  split_ifs at hij with ca cb cb
  · have := congrArg String.toList hij
    rw [String.toList_append, String.toList_append] at this
    obtain ⟨hab, huv⟩ := hsame _ _ this ca cb
    subst hab
    rcases Nat.lt_or_gt_of_ne hne with hlt | hlt
    · have h1 := count_take_lt names a i j hlt gi
      omega
    · have h1 := count_take_lt names a j i hlt gj
      omega
  · have := congrArg String.toList hij
    rw [String.toList_append] at this
    obtain ⟨du, nu⟩ := toString_digits ((names.take i).count a)
    exact hclash a mi b mj ca _ nu du this.symm
  · have := congrArg String.toList hij
    rw [String.toList_append] at this
    obtain ⟨du, nu⟩ := toString_digits ((names.take j).count b)
    exact hclash b mj a mi cb _ nu du this
  · exact ca (hrep hij hne)

/-! ### construction -/

theorem setStructure_flat (fuel : ℕ) (vars : List (String × Option Cond)) (h : ∀ v ∈ vars, v.2 = none) :
    setStructure fuel vars [] = some [] := by
  have h1 : ∀ d, addConditions vars d = some d := by
    intro d
    unfold addConditions
    induction vars generalizing d with
    | nil => rfl
    | cons v vs ih =>
      rw [List.foldlM_cons, h v (by simp)]
      exact ih (fun v hv => h v (List.mem_cons_of_mem _ hv)) d
  unfold setStructure
  simp [h1, nodesFromDict]

theorem condsOf_none (h : Heap) (data : List ℕ) (hc : ∀ r ∈ data, (h[r]?).bind PyVar.cond = none) :
    ∀ v ∈ condsOf h data, v.2 = none := by
  intro v hv
  unfold condsOf at hv
  rw [List.mem_map] at hv
  obtain ⟨r, hr, rfl⟩ := hv
  exact hc r hr

theorem cond_of_anon {a b : Option PyVar} (h : a.map anon = b.map anon) : a.bind PyVar.cond = b.bind PyVar.cond := by
  cases a with
  | none => cases b with
    | none => rfl
    | some b => simp at h
  | some a => cases b with
    | none => simp at h
    | some b =>
      simp only [Option.map_some, Option.some.injEq, anon, PyVar.mk.injEq] at h
      simp only [Option.bind_some]
      exact h.2.2.2.2.2.2.2

/-- Construction from variables without conditions always succeeds. -/
theorem newSpace_flat (fuel : ℕ) (h : Heap) (data : List ℕ) (hc : ∀ r ∈ data, (h[r]?).bind PyVar.cond = none) :
    newSpace fuel h data [] = some (setData h data []) := by
  unfold newSpace
  simp only []
  rw [setStructure_flat]
  · rfl
  · apply condsOf_none
    intro r hr
    rw [← hc r hr]
    apply cond_of_anon
    exact checkData_anon h data r

/-- The space made by `_set_data` is plain when its names do not clash. -/
theorem setData_plain (h : Heap) (data : List ℕ) (hd : data.Nodup) (ha : ∀ r ∈ data, r < h.length)
    (hc : ∀ r ∈ data, (h[r]?).bind PyVar.cond = none)
    (hn : (numbered (data.map (nameOf h))).Nodup) :
    Plain (setData h data []).1 (setData h data []).2 where
  alive := by intro r hr; simp only [setData, checkData_length]; exact ha r hr
  distinct := hd
  current := rfl
  names := by
    show (data.map (nameOf (checkData h data))).Nodup
    rw [checkData_names h data hd ha]
    exact hn
  uncond := by
    intro r hr
    show ((checkData h data)[r]?).bind PyVar.cond = none
    rw [← hc r hr]
    exact cond_of_anon (checkData_anon h data r)
  flat := rfl

/-! ### copies -/

theorem copies_map (h : Heap) (data : List ℕ) (ha : ∀ r ∈ data, r < h.length) :
    (data.filterMap (fun r => h[r]?)).map some = data.map (fun r => h[r]?) := by
  induction data with
  | nil => rfl
  | cons r rs ih =>
    rw [List.filterMap_cons, List.getElem?_eq_getElem (ha r (by simp))]
    simp [ih (fun r hr => ha r (by simp [hr])), List.getElem?_eq_getElem (ha r (by simp))]

theorem copies_length (h : Heap) (data : List ℕ) (ha : ∀ r ∈ data, r < h.length) :
    (data.filterMap (fun r => h[r]?)).length = data.length := by
  have := congrArg List.length (copies_map h data ha)
  simpa using this

/-- What is known after copying: the heap is extended, the new references are distinct and new, and they show
the same variables. -/
theorem copyRefs_spec (h : Heap) (data : List ℕ) (ha : ∀ r ∈ data, r < h.length) :
    let c := copyRefs h data
    (∃ x, c.1 = h ++ x) ∧ c.2.Nodup ∧ (∀ r ∈ c.2, h.length ≤ r ∧ r < c.1.length) ∧
    c.2.map (fun r => c.1[r]?) = data.map (fun r => h[r]?) := by
  have hl := copies_length h data ha
  refine ⟨⟨_, rfl⟩, ?_, ?_, ?_⟩
  · simp only [copyRefs]
    rw [List.nodup_map_iff_inj_on List.nodup_range]
    intro i _ j _ hij
    omega
  · simp only [copyRefs]
    intro r hr
    rw [List.mem_map] at hr
    obtain ⟨i, hi, rfl⟩ := hr
    rw [List.mem_range] at hi
    rw [List.length_append, hl]
    omega
  · simp only [copyRefs]
    rw [← copies_map h data ha]
    apply List.ext_getElem
    · simp [hl]
    · intro i h1 h2
      simp only [List.length_map, List.length_range] at h1
      simp only [List.getElem_map, List.getElem_range]
      rw [List.getElem?_append_right (by omega), Nat.add_sub_cancel_left]
      exact List.getElem?_eq_getElem (by omega)

theorem deepcopyRefs_eq (h : Heap) (data : List ℕ) (hd : data.Nodup) : deepcopyRefs h data = copyRefs h data := by
  unfold deepcopyRefs copyRefs
  congr 1
  apply List.ext_getElem
  · simp
  · intro i h1 h2
    simp only [List.length_map] at h1
    simp only [List.getElem_map, List.getElem_range]
    rw [List.Nodup.idxOf_getElem hd i h1]

theorem extend_get {h h' : Heap} (hx : ∃ x, h' = h ++ x) {r : ℕ} (hr : r < h.length) : h'[r]? = h[r]? := by
  obtain ⟨x, rfl⟩ := hx
  exact List.getElem?_append_left hr

theorem replicateRefs_spec (data : List ℕ) (n : ℕ) (h : Heap) (ha : ∀ r ∈ data, r < h.length) :
    let c := replicateRefs h data n
    (∃ x, c.1 = h ++ x) ∧ c.2.Nodup ∧ (∀ r ∈ c.2, h.length ≤ r ∧ r < c.1.length) ∧
    c.2.map (fun r => c.1[r]?) = (List.replicate n (data.map (fun r => h[r]?))).flatten := by
  induction n generalizing h with
  | zero => exact ⟨⟨[], by simp [replicateRefs]⟩, by simp [replicateRefs], by simp [replicateRefs], by simp [replicateRefs]⟩
  | succ n ih =>
    intro c
    obtain ⟨⟨x, hx⟩, c2, c3, c4⟩ := copyRefs_spec h data ha
    have hlen : (copyRefs h data).1.length = h.length + x.length := by rw [hx]; simp
    obtain ⟨⟨y, hy⟩, d2, d3, d4⟩ := ih (copyRefs h data).1 (by
      intro r hr
      have := ha r hr
      omega)
    have hlen2 : (replicateRefs (copyRefs h data).1 data n).1.length = h.length + x.length + y.length := by
      rw [hy]; simp [hlen]
    have e1 : c.1 = (replicateRefs (copyRefs h data).1 data n).1 := by
      show (replicateRefs h data (n + 1)).1 = _
      simp only [replicateRefs]
    have e2 : c.2 = (copyRefs h data).2 ++ (replicateRefs (copyRefs h data).1 data n).2 := by
      show (replicateRefs h data (n + 1)).2 = _
      simp only [replicateRefs]
    refine ⟨⟨x ++ y, ?_⟩, ?_, ?_, ?_⟩
    · rw [e1, hy, hx, List.append_assoc]
    · rw [e2, List.nodup_append]
      refine ⟨c2, d2, ?_⟩
      intro a h1 b h2
      have h3 := (c3 a h1).2
      have h4 := (d3 b h2).1
      omega
    · intro r hr
      rw [e2, List.mem_append] at hr
      rw [e1, hlen2]
      rcases hr with hr | hr
      · have := c3 r hr
        omega
      · have := d3 r hr
        omega
    · rw [e1, e2, List.map_append, d4, List.replicate_succ, List.flatten_cons, ← c4]
      congr 1
      · apply List.map_congr_left
        intro r hr
        exact extend_get ⟨y, hy⟩ (c3 r hr).2
      · rw [c4]
        congr 2
        apply List.map_congr_left
        intro r hr
        exact extend_get ⟨x, hx⟩ (ha r hr)

theorem names_of_views {h h' : Heap} {d d' : List ℕ} (hv : d.map (fun r => h[r]?) = d'.map (fun r => h'[r]?)) :
    d.map (nameOf h) = d'.map (nameOf h') := by
  have := congrArg (List.map (fun v : Option PyVar => (v.map PyVar.name).getD "")) hv
  rw [List.map_map, List.map_map] at this
  exact this

theorem anon_after_setData (h : Heap) (data : List ℕ) (st : List Node) :
    anonView (setData h data st).1 (setData h data st).2 = data.map (fun r => (h[r]?).map anon) := by
  unfold anonView view
  rw [List.map_map]
  apply List.map_congr_left
  intro r _
  exact checkData_anon h data r

theorem filter_positions {α : Type*} (l : List α) (d : α) (p : α → Bool) :
    ((List.range l.length).filter (fun i => p (l.getD i d))).map (fun i => l.getD i d) = l.filter p := by
  have h : l = (List.range l.length).map (fun i => l.getD i d) := by
    apply List.ext_getElem
    · simp
    · intro i h1 h2
      simp [h1]
  conv_rhs => rw [h, List.filter_map]
  rfl

end Verif.Proofs
