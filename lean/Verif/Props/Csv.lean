import Verif.Proofs.Csv

/-!
# C121, C122: exporting solutions
-/
namespace Verif.Props

open Verif.Model Verif.Spec Verif.Proofs

/-! ### C121: the file holds the solutions -/

private theorem csvRows_eq {α F : Type*} (str : α → Text) (fit : F → List Text) (o : CsvOptions) (a : Sol α F) (h : Wf a) :
    a.csvRows str fit o = (csvRecords str fit a).map (CsvRecord.cells o.index o.attrs) := by
  obtain ⟨_, _, _, hf, hn, hi, _⟩ := h
  apply List.ext_getElem?
  intro j
  unfold Sol.csvRows csvRecords
  rw [List.map_map, List.getElem?_map]
  by_cases hj : j < a.arr.rows.length
  · have e : (a.index.zip (a.arr.rows.zip (a.nEval.zip a.fitness)))[j]? = some (a.index[j], a.arr.rows[j], a.nEval[j], a.fitness[j]) := by
      simp [List.getElem?_eq_getElem, hj, hf, hn, hi]
    rw [e]
    cases hx : o.index <;> cases hy : o.attrs <;>
      simp [List.getElem?_zipWith, List.getElem?_eq_getElem, hj, hf, hn, hi, CsvRecord.cells]
  · have e : (a.index.zip (a.arr.rows.zip (a.nEval.zip a.fitness)))[j]? = none := by
      rw [List.getElem?_eq_none_iff]; simp; omega
    rw [e, Option.map_none, List.getElem?_eq_none_iff]
    cases hx : o.index <;> cases hy : o.attrs <;> simp <;> omega

private theorem csvHeader_eq {α F : Type*} (o : CsvOptions) (a : Sol α F) : a.csvHeader o = csvTitles o.index o.attrs a := by
  unfold Sol.csvHeader csvTitles
  cases o.index <;> cases o.attrs <;> simp

/-- After any history of calls on one file, with a delimiter that occurs in no cell, a reader finds exactly the rows written since the last call that does
not append: label, values, evaluation count and fitness of every solution, in order. -/
theorem c121_read_partial {α F : Type*} (str : α → Text) (fit : F → List Text) (d : Char) (hd : d ≠ '\n') (calls : List (CsvCall α F))
    (hc : ∀ c ∈ calls, Wf c.sol ∧ c.options.delimiter = [d] ∧ (c.raveled = true → c.sol.nObj = 1) ∧
      ∀ line ∈ c.lines str fit, ∀ cell ∈ line, CleanCell d cell) :
    (∀ c ∈ calls, ∀ file, (c.sol.toCsv str fit c.options c.raveled file).2 = true) ∧
    readTable d ((fileAfter str fit calls none).getD []) = tableAfter str fit calls [] := by
  have step : ∀ c ∈ calls, ∀ file, c.sol.toCsv str fit c.options c.raveled file =
      (some ((if c.options.append then file.getD [] else []) ++ ((c.lines str fit).map (csvLine [d])).flatten), true) := by
    intro c hm file
    obtain ⟨hw, hdl, hr, _⟩ := hc c hm
    have hf : c.sol.csvFails c.options c.raveled = false := by
      unfold Sol.csvFails
      rw [decide_eq_true hw.index, decide_eq_true hw.nEval, decide_eq_true hw.fitness]
      cases hrv : c.raveled
      · simp
      · rw [decide_eq_true (hr hrv)]; simp
    unfold Sol.toCsv
    rw [hf, if_neg (by simp), hdl, csvRows_eq _ _ _ _ hw, csvHeader_eq]
    unfold CsvCall.lines
    cases c.options.header <;> simp [List.append_assoc]
  have ne : ∀ c ∈ calls, ∀ line ∈ c.lines str fit, line ≠ [] := by
    intro c hm line hl
    have hw := (hc c hm).1
    unfold CsvCall.lines at hl
    rw [List.mem_append] at hl
    rcases hl with hl | hl
    · split_ifs at hl with hh
      · rw [List.mem_singleton] at hl
        rw [hl]
        unfold csvTitles
        have := hw.dim
        intro e
        have e' := congrArg List.length e
        simp only [List.length_append, List.length_map, List.length_nil] at e'
        omega
      · simp at hl
    · obtain ⟨r, hr, rfl⟩ := List.mem_map.1 hl
      unfold csvRecords at hr
      obtain ⟨p, hp, rfl⟩ := List.mem_map.1 hr
      have hrow := (List.of_mem_zip (List.of_mem_zip hp).2).1
      have h1 : p.2.1.length = c.sol.varName.length := hw.width _ hrow
      have := hw.dim
      unfold CsvRecord.cells
      intro e
      have e' := congrArg List.length e
      simp only [List.length_append, List.length_map, List.length_nil] at e'
      omega
  refine ⟨fun c hm file => by rw [step c hm file], ?_⟩
  -- the file is the text of a table of clean lines
  have main : ∀ (calls' : List (CsvCall α F)), (∀ c ∈ calls', c ∈ calls) → ∀ (file : Option Text) (t : List (List (List Char))),
      file.getD [] = (t.map (csvLine [d])).flatten → (∀ r ∈ t, r ≠ [] ∧ ∀ x ∈ r, CleanCell d x) →
      (fileAfter str fit calls' file).getD [] = ((tableAfter str fit calls' t).map (csvLine [d])).flatten ∧
      ∀ r ∈ tableAfter str fit calls' t, r ≠ [] ∧ ∀ x ∈ r, CleanCell d x := by
    intro calls'
    induction calls' with
    | nil => intro _ file t h1 h2; exact ⟨h1, h2⟩
    | cons c rest ih =>
      intro hsub file t h1 h2
      have hm := hsub c (List.mem_cons_self ..)
      have := ih (fun c' h => hsub c' (List.mem_cons_of_mem _ h)) (c.sol.toCsv str fit c.options c.raveled file).1
        ((if c.options.append then t else []) ++ c.lines str fit) ?_ ?_
      · exact this
      · rw [step c hm file, Option.getD_some, List.map_append, List.flatten_append]
        cases c.options.append
        · rfl
        · simp [h1]
      · intro r hr
        rw [List.mem_append] at hr
        rcases hr with hr | hr
        · split_ifs at hr
          · exact h2 r hr
          · simp at hr
        · exact ⟨ne c hm r hr, (hc c hm).2.2.2 r hr⟩
  obtain ⟨h1, h2⟩ := main calls (fun _ h => h) none [] rfl (by simp)
  rw [h1]
  exact readTable_lines hd _ h2

/-- The optimiser's data file (`data_file`, written after every `tell`): one line per observation, nothing lost and nothing repeated. -/
theorem c121_data_file_partial {α F : Type*} (str : α → Text) (fit : F → List Text) (told : List (Sol α F))
    (hw : ∀ a ∈ told, Wf a) (hc : ∀ a ∈ told, ∀ r ∈ csvRecords str fit a, ∀ cell ∈ r.cells true true, CleanCell ',' cell) :
    readTable ',' ((fileAfter str fit (told.map fun a => ⟨⟨[','], true, false, true, true⟩, false, a⟩) none).getD []) =
      (told.flatMap (csvRecords str fit)).map (CsvRecord.cells true true) := by
  rw [(c121_read_partial str fit ',' (by decide) _ ?_).2]
  · have : ∀ (l : List (Sol α F)) t, tableAfter str fit (l.map fun a => ⟨⟨[','], true, false, true, true⟩, false, a⟩) t =
        t ++ (l.flatMap (csvRecords str fit)).map (CsvRecord.cells true true) := by
      intro l
      induction l with
      | nil => intro t; simp [tableAfter]
      | cons a l ih =>
        intro t
        rw [List.map_cons]
        unfold tableAfter
        rw [ih]
        simp [CsvCall.lines, List.append_assoc]
    rw [this, List.nil_append]
  · intro c hm
    obtain ⟨a, ha, rfl⟩ := List.mem_map.1 hm
    refine ⟨hw a ha, rfl, by simp, ?_⟩
    intro line hl
    unfold CsvCall.lines at hl
    simp only [Bool.false_eq_true, if_false, List.nil_append, List.mem_map] at hl
    obtain ⟨r, hr, rfl⟩ := hl
    exact hc a ha r hr

/-- A call that raises leaves the file as it was. -/
theorem c121_raise {α F : Type*} (str : α → Text) (fit : F → List Text) (o : CsvOptions) (rav : Bool) (a : Sol α F) (file : Option Text)
    (h : (a.toCsv str fit o rav file).2 = false) : (a.toCsv str fit o rav file).1 = file := by
  unfold Sol.toCsv at *
  split_ifs at * with h1
  · rfl

private def oneRow (x y : String) : Sol String String := ⟨.two [[x, y]], ["1.0"], [1], ["0"], ["u", "v"], ["f"], 1⟩
private def plainOpts : CsvOptions := ⟨[','], false, true, true, true⟩
private def cellOf (s : String) : Text := s.toList

/-- With values that contain the delimiter, two different solutions give the same file, with five cells under four titles. -/
theorem c121_refuted : oneRow "a,b" "c" ≠ oneRow "a" "b,c" ∧
    (oneRow "a,b" "c").toCsv cellOf (fun f => [cellOf f]) plainOpts false none = (oneRow "a" "b,c").toCsv cellOf (fun f => [cellOf f]) plainOpts false none ∧
    (readTable ',' (((oneRow "a,b" "c").toCsv cellOf (fun f => [cellOf f]) plainOpts false none).1.getD [])).map List.length = [5, 6] := by
  refine ⟨fun h => ?_, by decide +kernel, by decide +kernel⟩
  simp [oneRow] at h

/-- Taking one row out of a set with two objectives and exporting it raises. -/
theorem c121_row_refuted : ((⟨.one [1], [(2, 3)], [1], ["0"], ["x"], ["f0", "f1"], 2⟩ : Sol ℤ (ℤ × ℤ)).toCsv (fun _ => []) (fun _ => [[], []])
    plainOpts true none) = (none, false) := by decide +kernel

/-- Appending twice with a header: the titles are found again among the rows. -/
theorem c121_header_refuted : ∃ calls : List (CsvCall String String), calls.length = 2 ∧ (∀ c ∈ calls, c.options.append = true ∧ c.options.header = true) ∧
    ((readTable ',' ((fileAfter cellOf (fun f => [cellOf f]) calls none).getD [])).map fun r => r[0]?) = [some [], some ['0'], some [], some ['0']] :=
  ⟨[⟨⟨[','], true, true, true, true⟩, false, oneRow "a" "b"⟩, ⟨⟨[','], true, true, true, true⟩, false, oneRow "c" "d"⟩], rfl, by simp, by decide +kernel⟩

/-- The hypotheses of `c121_data_file_partial` can be met, by two tells. -/
example : readTable ',' ((fileAfter cellOf (fun f => [cellOf f]) ([oneRow "a" "b", oneRow "c" "d"].map fun a => ⟨⟨[','], true, false, true, true⟩, false, a⟩)
    none).getD []) = [["0".toList, ['a'], ['b'], ['1'], "1.0".toList], ["0".toList, ['c'], ['d'], ['1'], "1.0".toList]] := by decide +kernel

example : (∀ a ∈ [oneRow "a" "b", oneRow "c" "d"], Wf a) ∧
    ∀ a ∈ [oneRow "a" "b", oneRow "c" "d"], ∀ r ∈ csvRecords cellOf (fun f => [cellOf f]) a, ∀ cell ∈ r.cells true true, CleanCell ',' cell := by
  constructor
  · intro a ha
    simp only [List.mem_cons, List.not_mem_nil, or_false] at ha
    rcases ha with rfl | rfl <;>
      exact ⟨by simp [oneRow, Arr.rows], by simp [oneRow, Arr.rows], by simp [oneRow], rfl, rfl, rfl, rfl⟩
  · unfold CleanCell
    decide +kernel

/-! ### C122: dictionaries of columns -/

private theorem zipIdx_keys {α β : Type*} (l : List α) (f : α × ℕ → β) : keys (l.zipIdx.map fun nk => (nk.1, f nk)) = l := by
  unfold keys
  rw [List.map_map]
  exact List.zipIdx_map_fst 0 l

private theorem assignment_at {α : Type*} {names : List String} (hn : names.Nodup) {k : ℕ} {n : String} (hk : names[k]? = some n) {r : List α}
    (hr : r.length = names.length) : assignment names r n = r[k]? := by
  unfold assignment
  induction names generalizing k r with
  | nil => simp at hk
  | cons m names ih =>
    cases r with
    | nil => simp at hr
    | cons v r =>
      rw [List.nodup_cons] at hn
      rw [List.zip_cons_cons, List.lookup_cons]
      cases k with
      | zero =>
        simp only [List.getElem?_cons_zero, Option.some.injEq] at hk
        subst hk
        simp
      | succ k =>
        rw [List.getElem?_cons_succ] at hk
        have : (n == m) = false := by
          rw [beq_eq_false_iff_ne]
          rintro rfl
          exact hn.1 (List.mem_of_getElem? hk)
        rw [this]
        simpa using ih hn.2 hk (by simpa using hr)

/-- `to_dict(orient="var")`: under every variable name its values, in the order of the rows. -/
theorem c122_columns_partial {α F : Type*} (a : Sol α F) (h : Wf a) (hn : a.varName.Nodup) (n : String) (hm : n ∈ a.varName) :
    ∃ col, dictGet a.toDictVar n = some col ∧ col.map some = a.arr.rows.map (fun r => assignment a.varName r n) := by
  obtain ⟨k, hk⟩ := List.getElem?_of_mem hm
  refine ⟨a.arr.rows.filterMap fun r => r[k]?, ?_, ?_⟩
  · unfold Sol.toDictVar dictOf
    rw [dictGet_update _ _ (by rw [zipIdx_keys]; exact hn)]
    rw [dictGet_of_mem (by rw [zipIdx_keys]; exact hn) (v := a.arr.rows.filterMap fun r => r[k]?)]
    · rfl
    · exact List.mem_map.2 ⟨(n, k), List.mk_mem_zipIdx_iff_getElem?.2 hk, rfl⟩
  · have : ∀ rows : List (List α), (∀ r ∈ rows, r.length = a.varName.length) →
        (rows.filterMap fun r => r[k]?).map some = rows.map fun r => assignment a.varName r n := by
      intro rows
      induction rows with
      | nil => intro _; rfl
      | cons r rows ih =>
        intro hr
        have hl := hr r (List.mem_cons_self ..)
        have hkl : k < r.length := by rw [hl]; exact (List.getElem?_eq_some_iff.1 hk).1
        rw [List.map_cons, assignment_at hn hk hl, List.filterMap_cons, List.getElem?_eq_getElem hkl]
        simp only [List.map_cons]
        rw [ih fun s hs => hr s (List.mem_cons_of_mem _ hs)]
    exact this _ h.width

/-- `to_dict(orient="var", with_index=True)`: under every variable name and label the value of that row. -/
theorem c122_labelled_partial {α F : Type*} (a : Sol α F) (h : Wf a) (hn : a.varName.Nodup) (hl : a.index.Nodup) (n l : String) (r : List α)
    (hm : n ∈ a.varName) (hr : (l, r) ∈ a.index.zip a.arr.rows) :
    ∃ d, dictGet a.toDictVarIndexed n = some d ∧ dictGet d l = assignment a.varName r n := by
  obtain ⟨k, hk⟩ := List.getElem?_of_mem hm
  set col := (a.index.zip a.arr.rows).filterMap fun ir => (ir.2[k]?).map fun v => (ir.1, v) with hcol
  have hcolk : (keys col).Nodup := by
    have : (keys col).Sublist a.index := by
      have : ∀ z : List (String × List α), (keys (z.filterMap fun ir => (ir.2[k]?).map fun v => (ir.1, v))).Sublist (z.map Prod.fst) := by
        intro z
        induction z with
        | nil => exact List.Sublist.refl _
        | cons p z ih =>
          rw [List.filterMap_cons, List.map_cons]
          cases p.2[k]? with
          | none => exact ih.cons _
          | some v => exact ih.cons_cons _
      refine (this _).trans ?_
      rw [List.map_fst_zip (by rw [h.index])]
    exact hl.sublist this
  refine ⟨dictOf col, ?_, ?_⟩
  · unfold Sol.toDictVarIndexed
    unfold dictOf
    rw [dictGet_update _ _ (by rw [zipIdx_keys]; exact hn), dictGet_of_mem (by rw [zipIdx_keys]; exact hn) (v := dictOf col)]
    · rfl
    · exact List.mem_map.2 ⟨(n, k), List.mk_mem_zipIdx_iff_getElem?.2 hk, rfl⟩
  · have hrl := h.width r (List.of_mem_zip hr).2
    have hkl : k < r.length := by rw [hrl]; exact (List.getElem?_eq_some_iff.1 hk).1
    unfold dictOf
    rw [dictGet_update _ _ hcolk, assignment_at hn hk hrl, List.getElem?_eq_getElem hkl, dictGet_of_mem hcolk (v := r[k])]
    · rfl
    · rw [hcol, List.mem_filterMap]
      exact ⟨(l, r), hr, by simp [List.getElem?_eq_getElem hkl]⟩

/-- Labels are numbered anew in every set, so after adding two sets a row is lost. -/
theorem c122_labels_refuted : ∃ a b c : Sol ℤ ℤ, mkSol (fun _ => false) (.two [[1]]) [5] [1] none none ["f"] 1 = some a ∧
    mkSol (fun _ => false) (.two [[2]]) [6] [1] none none ["f"] 1 = some b ∧ a.add (fun _ => false) b = some c ∧ c.arr.rows = [[1], [2]] ∧
    c.toDictVarIndexed = [("x", [("0", 2)])] ∧ c.toDictVar = [("x", [1, 2])] := by
  refine ⟨⟨.two [[1]], [5], [1], ["0"], ["x"], ["f"], 1⟩, ⟨.two [[2]], [6], [1], ["0"], ["x"], ["f"], 1⟩,
    ⟨.two [[1], [2]], [5, 6], [1, 1], ["0", "0"], ["x"], ["f"], 1⟩, ?_, ?_, ?_, rfl, ?_, ?_⟩ <;> first | rfl | decide +kernel

/-- With a variable name used twice a column is lost. -/
theorem c122_names_refuted : ∃ a : Sol ℤ ℤ, mkSol (fun _ => false) (.two [[1, 2]]) [5] [1] none (some ["u", "u"]) ["f"] 1 = some a ∧
    a.toDictVar = [("u", [2])] := by
  refine ⟨⟨.two [[1, 2]], [5], [1], ["0"], ["u", "u"], ["f"], 1⟩, ?_, ?_⟩ <;> first | rfl | decide +kernel

example : (⟨.two [[1, 2], [3, 4]], [5, 6], [1, 1], ["0", "1"], ["u", "v"], ["f"], 1⟩ : Sol ℤ ℤ).toDictVarIndexed =
    [("u", [("0", 1), ("1", 3)]), ("v", [("0", 2), ("1", 4)])] := by decide +kernel

end Verif.Props
