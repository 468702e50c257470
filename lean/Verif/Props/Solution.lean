import Mathlib.Data.String.Basic
import Verif.Proofs.Solution

/-! # C26-C28, C60-C62: solution sets -/
namespace Verif.Props
open Verif.Model Verif.Spec Verif.Proofs

variable {α F : Type*}

private theorem rows_two (X : List (List α)) : (Arr.two X).rows = X := rfl
private theorem rows_one (x : List α) : (Arr.one x).rows = [x] := rfl

private theorem mkArr_two (isTuple : α → Bool) (X : List (List α)) (w : ℕ) (hw : 0 < w) (hne : X ≠ [])
    (h : ∀ r ∈ X, r.length = w) : mkArr isTuple (.two X) = some (.two X) ∧ (Arr.two X).dim = w := by
  cases X with
  | nil => exact absurd rfl hne
  | cons r X =>
    have hr := h r (List.mem_cons_self ..)
    cases r with
    | nil => simp at hr; omega
    | cons v r =>
      have : X.all (fun s => s.length == r.length + 1) = true := by
        rw [List.all_eq_true]
        intro s hs
        have := h s (List.mem_cons_of_mem _ hs)
        simp only [List.length_cons] at hr
        simp [this, hr]
      simp only [mkArr, this, if_true, Arr.dim]
      exact ⟨trivial, hr⟩

private theorem arr_dim {a : Sol α F} (h : Wf a) : a.arr.dim = a.varName.length := by
  cases ha : a.arr with
  | one x =>
    have := h.width x (by simp [ha, Arr.rows])
    simpa [Arr.dim] using this
  | two X =>
    cases X with
    | nil => exact absurd (by simp [ha, Arr.rows]) h.nonempty
    | cons r X =>
      have := h.width r (by simp [ha, Arr.rows])
      simpa [Arr.dim] using this

private theorem add_eq (isTuple : α → Bool) (a b : Sol α F) (ha : Wf a) (hb : Wf b)
    (hdim : a.varName.length = b.varName.length)
    (hv : sameSet a.varName b.varName = true) (hf : sameSet a.fitnessName b.fitnessName = true)
    (ho : a.nObj = b.nObj) :
    a.add isTuple b = some { arr := .two (a.arr.rows ++ b.arr.rows), fitness := a.fitness ++ b.fitness, nEval := a.nEval ++ b.nEval, index := a.index ++ b.index, varName := a.varName, fitnessName := a.fitnessName, nObj := a.nObj } := by
  obtain ⟨h1, h2⟩ := mkArr_two isTuple (a.arr.rows ++ b.arr.rows) a.varName.length ha.dim
    (by simp [ha.nonempty]) (by
      intro r hr
      rcases List.mem_append.mp hr with hr | hr
      · exact ha.width r hr
      · rw [hb.width r hr, hdim])
  unfold Sol.add
  rw [if_pos ⟨by rw [arr_dim ha, arr_dim hb, hdim], ho, hf, hv⟩]
  unfold mkSol
  rw [h1, Option.bind_some]
  simp only [Option.getD_some, rows_two, List.length_append, h2]
  exact if_pos ⟨by rw [ha.fitness, hb.fitness], by rw [ha.index, hb.index], trivial, ha.names⟩

private theorem sameSet_refl (l : List String) : sameSet l l = true := by
  simp [sameSet]

private theorem zip4_append {A B C D : Type*} (a a' : List A) (b b' : List B) (c c' : List C) (d d' : List D)
    (h1 : a.length = b.length) (h2 : b.length = c.length) (h3 : c.length = d.length) :
    (a ++ a').zip ((b ++ b').zip ((c ++ c').zip (d ++ d'))) =
      a.zip (b.zip (c.zip d)) ++ a'.zip (b'.zip (c'.zip d')) := by
  rw [List.zip_append h3, List.zip_append (by simp; omega), List.zip_append (by simp; omega)]

/-- C26, partial: for two well-formed solution sets over the same variables *in the same order*, `a + b` succeeds, is
well-formed and its content is the content of `a` followed by that of `b`.  For the same variables in another order the
claim is false: `c26_permuted_columns`. -/
theorem c26_concatenation_partial (isTuple : α → Bool) (a b : Sol α F) (ha : Wf a) (hb : Wf b)
    (hv : a.varName = b.varName) (hf : a.fitnessName = b.fitnessName) (ho : a.nObj = b.nObj) :
    ∃ c, a.add isTuple b = some c ∧ Wf c ∧ c.varName = a.varName ∧ records c = records a ++ records b := by
  refine ⟨_, add_eq isTuple a b ha hb (by rw [hv]) (by rw [hv]; exact sameSet_refl _)
    (by rw [hf]; exact sameSet_refl _) ho, ?_, rfl, ?_⟩
  · constructor
    · simp [rows_two, ha.nonempty]
    · intro r hr
      simp only [rows_two, List.mem_append] at hr
      rcases hr with hr | hr
      · exact ha.width r hr
      · rw [hb.width r hr]; simp [hv]
    · exact ha.dim
    · simp [rows_two, ha.fitness, hb.fitness]
    · simp [rows_two, ha.nEval, hb.nEval]
    · simp [rows_two, ha.index, hb.index]
    · exact ha.names
  · simp only [records, rows_two, List.map_append]
    rw [zip4_append _ _ _ _ _ _ _ _ (by simp [ha.fitness]) (by rw [ha.fitness, ha.nEval])
      (by rw [ha.nEval, ha.index])]
    simp only [hv]

/-- C26: sets over different variables, or with different numbers of objectives, are refused. -/
theorem c26_mismatch_refused (isTuple : α → Bool) (a b : Sol α F)
    (h : (∃ n, n ∈ a.varName ∧ n ∉ b.varName) ∨ (∃ n, n ∈ b.varName ∧ n ∉ a.varName) ∨ a.nObj ≠ b.nObj) :
    a.add isTuple b = none := by
  unfold Sol.add
  rw [if_neg]
  rintro ⟨_, ho, _, hs⟩
  simp only [sameSet, Bool.and_eq_true, List.all_eq_true, List.contains_iff_mem] at hs
  rcases h with ⟨n, h1, h2⟩ | ⟨n, h1, h2⟩ | h
  · exact h2 (hs.1 n h1)
  · exact h2 (hs.2 n h1)
  · exact h ho

/-- Two points over the variables `x`, `y`, with the columns in different order. -/
def solXY : Sol ℤ ℤ := { arr := .two [[1, 2]], fitness := [10], nEval := [1], index := ["0"], varName := ["x", "y"], fitnessName := ["f"], nObj := 1 }
/-- See `solXY`. -/
def solYX : Sol ℤ ℤ := { arr := .two [[3, 4]], fitness := [20], nEval := [1], index := ["0"], varName := ["y", "x"], fitnessName := ["f"], nObj := 1 }

/-- C26 refuted for permuted columns: the point `y = 3, x = 4` becomes `x = 3, y = 4`. -/
theorem c26_permuted_columns :
    ∃ c, solXY.add (fun _ => false) solYX = some c ∧
      (records solYX).map (fun r => (r.1 "x", r.1 "y")) = [(some 4, some 3)] ∧
      (records c).map (fun r => (r.1 "x", r.1 "y")) = [(some 1, some 2), (some 3, some 4)] := by
  refine ⟨_, rfl, ?_, ?_⟩ <;> decide

/-- The hypotheses of `c26_concatenation_partial` hold for two points with equally ordered columns. -/
example : Wf solXY ∧ Wf { solXY with arr := .one [5, 6], fitness := [30] } := by
  constructor <;> constructor <;> simp [solXY, Arr.rows]

/-! ## C62: repetition -/

/-- C62, partial: a one-dimensional solution repeated `n ≥ 1` times has `n` rows with the values, fitness and counter of
the point, labelled `0, …, n-1`. -/
theorem c62_repeat_partial (isTuple : α → Bool) (a : Sol α F) (x : List α) (hx : a.arr = .one x) (ha : Wf a)
    (n : ℤ) (hn : 1 ≤ n) :
    ∃ c f e, a.fitness = [f] ∧ a.nEval = [e] ∧ a.mul isTuple n = some c ∧
      records c = (List.range n.toNat).map (fun i => (assignment a.varName x, f, e, toString i)) := by
  have hf : a.fitness.length = 1 := by rw [ha.fitness, hx]; rfl
  have he : a.nEval.length = 1 := by rw [ha.nEval, hx]; rfl
  obtain ⟨f, hf⟩ := List.length_eq_one_iff.mp hf
  obtain ⟨e, he⟩ := List.length_eq_one_iff.mp he
  have hxl : x.length = a.varName.length := ha.width x (by simp [hx, Arr.rows])
  have hx' : pyMul [x] n = List.replicate n.toNat x := by simp [pyMul]
  have hf' : pyMul [f] n = List.replicate n.toNat f := by simp [pyMul]
  have he' : pyMul [e] n = List.replicate n.toNat e := by simp [pyMul]
  have hnn : n.toNat ≠ 0 := by omega
  obtain ⟨h1, h2⟩ := mkArr_two isTuple (List.replicate n.toNat x) a.varName.length ha.dim (by simp [hnn])
    (by intro r hr; rw [List.eq_of_mem_replicate hr, hxl])
  refine ⟨{ arr := .two (List.replicate n.toNat x), fitness := List.replicate n.toNat f, nEval := List.replicate n.toNat e, index := (List.range n.toNat).map toString, varName := a.varName, fitnessName := a.fitnessName, nObj := a.nObj }, f, e, hf, he, ?_, ?_⟩
  · unfold Sol.mul
    rw [hx]
    simp only [hf, he, hx', hf', he', mkSol]
    rw [h1, Option.bind_some]
    simp only [rows_two, Option.getD_some, Option.getD_none, List.length_replicate, h2]
    exact if_pos ⟨trivial, by simp, trivial, ha.names⟩
  · simp only [records, Arr.rows, List.map_replicate]
    apply List.ext_getElem
    · simp
    · intro i h3 h4
      simp

/-- C62 refuted for a table with one row: multiplying it raises. -/
theorem c62_one_row_table_raises (isTuple : α → Bool) (a : Sol α F) (r : List α) (h : a.arr = .two [r]) (n : ℤ) :
    a.mul isTuple n = none := by
  unfold Sol.mul
  rw [h]

example : ∃ x, ({ solXY with arr := .one [5, 6], fitness := [30] } : Sol ℤ ℤ).arr = .one x := ⟨_, rfl⟩

/-! ## C28: unique -/

private theorem unique_rows {κ : Type*} [LinearOrder κ] (enc : Option (List α) → κ) (a : Sol α F) (X : List (List α))
    (hX : a.arr = .two X) (henc : ∀ r ∈ X, ∀ s ∈ X, enc (some r) = enc (some s) → r = s) :
    ∃ idx, FirstOccurrences X idx ∧ a.unique enc = a.getRows idx := by
  obtain ⟨hn, hm⟩ := uniqueIndex_spec (fun i => enc X[i]?) X.length
  refine ⟨List.insertionSort (· ≤ ·) (uniqueIndex (fun i => enc X[i]?) X.length), ⟨?_, ?_⟩, ?_⟩
  · have h1 := List.pairwise_insertionSort (· ≤ ·) (uniqueIndex (fun i => enc X[i]?) X.length)
    have h2 : (List.insertionSort (· ≤ ·) (uniqueIndex (fun i => enc X[i]?) X.length)).Nodup :=
      (List.perm_insertionSort _ _).nodup_iff.mpr hn
    exact (h1.and h2).imp (fun ⟨h1, h2⟩ => lt_of_le_of_ne h1 h2)
  · intro i
    rw [List.mem_insertionSort, hm i]
    constructor
    · rintro ⟨h1, h2⟩
      refine ⟨h1, fun j hj heq => h2 j hj ?_⟩
      simp only [heq]
    · rintro ⟨h1, h2⟩
      refine ⟨h1, fun j hj heq => h2 j hj ?_⟩
      have hj' : j < X.length := hj.trans h1
      simp only [List.getElem?_eq_getElem hj', List.getElem?_eq_getElem h1] at heq ⊢
      rw [henc _ (List.getElem_mem hj') _ (List.getElem_mem h1) heq]
  · unfold Sol.unique
    rw [hX]

/-- C28, partial: if numpy's conversion of the table to one type keeps different rows different, `unique` keeps exactly the
first occurrence of each row, in order, with fitness, counter and label. -/
theorem c28_first_occurrences_partial {κ : Type*} [LinearOrder κ] (enc : Option (List α) → κ) (a : Sol α F)
    (ha : Wf a) (X : List (List α)) (hX : a.arr = .two X)
    (henc : ∀ r ∈ X, ∀ s ∈ X, enc (some r) = enc (some s) → r = s) :
    ∃ idx, FirstOccurrences X idx ∧
      (a.unique enc).varName = a.varName ∧
      records (a.unique enc) = idx.filterMap (fun i => (records a)[i]?) := by
  obtain ⟨idx, h1, h2⟩ := unique_rows enc a X hX henc
  refine ⟨idx, h1, by rw [h2]; rfl, ?_⟩
  rw [h2]
  have hlt : ∀ i ∈ idx, i < X.length := fun i hi => ((h1.2 i).mp hi).1
  have hf : a.fitness.length = X.length := by rw [ha.fitness, hX]; rfl
  have he : a.nEval.length = X.length := by rw [ha.nEval, hX]; rfl
  have hi' : a.index.length = X.length := by rw [ha.index, hX]; rfl
  clear h1 h2
  simp only [records, Sol.getRows, Arr.rows, hX]
  induction idx with
  | nil => simp [takeAt]
  | cons i idx ih =>
    have hi := hlt i (List.mem_cons_self ..)
    have IH := ih (fun j hj => hlt j (List.mem_cons_of_mem _ hj))
    have g1 : X[i]? = some X[i] := List.getElem?_eq_getElem hi
    have g2 : a.fitness[i]? = some (a.fitness[i]'(by omega)) := List.getElem?_eq_getElem _
    have g3 : a.nEval[i]? = some (a.nEval[i]'(by omega)) := List.getElem?_eq_getElem _
    have g4 : a.index[i]? = some (a.index[i]'(by omega)) := List.getElem?_eq_getElem _
    simp only [takeAt, List.filterMap_cons, g1, g2, g3, g4, List.map_cons, List.zip_cons_cons] at IH ⊢
    rw [List.getElem?_eq_getElem (by simp; omega)]
    simp only [List.getElem_zip, List.getElem_map]
    rw [IH]

/-- C28, partial: in particular the rows of the result are pairwise different and are the same rows as before. -/
theorem c28_rows_partial {κ : Type*} [LinearOrder κ] (enc : Option (List α) → κ) (a : Sol α F)
    (X : List (List α)) (hX : a.arr = .two X)
    (henc : ∀ r ∈ X, ∀ s ∈ X, enc (some r) = enc (some s) → r = s) :
    (a.unique enc).arr.rows.Nodup ∧ ∀ r, r ∈ (a.unique enc).arr.rows ↔ r ∈ X := by
  obtain ⟨idx, h1, h2⟩ := unique_rows enc a X hX henc
  rw [h2]
  simp only [Sol.getRows, Arr.rows, hX, takeAt]
  constructor
  · have hp : idx.Pairwise (fun i j => i ∈ idx ∧ j ∈ idx ∧ i < j) :=
      List.Pairwise.imp_of_mem (fun hi hj hij => ⟨hi, hj, hij⟩) h1.1
    refine List.Pairwise.filterMap (fun i => X[i]?) ?_ hp
    intro i j h r hr s hs heq
    subst heq
    exact ((h1.2 j).mp h.2.1).2 i h.2.2 (hr.trans hs.symm)
  · intro r
    rw [List.mem_filterMap]
    constructor
    · rintro ⟨i, _, hi⟩
      exact List.mem_of_getElem? hi
    · intro hr
      classical
      have hex : ∃ i : ℕ, X[i]? = some r := List.mem_iff_getElem?.mp hr
      refine ⟨Nat.find hex, (h1.2 _).mpr ⟨?_, ?_⟩, Nat.find_spec hex⟩
      · exact (List.getElem?_eq_some_iff.mp (Nat.find_spec hex)).1
      · intro j hj heq
        exact Nat.find_min hex hj (heq.trans (Nat.find_spec hex))

/-- C28: a one-dimensional solution is returned unchanged. -/
theorem c28_single_point {κ : Type*} [LinearOrder κ] (enc : Option (List α) → κ) (a : Sol α F) (x : List α)
    (hx : a.arr = .one x) : a.unique enc = a := by
  unfold Sol.unique
  rw [hx]

/-- Three rows, the last equal to the first. -/
def solDup : Sol ℤ ℤ := { arr := .two [[1], [2], [1]], fitness := [10, 20, 30], nEval := [1, 1, 1], index := ["0", "1", "2"], varName := ["x"], fitnessName := ["f"], nObj := 1 }

example : Wf solDup ∧ (solDup.unique (fun r => (r.bind List.head?).getD 0)).arr.rows = [[1], [2]] ∧
    (solDup.unique (fun r => (r.bind List.head?).getD 0)).fitness = [10, 20] := by
  refine ⟨?_, by decide, by decide⟩
  constructor <;> simp [solDup, Arr.rows]

/-- C28 refuted in general: numpy converts a table that mixes numbers and strings to strings, so the number `1` and the
string `"1"` (both legal levels of one variable) become equal and one of the points is lost. -/
theorem c28_conversion_merges :
    let X : List (List (ℤ ⊕ String)) := [[.inl 1, .inr "a"], [.inr "1", .inr "a"]]
    let a : Sol (ℤ ⊕ String) ℤ := { arr := .two X, fitness := [10, 20], nEval := [1, 1], index := ["0", "1"], varName := ["x", "y"], fitnessName := ["f"], nObj := 1 }
    (a.unique (fun r => String.join ((r.getD []).map (fun v => Sum.elim toString id v ++ ",")))).arr.rows = [[.inl 1, .inr "a"]] := by
  decide +kernel

/-! ## C27, C60, C61: dictionaries -/

private theorem zip_values {β : Type*} (names : List String) (r : List β) (h : r.length = names.length) :
    (names.zip r).map Prod.snd = r ∧ (names.zip r).map Prod.fst = names := by
  constructor
  · exact List.map_snd_zip (by omega)
  · exact List.map_fst_zip (by omega)

/-- C27, partial: export to dictionaries and import gives back the rows and the variable names, for unique names and, when
the set is a single one-dimensional point, if its first value is not a tuple. -/
theorem c27_roundtrip_partial (isTuple : α → Bool) (noFit : F) (a : Sol α F) (ha : Wf a) (hn : a.varName.Nodup)
    (ht : ∀ v x, a.arr = .one (v :: x) → isTuple v = false) :
    ∃ b, solFromDict isTuple noFit a.toDict = some b ∧ b.arr = a.arr ∧ b.varName = a.varName := by
  have hd : ∀ r ∈ a.arr.rows, dictOf (a.varName.zip r) = a.varName.zip r := by
    intro r hr
    apply dictOf_nodup
    unfold keys
    rw [(zip_values _ r (ha.width r hr)).2]
    exact hn
  cases harr : a.arr with
  | one x =>
    have hx := ha.width x (by simp [harr, Arr.rows])
    have hdx := hd x (by simp [harr, Arr.rows])
    obtain ⟨z1, z2⟩ := zip_values a.varName x hx
    simp only [Sol.toDict, harr, hdx, solFromDict, z1, z2]
    cases x with
    | nil => have := ha.dim; simp at hx; omega
    | cons v x =>
      refine ⟨{ arr := .one (v :: x), fitness := [noFit], nEval := [0], index := (List.range 1).map toString, varName := a.varName, fitnessName := ["f"], nObj := 1 }, ?_, rfl, rfl⟩
      simp only [mkSol, mkArr, ht v x harr, Bool.false_eq_true, if_false, Option.bind_some, rows_one,
        Option.getD_some, Option.getD_none, Arr.dim]
      exact if_pos ⟨rfl, by simp, hx.symm, rfl⟩
  | two X =>
    have hw : ∀ r ∈ X, r.length = a.varName.length := fun r hr => ha.width r (by simpa [harr, Arr.rows] using hr)
    have hne : X ≠ [] := by
      have := ha.nonempty
      simpa [harr, Arr.rows] using this
    obtain ⟨h1, h2⟩ := mkArr_two isTuple X a.varName.length ha.dim hne hw
    have hmap : X.map (fun r => dictOf (a.varName.zip r)) = X.map (fun r => a.varName.zip r) :=
      List.map_congr_left (fun r hr => hd r (by simpa [harr, Arr.rows] using hr))
    have hback : (X.map (fun r => a.varName.zip r)).map (fun e => e.map Prod.snd) = X := by
      rw [List.map_map]
      conv_rhs => rw [← List.map_id X]
      exact List.map_congr_left (fun r hr => (zip_values a.varName r (hw r hr)).1)
    simp only [Sol.toDict, harr, hmap]
    cases X with
    | nil => exact absurd rfl hne
    | cons r X =>
      simp only [List.map_cons, solFromDict] at hback ⊢
      rw [hback, (zip_values a.varName r (hw r (List.mem_cons_self ..))).2]
      refine ⟨{ arr := .two (r :: X), fitness := List.replicate (X.length + 1) noFit, nEval := List.replicate (X.length + 1) 0, index := (List.range (X.length + 1)).map toString, varName := a.varName, fitnessName := ["f"], nObj := 1 }, ?_, rfl, rfl⟩
      simp only [mkSol, h1, Option.bind_some, rows_two, Option.getD_some, Option.getD_none, h2, List.length_map,
        List.length_replicate, List.length_cons]
      exact if_pos ⟨trivial, by simp, trivial, rfl⟩

example : Wf solDup ∧ solDup.varName.Nodup ∧ Wf solXY ∧ solXY.varName.Nodup := by
  refine ⟨?_, by simp [solDup], ?_, by simp [solXY]⟩ <;> constructor <;> simp [solXY, solDup, Arr.rows]

/-- C27 refuted: a one-dimensional point whose first value is a tuple (a `Subset` variable) cannot be imported. -/
theorem c27_tuple_first_raises (isTuple : α → Bool) (noFit : F) (a : Sol α F) (v : α) (x : List α)
    (n : String) (names : List String) (hx : a.arr = .one (v :: x)) (hv : a.varName = n :: names)
    (hn : a.varName.Nodup) (ht : isTuple v = true) :
    solFromDict isTuple noFit a.toDict = none := by
  have hz : (a.varName.zip (v :: x)) = (n, v) :: names.zip x := by rw [hv]; rfl
  have hd : dictOf (a.varName.zip (v :: x)) = (n, v) :: names.zip x := by
    rw [dictOf_nodup, hz]
    refine List.Nodup.sublist ?_ hn
    unfold keys
    generalize a.varName = l, v :: x = l'
    induction l generalizing l' with
    | nil => simp
    | cons b l ih =>
      cases l' with
      | nil => simp
      | cons c l' => simpa using ih l'
  simp [Sol.toDict, hx, hd, solFromDict, mkSol, mkArr, ht]

/-- C60, partial: importing dictionaries that list the same keys in the same order gives, for every dictionary, a row with
the value of each key in the column of that key. -/
theorem c60_import_partial (isTuple : α → Bool) (noFit : F) (names : List String) (hn : names.Nodup) (hpos : names ≠ [])
    (ds : List (List (String × α))) (hne : ds ≠ []) (hk : ∀ d ∈ ds, d.map Prod.fst = names) :
    ∃ b, solFromDict isTuple noFit (.many ds) = some b ∧ b.varName = names ∧
      b.arr.rows.map (assignment b.varName) = ds.map (fun d n => d.lookup n) := by
  cases ds with
  | nil => exact absurd rfl hne
  | cons d ds =>
    have hlen : ∀ e ∈ d :: ds, (e.map Prod.snd).length = names.length := by
      intro e he
      have := congrArg List.length (hk e he)
      simpa using this
    have hdn := hk d (List.mem_cons_self ..)
    obtain ⟨h1, h2⟩ := mkArr_two isTuple ((d :: ds).map (fun e => e.map Prod.snd)) names.length
      (List.length_pos_iff.mpr hpos) (by simp) (by
        intro r hr
        obtain ⟨e, he, rfl⟩ := List.mem_map.mp hr
        exact hlen e he)
    refine ⟨{ arr := .two ((d :: ds).map (fun e => e.map Prod.snd)), fitness := List.replicate (ds.length + 1) noFit, nEval := List.replicate (ds.length + 1) 0, index := (List.range (ds.length + 1)).map toString, varName := names, fitnessName := ["f"], nObj := 1 }, ?_, rfl, ?_⟩
    · simp only [solFromDict, mkSol, h1, Option.bind_some, Arr.rows, Option.getD_some, Option.getD_none, h2, hdn,
        List.length_replicate, List.length_map, List.length_cons]
      exact if_pos ⟨trivial, by simp, trivial, rfl⟩
    · simp only [Arr.rows, List.map_map]
      apply List.map_congr_left
      intro e he
      funext n
      simp only [Function.comp, assignment]
      rw [← hk e he, List.zip_map_right, List.zip_map_left]
      congr 1
      clear * -
      induction e with
      | nil => rfl
      | cons kv e ih => simp [List.zip_cons_cons, ih]

/-- C60 refuted: with the keys of the second dictionary in another order, the values end up under the wrong names. -/
theorem c60_key_order_ignored :
    ∃ b : Sol ℤ ℤ, solFromDict (fun _ => false) 0 (.many [[("a", 1), ("b", 2)], [("b", 3), ("a", 4)]]) = some b ∧
      b.arr.rows.map (fun r => (assignment b.varName r "a", assignment b.varName r "b")) =
        [(some 1, some 2), (some 3, some 4)] := by
  refine ⟨_, rfl, ?_⟩
  decide

example : ∀ d ∈ [[("a", (1 : ℤ)), ("b", 2)], [("a", 3), ("b", 4)]], d.map Prod.fst = ["a", "b"] := by decide

/-- C61, partial: with distinct labels the label-keyed export maps every label to the dictionary of its row. -/
theorem c61_indexed_export_partial (a : Sol α F) (ha : Wf a) (hi : a.index.Nodup) (i : ℕ) (l : String) (r : List α)
    (hl : a.index[i]? = some l) (hr : a.arr.rows[i]? = some r) :
    dictGet a.toDictIndexed l = some (dictOf (a.varName.zip r)) := by
  have hfold : a.toDictIndexed = dictUpdate [] ((a.index.zip a.arr.rows).map (fun ir => (ir.1, dictOf (a.varName.zip ir.2)))) := by
    unfold Sol.toDictIndexed dictUpdate
    rw [List.foldl_map]
  have hkeys : keys ((a.index.zip a.arr.rows).map (fun ir => (ir.1, dictOf (a.varName.zip ir.2)))) = a.index := by
    unfold keys
    rw [List.map_map]
    exact List.map_fst_zip (by rw [ha.index])
  rw [hfold, dictGet_update [] _ (by rw [hkeys]; exact hi) l]
  have hmem : (l, dictOf (a.varName.zip r)) ∈ (a.index.zip a.arr.rows).map (fun ir => (ir.1, dictOf (a.varName.zip ir.2))) := by
    refine List.mem_map.mpr ⟨(l, r), ?_, rfl⟩
    refine List.mem_iff_getElem?.mpr ⟨i, ?_⟩
    rw [List.getElem?_zip_eq_some]
    exact ⟨hl, hr⟩
  rw [dictGet_of_mem (by rw [hkeys]; exact hi) hmem]
  rfl

/-- C61 refuted: labels repeat between successive `tell` calls (C52), and then a row is lost. -/
theorem c61_repeated_labels_lose_rows :
    ({ solDup with index := ["0", "1", "0"] } : Sol ℤ ℤ).toDictIndexed = [("0", [("x", 1)]), ("1", [("x", 2)])] := by
  decide

end Verif.Props
