import Verif.Proofs.SearchSpace

/-!
# Properties C21, C22, C23: names, type indices and algebra of search spaces
-/
namespace Verif.Props
open Verif.Model Verif.Spec Verif.Proofs

/-- A heap with three real variables `x`, `y`, `x` and one integer variable `n`. -/
def exHeap : Heap :=
  [{ name := "x", typ := .real, bounds := [.one (.int 0), .one (.int 1)] },
   { name := "y", typ := .real, bounds := [.one (.int 0), .one (.int 2)] },
   { name := "x", typ := .real, bounds := [.one (.int 3), .one (.int 4)] },
   { name := "n", typ := .integer, bounds := [.one (.int 0), .one (.int 9)] }]

/-- The space of the variables `x` and `y`. -/
def exA : PySpace := { data := [0, 1], varName := ["x", "y"], varType := [.real, .real] }
/-- The space of the variables `x` (another object) and `n`. -/
def exB : PySpace := { data := [2, 3], varName := ["x", "n"], varType := [.real, .integer] }

private theorem exA_plain : Plain exHeap exA :=
  ⟨by decide, by decide, by decide, by decide, by decide, rfl⟩
private theorem exB_plain : Plain exHeap exB :=
  ⟨by decide, by decide, by decide, by decide, by decide, rfl⟩

/-! ## C21 -/

/-- C21: constructing a space from distinct variable objects leaves names that occur once as they are and numbers
the others by occurrence; the reported `var_name` are the names of the variable objects. -/
theorem c21_names (h : Heap) (data : List ℕ) (hd : data.Nodup) (ha : ∀ r ∈ data, r < h.length) (fuel : ℕ)
    (st : List (Option Node)) (h' : Heap) (s : PySpace) (hs : newSpace fuel h data st = some (h', s)) :
    s.data = data ∧ s.varName = numbered (data.map (nameOf h)) ∧ s.varName = s.data.map (nameOf h') := by
  unfold newSpace at hs
  simp only [Option.map_eq_some_iff] at hs
  obtain ⟨t, _, ht⟩ := hs
  cases ht
  exact ⟨rfl, checkData_names h data hd ha, rfl⟩

/-- C21: a name that occurs once is kept. -/
theorem c21_unique_names_kept (names : List String) (k : ℕ) (n : String) (hk : names[k]? = some n)
    (hn : names.count n = 1) : (numbered names)[k]? = some n := by
  obtain ⟨hlt, hkn⟩ := List.getElem?_eq_some_iff.1 hk
  simp [numbered, hlt, hkn, hn]

/-- C21, partial: unless some name is a repeated name followed by digits, all names of the constructed space are
distinct.  Missing: such clashes (`c21_clash_duplicates`), and the same object given twice
(`c21_iadd_self_duplicates`). -/
theorem c21_distinct_partial (h : Heap) (data : List ℕ) (hd : data.Nodup) (ha : ∀ r ∈ data, r < h.length)
    (hclash : ¬ DigitClash (data.map (nameOf h))) (fuel : ℕ) (st : List (Option Node)) (h' : Heap) (s : PySpace)
    (hs : newSpace fuel h data st = some (h', s)) : s.varName.Nodup := by
  rw [(c21_names h data hd ha fuel st h' s hs).2.1]
  exact numbered_nodup _ hclash

/-- C21, partial: distinct names never clash, whatever they look like. -/
theorem c21_distinct_names_partial (h : Heap) (data : List ℕ) (hd : data.Nodup) (ha : ∀ r ∈ data, r < h.length)
    (hn : (data.map (nameOf h)).Nodup) (fuel : ℕ) (st : List (Option Node)) (h' : Heap) (s : PySpace)
    (hs : newSpace fuel h data st = some (h', s)) :
    h' = h ∧ s.varName = data.map (nameOf h) := by
  rw [(c21_names h data hd ha fuel st h' s hs).2.1, numbered_of_nodup hn]
  refine ⟨?_, rfl⟩
  unfold newSpace at hs
  simp only [Option.map_eq_some_iff] at hs
  obtain ⟨t, _, ht⟩ := hs
  cases ht
  exact checkData_of_nodup h data hn

/-- C21 is false in general: `x, x, x0` become `x0, x1, x0`. -/
theorem c21_clash_duplicates :
    let h : Heap := [{ name := "x", typ := .bool, bounds := [] }, { name := "x", typ := .bool, bounds := [] },
      { name := "x0", typ := .bool, bounds := [] }]
    (newSpace 9 h [0, 1, 2] []).map (fun r => r.2.varName) = some ["x0", "x1", "x0"] := by decide

/-- C21 is false after `A += A`: the same objects occur twice and end with the same name. -/
theorem c21_iadd_self_duplicates :
    (PySpace.iadd exHeap exA exA).2.varName = ["x1", "y1", "x1", "y1"] := by decide

example : ¬ DigitClash ["x", "y", "x", "n"] := by
  rintro ⟨a, ha, b, hb, hc, s, hs, hd, he⟩
  have hlen := congrArg List.length he
  rw [List.length_append] at hlen
  have hb1 : b.toList.length = 1 := by
    simp only [List.mem_cons, List.not_mem_nil, or_false] at hb
    rcases hb with rfl | rfl | rfl | rfl <;> decide
  have ha1 : a.toList.length = 1 := by
    simp only [List.mem_cons, List.not_mem_nil, or_false] at ha
    rcases ha with rfl | rfl | rfl | rfl <;> decide
  have : s.length = 0 := by omega
  exact hs (List.length_eq_zero_iff.1 this)

/-! ## C23 -/

/-- C23, `A + B`, partial: the new space has the variables of `A` and then those of `B` (up to renaming
duplicates by occurrence), for spaces without condition trees.  Missing: condition trees, where `+` raises
(`c23_add_structured_raises`). -/
theorem c23_add_partial (fuel : ℕ) (h : Heap) (a b : PySpace) (ha : Plain h a) (hb : Plain h b) :
    ∃ h' s, PySpace.add fuel h a b = some (h', s) ∧ anonView h' s = anonView h a ++ anonView h b ∧
      s.varName = numbered (a.varName ++ b.varName) ∧ s.varName = s.data.map (nameOf h') := by
  obtain ⟨hx, c2, c3, c4⟩ := copyRefs_spec h a.data ha.alive
  have hlen : h.length ≤ (copyRefs h a.data).1.length := by
    obtain ⟨x, hx⟩ := hx
    rw [hx, List.length_append]
    omega
  have hbold : b.data.map (fun r => (copyRefs h a.data).1[r]?) = b.data.map (fun r => h[r]?) :=
    List.map_congr_left (fun r hr => extend_get hx (hb.alive r hr))
  have hviews : ((copyRefs h a.data).2 ++ b.data).map (fun r => (copyRefs h a.data).1[r]?) =
      (a.data ++ b.data).map (fun r => h[r]?) := by
    rw [List.map_append, List.map_append, c4, hbold]
  have hnd : ((copyRefs h a.data).2 ++ b.data).Nodup := by
    rw [List.nodup_append]
    refine ⟨c2, hb.distinct, ?_⟩
    intro r h1 r' h2
    have := (c3 r h1).1
    have := hb.alive r' h2
    omega
  have hal : ∀ r ∈ (copyRefs h a.data).2 ++ b.data, r < (copyRefs h a.data).1.length := by
    intro r hr
    rw [List.mem_append] at hr
    rcases hr with hr | hr
    · exact (c3 r hr).2
    · exact lt_of_lt_of_le (hb.alive r hr) hlen
  have hco : ∀ r ∈ (copyRefs h a.data).2 ++ b.data, ((copyRefs h a.data).1[r]?).bind PyVar.cond = none := by
    intro r hr
    have hm : (copyRefs h a.data).1[r]? ∈ (a.data ++ b.data).map (fun r => h[r]?) := by
      rw [← hviews]
      exact List.mem_map_of_mem hr
    rw [List.mem_map] at hm
    obtain ⟨r', hr', he⟩ := hm
    rw [← he]
    rw [List.mem_append] at hr'
    rcases hr' with hr' | hr'
    · exact ha.uncond r' hr'
    · exact hb.uncond r' hr'
  have hadd : PySpace.add fuel h a b = some (setData (copyRefs h a.data).1 ((copyRefs h a.data).2 ++ b.data) []) := by
    unfold PySpace.add
    rw [deepcopyRefs_eq h a.data ha.distinct, ha.flat, hb.flat]
    exact newSpace_flat fuel _ _ hco
  refine ⟨_, _, hadd, ?_, ?_, rfl⟩
  · refine (anon_after_setData _ _ _).trans ?_
    have := congrArg (List.map (Option.map anon)) hviews
    rw [List.map_map] at this
    rw [show anonView h a ++ anonView h b = List.map (Option.map anon) ((a.data ++ b.data).map (fun r => h[r]?)) by
      simp [anonView, view], ← this]
    rfl
  · show ((copyRefs h a.data).2 ++ b.data).map (nameOf (checkData _ _)) = _
    rw [checkData_names _ _ hnd hal, names_of_views hviews, List.map_append, ← ha.current, ← hb.current]

/-- C23, `+` raises when one of the spaces has a condition tree. -/
theorem c23_add_structured_raises (fuel : ℕ) (h : Heap) (a b : PySpace)
    (hst : a.structure' ++ b.structure' ≠ []) : PySpace.add fuel h a b = none := by
  have hcopy : ∀ t : Node, t.deepcopy = none := by
    intro t
    cases t with
    | mk n cs => simp [Node.deepcopy, Node.remove, dropTest]
  have hnone : ∀ l : List Node, l ≠ [] → (l.map Node.deepcopy).mapM id = none := by
    intro l hl
    cases l with
    | nil => exact absurd rfl hl
    | cons t ts =>
      rw [List.map_cons, List.mapM_cons, hcopy]
      rfl
  unfold PySpace.add newSpace setStructure
  simp only [hnone _ hst]
  rfl

/-- C23, operands are not preserved: after `A + B` the variable `x` of `B` is called `x1`, while `B.var_name`
still says `x`. -/
theorem c23_add_renames_operand :
    (PySpace.add 9 exHeap exA exB).map (fun r => (r.2.varName, exB.data.map (nameOf r.1))) =
      some (["x0", "y", "x1", "n"], ["x1", "n"]) ∧ exB.varName = ["x", "n"] := by
  constructor <;> decide

/-- C23, `A += B`, partial: for distinct objects it gives the same variables and names as `A + B`. -/
theorem c23_iadd_partial (h : Heap) (a b : PySpace) (ha : Plain h a) (hb : Plain h b)
    (hdis : ∀ r ∈ a.data, r ∉ b.data) :
    let r := PySpace.iadd h a b
    anonView r.1 r.2 = anonView h a ++ anonView h b ∧ r.2.varName = numbered (a.varName ++ b.varName) := by
  intro r
  have hnd : (a.data ++ b.data).Nodup := by
    rw [List.nodup_append]
    refine ⟨ha.distinct, hb.distinct, ?_⟩
    rintro r1 h1 r2 h2 rfl
    exact hdis r1 h1 h2
  have hal : ∀ r ∈ a.data ++ b.data, r < h.length := by
    intro r hr
    rw [List.mem_append] at hr
    exact hr.elim (ha.alive r) (hb.alive r)
  constructor
  · show anonView (setData h _ _).1 (setData h _ _).2 = _
    rw [anon_after_setData, anonView, anonView, view, view, List.map_map, List.map_map, ← List.map_append]
    rfl
  · show (a.data ++ b.data).map (nameOf (checkData h _)) = _
    rw [checkData_names h _ hnd hal, List.map_append, ← ha.current, ← hb.current]

/-- C23, `A * N`, partial: `max(1, N)` copies of the variables of `A` in order, renamed by occurrence, for spaces
without conditions; `A` itself is unchanged. -/
theorem c23_mul_partial (fuel : ℕ) (h : Heap) (a : PySpace) (n : ℤ) (ha : Plain h a) :
    ∃ h' s, PySpace.mul fuel h a n = some (h', s) ∧
      anonView h' s = (List.replicate (max 1 n).toNat (anonView h a)).flatten ∧
      s.varName = numbered (List.replicate (max 1 n).toNat a.varName).flatten ∧
      s.data.length = (max 1 n).toNat * a.data.length ∧ view h' a = view h a := by
  obtain ⟨⟨x, hx⟩, c2, c3, c4⟩ := replicateRefs_spec a.data (max 1 n).toNat h ha.alive
  have hco : ∀ r ∈ (replicateRefs h a.data (max 1 n).toNat).2,
      ((replicateRefs h a.data (max 1 n).toNat).1[r]?).bind PyVar.cond = none := by
    intro r hr
    have hm : (replicateRefs h a.data (max 1 n).toNat).1[r]? ∈
        (List.replicate (max 1 n).toNat (a.data.map (fun r => h[r]?))).flatten := by
      rw [← c4]
      exact List.mem_map_of_mem hr
    rw [List.mem_flatten] at hm
    obtain ⟨l, hl, hm⟩ := hm
    rw [List.mem_replicate] at hl
    rw [hl.2, List.mem_map] at hm
    obtain ⟨r', hr', he⟩ := hm
    rw [← he]
    exact ha.uncond r' hr'
  have hmul : PySpace.mul fuel h a n = some (setData (replicateRefs h a.data (max 1 n).toNat).1
      (replicateRefs h a.data (max 1 n).toNat).2 []) := newSpace_flat fuel _ _ hco
  refine ⟨_, _, hmul, ?_, ?_, ?_, ?_⟩
  · refine (anon_after_setData _ _ _).trans ?_
    have := congrArg (List.map (Option.map anon)) c4
    rw [List.map_map, List.map_flatten, List.map_replicate] at this
    exact this
  · show ((replicateRefs h a.data (max 1 n).toNat).2).map (nameOf (checkData _ _)) = _
    rw [checkData_names _ _ c2 (fun r hr => (c3 r hr).2)]
    congr 1
    have := congrArg (List.map (fun v : Option PyVar => (v.map PyVar.name).getD "")) c4
    rw [List.map_map, List.map_flatten, List.map_replicate, List.map_map] at this
    rw [ha.current]
    exact this
  · show (replicateRefs h a.data (max 1 n).toNat).2.length = _
    have := congrArg List.length c4
    simpa using this
  · unfold view
    apply List.map_congr_left
    intro r hr
    show (checkData _ _)[r]? = _
    rw [checkData_outside, extend_get ⟨x, hx⟩ (ha.alive r hr)]
    intro hmem
    have := (c3 r hmem).1
    have := ha.alive r hr
    omega

/-- C23, `A *= N`, partial: for `N >= 2` it gives the same variables and names as `A * N`. -/
theorem c23_imul_partial (h : Heap) (a : PySpace) (n : ℕ) (hn : 2 ≤ n) (ha : Plain h a) :
    let r := PySpace.imul h a n
    anonView r.1 r.2 = (List.replicate n (anonView h a)).flatten ∧
      r.2.varName = numbered (List.replicate n a.varName).flatten := by
  obtain ⟨m, rfl⟩ : ∃ m, n = m + 1 := ⟨n - 1, by omega⟩
  have hm : (max 1 (((m + 1 : ℕ) : ℤ) - 1)).toNat = m := by omega
  intro r
  obtain ⟨⟨x, hx⟩, c2, c3, c4⟩ := replicateRefs_spec a.data m h ha.alive
  have hold : a.data.map (fun r => (replicateRefs h a.data m).1[r]?) = a.data.map (fun r => h[r]?) :=
    List.map_congr_left (fun r hr => extend_get ⟨x, hx⟩ (ha.alive r hr))
  have hviews : (a.data ++ (replicateRefs h a.data m).2).map (fun r => (replicateRefs h a.data m).1[r]?) =
      (List.replicate (m + 1) (a.data.map (fun r => h[r]?))).flatten := by
    rw [List.map_append, c4, hold, List.replicate_succ, List.flatten_cons]
  have hr : r = setData (replicateRefs h a.data m).1 (a.data ++ (replicateRefs h a.data m).2) a.structure' := by
    show PySpace.imul h a _ = _
    unfold PySpace.imul
    rw [hm]
  rw [hr]
  constructor
  · rw [anon_after_setData]
    have := congrArg (List.map (Option.map anon)) hviews
    rw [List.map_map, List.map_flatten, List.map_replicate] at this
    exact this
  · show (a.data ++ (replicateRefs h a.data m).2).map (nameOf (checkData _ _)) = _
    rw [checkData_names]
    · congr 1
      have := congrArg (List.map (fun v : Option PyVar => (v.map PyVar.name).getD "")) hviews
      rw [List.map_map, List.map_flatten, List.map_replicate, List.map_map] at this
      rw [ha.current]
      exact this
    · rw [List.nodup_append]
      refine ⟨ha.distinct, c2, ?_⟩
      intro r1 h1 r2 h2
      have := ha.alive r1 h1
      have := (c3 r2 h2).1
      omega
    · intro r hr
      rw [List.mem_append] at hr
      rcases hr with hr | hr
      · rw [hx, List.length_append]
        have := ha.alive r hr
        omega
      · exact (c3 r hr).2

/-- C23: `A *= N` disagrees with `A * N` for every `N <= 1`: it doubles the space. -/
theorem c23_imul_one_doubles (h : Heap) (a : PySpace) (ha : ∀ r ∈ a.data, r < h.length) (n : ℤ) (hn : n ≤ 1) :
    (PySpace.imul h a n).2.data.length = 2 * a.data.length := by
  have hm : (max 1 (n - 1)).toNat = 1 := by omega
  unfold PySpace.imul
  rw [hm]
  have := congrArg List.length (replicateRefs_spec a.data 1 h ha).2.2.2
  simp only [List.length_map, List.length_flatten, List.map_replicate, List.sum_replicate] at this
  simp only [setData, List.length_append]
  simp at this
  omega

private theorem keep_data (h : Heap) (a b : PySpace) (ha : Plain h a) :
    (keepIndex a b).map (fun i => a.data.getD i 0) =
      a.data.filter (fun r => !(b.varName.contains (nameOf h r))) := by
  rw [← filter_positions a.data 0 (fun r => !(b.varName.contains (nameOf h r)))]
  congr 1
  unfold keepIndex
  apply List.filter_congr
  intro i hi
  rw [List.mem_range] at hi
  have hi' : i < a.varName.length := by rw [ha.current]; simpa using hi
  have hn : a.varName.getD i "" = nameOf h (a.data.getD i 0) := by
    rw [List.getD_eq_getElem _ _ hi', List.getD_eq_getElem _ _ hi]
    simp [ha.current]
  have hidx : a.varName.idxOf (a.varName.getD i "") = i := by
    rw [List.getD_eq_getElem _ _ hi']
    exact List.Nodup.idxOf_getElem ha.names i hi'
  simp only [hidx]
  simp only [hn, beq_self_eq_true, Bool.and_true]

/-- C23, `A - B`, partial: exactly the variables of `A` whose name is not in `B`, in order, with their names, for
spaces without conditions. -/
theorem c23_sub_partial (fuel : ℕ) (h : Heap) (a b : PySpace) (ha : Plain h a) :
    ∃ h' s, PySpace.sub fuel h a b = some (h', s) ∧
      view h' s = (a.data.filter (fun r => !(b.varName.contains (nameOf h r)))).map (fun r => h[r]?) ∧
      s.varName = a.varName.filter (fun n => !(b.varName.contains n)) := by
  set kept := a.data.filter (fun r => !(b.varName.contains (nameOf h r))) with hkept
  have hsub : ∀ r ∈ kept, r ∈ a.data := fun r hr => (List.mem_filter.1 hr).1
  obtain ⟨hx, c2, c3, c4⟩ := copyRefs_spec h kept (fun r hr => ha.alive r (hsub r hr))
  have hnames : (copyRefs h kept).2.map (nameOf (copyRefs h kept).1) =
      a.varName.filter (fun n => !(b.varName.contains n)) := by
    rw [names_of_views c4, ha.current, List.filter_map]
    rfl
  have hnd : ((copyRefs h kept).2.map (nameOf (copyRefs h kept).1)).Nodup := by
    rw [hnames]
    exact ha.names.filter _
  have hco : ∀ r ∈ (copyRefs h kept).2, ((copyRefs h kept).1[r]?).bind PyVar.cond = none := by
    intro r hr
    have hm : (copyRefs h kept).1[r]? ∈ kept.map (fun r => h[r]?) := by
      rw [← c4]
      exact List.mem_map_of_mem hr
    rw [List.mem_map] at hm
    obtain ⟨r', hr', he⟩ := hm
    rw [← he]
    exact ha.uncond r' (hsub r' hr')
  have hcheck := checkData_of_nodup _ _ hnd
  have hres : PySpace.sub fuel h a b = some (setData (copyRefs h kept).1 (copyRefs h kept).2 []) := by
    unfold PySpace.sub
    rw [keep_data h a b ha, ← hkept, ha.flat]
    dsimp only
    rw [newSpace_flat fuel _ _ hco]
    simp only [setData, List.map_nil, Option.bind_eq_bind, Option.bind_some]
    rw [setStructure_flat]
    · rfl
    · apply condsOf_none
      intro r hr
      rw [hcheck]
      exact hco r hr
  refine ⟨_, _, hres, ?_, ?_⟩
  · unfold view
    simp only [setData, hcheck]
    exact c4
  · simp only [setData, hcheck]
    exact hnames

/-- C23, `A -= B`, partial: the same variables and names as `A - B`. -/
theorem c23_isub_partial (h : Heap) (a b : PySpace) (ha : Plain h a) :
    let r := PySpace.isub h a b
    view r.1 r.2 = (a.data.filter (fun r => !(b.varName.contains (nameOf h r)))).map (fun r => h[r]?) ∧
      r.2.varName = a.varName.filter (fun n => !(b.varName.contains n)) := by
  intro r
  have hr : r = setData h (a.data.filter (fun r => !(b.varName.contains (nameOf h r)))) a.structure' := by
    show PySpace.isub h a b = _
    unfold PySpace.isub
    rw [keep_data h a b ha]
  have hnames : (a.data.filter (fun r => !(b.varName.contains (nameOf h r)))).map (nameOf h) =
      a.varName.filter (fun n => !(b.varName.contains n)) := by
    rw [ha.current, List.filter_map]
    rfl
  have hcheck := checkData_of_nodup h (a.data.filter (fun r => !(b.varName.contains (nameOf h r))))
    (by rw [hnames]; exact ha.names.filter _)
  rw [hr]
  constructor
  · unfold view
    simp only [setData, hcheck]
  · simp only [setData, hcheck]
    exact hnames

/-- C23, `filter`, partial: the variables whose name is listed (or, inverted, not listed), in order; the objects
are shared with the original space, for spaces without conditions. -/
theorem c23_filter_partial (fuel : ℕ) (h : Heap) (a : PySpace) (ks : List String) (inv : Bool) (ha : Plain h a) :
    ∃ s, PySpace.filter fuel h a ks inv = some (h, s) ∧
      s.data = a.data.filter (fun r => ks.contains (nameOf h r) != inv) ∧
      s.varName = a.varName.filter (fun n => ks.contains n != inv) := by
  set kept := a.data.filter (fun r => ks.contains (nameOf h r) != inv) with hkept
  have hsub : ∀ r ∈ kept, r ∈ a.data := fun r hr => (List.mem_filter.1 hr).1
  have hidx : (filterIndex a ks inv).map (fun i => a.data.getD i 0) = kept := by
    rw [hkept, ← filter_positions a.data 0 (fun r => ks.contains (nameOf h r) != inv)]
    congr 1
    unfold filterIndex
    apply List.filter_congr
    intro i hi
    rw [List.mem_range] at hi
    have hi' : i < a.varName.length := by rw [ha.current]; simpa using hi
    have hn : a.varName.getD i "" = nameOf h (a.data.getD i 0) := by
      rw [List.getD_eq_getElem _ _ hi', List.getD_eq_getElem _ _ hi]
      simp [ha.current]
    rw [hn]
  have hnames : kept.map (nameOf h) = a.varName.filter (fun n => ks.contains n != inv) := by
    rw [ha.current, List.filter_map]
    rfl
  have hcheck := checkData_of_nodup h kept (by rw [hnames]; exact ha.names.filter _)
  have hco : ∀ r ∈ kept, (h[r]?).bind PyVar.cond = none := fun r hr => ha.uncond r (hsub r hr)
  have hres : PySpace.filter fuel h a ks inv = some (setData h kept []) := by
    unfold PySpace.filter PySpace.slice
    rw [hidx, newSpace_flat fuel _ _ hco, ha.flat]
    simp only [setData, List.map_nil, Option.bind_eq_bind, Option.bind_some]
    rw [setStructure_flat]
    · rfl
    · apply condsOf_none
      intro r hr
      rw [hcheck]
      exact hco r hr
  refine ⟨(setData h kept []).2, ?_, rfl, ?_⟩
  · rw [hres]
    simp only [setData, hcheck]
  · simp only [setData, hcheck]
    exact hnames

/-- C23: `filter(keys)` and `filter(keys, invert=True)` split the space: every variable is in exactly one part. -/
theorem c23_filter_splits (fuel : ℕ) (h : Heap) (a : PySpace) (ks : List String) (ha : Plain h a) :
    ∃ s t, PySpace.filter fuel h a ks false = some (h, s) ∧ PySpace.filter fuel h a ks true = some (h, t) ∧
      (s.data ++ t.data).Perm a.data ∧ ∀ r ∈ a.data, ¬ (r ∈ s.data ∧ r ∈ t.data) := by
  obtain ⟨s, h1, h2, _⟩ := c23_filter_partial fuel h a ks false ha
  obtain ⟨t, h3, h4, _⟩ := c23_filter_partial fuel h a ks true ha
  refine ⟨s, t, h1, h3, ?_, ?_⟩
  · rw [h2, h4]
    have : (fun r => ks.contains (nameOf h r) != true) = fun r => !(ks.contains (nameOf h r) != false) := by
      funext r
      cases ks.contains (nameOf h r) <;> rfl
    rw [this]
    exact List.filter_append_perm _ _
  · rintro r _ ⟨hs, ht⟩
    rw [h2, List.mem_filter] at hs
    rw [h4, List.mem_filter] at ht
    have hs := hs.2
    have ht := ht.2
    cases hc : ks.contains (nameOf h r) <;> rw [hc] at hs ht <;> simp at hs ht

/-- C23, `update`, partial: updating with a space of one variable whose name occurs in `A` replaces exactly that
variable by a copy of the new one.  Missing: several variables at once, see `c23_update_depends_on_set_order`. -/
theorem c23_update_one_partial (strict : Bool) (ord : List String → List String)
    (hord : ∀ l, (ord l).Perm l.dedup) (h : Heap) (a b : PySpace) (ha : Plain h a) (r : ℕ) (hb : b.data = [r])
    (hr : r < h.length) (hbn : b.varName = [nameOf h r]) (k : ℕ) (hk : a.varName[k]? = some (nameOf h r)) :
    ∃ h' s, PySpace.update strict ord h a b = some (h', s) ∧ view h' s = (view h a).set k (h[r]?) ∧
      s.varName = a.varName := by
  obtain ⟨hk1, hk2⟩ := List.getElem?_eq_some_iff.1 hk
  have hmem : nameOf h r ∈ a.varName := hk2 ▸ List.getElem_mem hk1
  have h1 : ord [nameOf h r] = [nameOf h r] := by
    have := hord [nameOf h r]
    rwa [List.dedup_eq_self.2 (List.nodup_singleton _), List.perm_singleton] at this
  have h0 : ord [] = [] := List.Perm.eq_nil (hord [])
  have hupd : ord (b.varName.filter (fun n => a.varName.contains n)) = [nameOf h r] := by
    rw [hbn]
    simp [hmem, h1]
  have hadd : ord (b.varName.filter (fun n => !a.varName.contains n)) = [] := by
    rw [hbn]
    simp [hmem, h0]
  have hto : npEq strict a.varName [nameOf h r] = some (a.varName.map (fun x => x == nameOf h r)) := by
    unfold npEq
    by_cases hl : a.varName.length = [nameOf h r].length
    · rw [if_pos hl]
      match hv : a.varName, hl with
      | [x], _ => rfl
      | [], hl => simp at hl
      | _ :: _ :: _, hl => simp at hl
    · rw [if_neg hl]
  have hnz : nonzero (a.varName.map (fun x => x == nameOf h r)) = [k] := by
    rw [← List.perm_singleton]
    unfold nonzero
    rw [List.length_map, List.perm_ext_iff_of_nodup (List.nodup_range.filter _) (List.nodup_singleton _)]
    intro i
    rw [List.mem_filter, List.mem_range, List.mem_singleton]
    constructor
    · rintro ⟨hi, he⟩
      rw [List.getD_eq_getElem _ _ (by simpa using hi)] at he
      simp only [List.getElem_map, beq_iff_eq] at he
      exact (List.Nodup.getElem_inj_iff ha.names).1 (he.trans hk2.symm)
    · rintro rfl
      refine ⟨hk1, ?_⟩
      rw [List.getD_eq_getElem _ _ (by simpa using hk1)]
      simp [hk2]
  have hfrom : npEq strict b.varName [nameOf h r] = some [true] := by
    rw [hbn]
    simp [npEq]
  have hnone : npEq strict b.varName [] = some [] := by
    rw [hbn]
    simp [npEq]
  have hn1 : nonzero [true] = [0] := by decide
  have hn0 : nonzero [] = [] := by decide
  have hkd : k < a.data.length := by
    have := congrArg List.length ha.current
    rw [List.length_map] at this
    omega
  obtain ⟨v, hv⟩ : ∃ v, h[r]? = some v := ⟨h[r], List.getElem?_eq_getElem hr⟩
  have hcopy : copyRefs h [r] = (h ++ [v], [h.length]) := by
    simp [copyRefs, hv]
  have hres : PySpace.update strict ord h a b = some (setData (h ++ [v]) (a.data.set k h.length) a.structure') := by
    unfold PySpace.update
    rw [hupd, hadd]
    simp only [hto, hfrom, hnone, Option.bind_eq_bind, Option.bind_some, hnz, hn1, hn0, hb]
    simp [hcopy]
  have hget : ∀ r' ∈ a.data, (h ++ [v])[r']? = h[r']? := fun r' hr' => by
    rw [List.getElem?_append_left (ha.alive r' hr')]
  have hviews : (a.data.set k h.length).map (fun r' => (h ++ [v])[r']?) = (view h a).set k (h[r]?) := by
    unfold view
    rw [List.map_set, List.map_congr_left hget]
    simp [hv]
  have hnames : (a.data.set k h.length).map (nameOf (h ++ [v])) = a.varName := by
    have h1 : (a.data.set k h.length).map (nameOf (h ++ [v])) = a.varName.set k (nameOf h r) := by
      rw [List.map_set, ha.current]
      have hc : List.map (nameOf (h ++ [v])) a.data = List.map (nameOf h) a.data := by
        apply List.map_congr_left
        intro r' hr'
        simp [nameOf, hget r' hr']
      rw [hc]
      congr 1
      simp [nameOf, hv]
    rw [h1, ← hk2, List.set_getElem_self]
  have hcheck := checkData_of_nodup (h ++ [v]) (a.data.set k h.length) (by rw [hnames]; exact ha.names)
  refine ⟨_, _, hres, ?_, ?_⟩
  · unfold view at *
    simp only [setData, hcheck]
    exact hviews
  · simp only [setData, hcheck]
    exact hnames

/-- C23, `update` is not a dictionary update: with numpy 1.24, if the set iteration order differs from the order
of the names, nothing is replaced, although both variables occur in both spaces; with later versions of numpy it
raises. -/
theorem c23_update_depends_on_set_order :
    let h : Heap := exHeap ++ [{ name := "x", typ := .bool, bounds := [] }, { name := "y", typ := .bool, bounds := [] }]
    let b : PySpace := { data := [4, 5], varName := ["x", "y"], varType := [.bool, .bool] }
    (PySpace.update false id h exA b).map (fun r => r.2.varType) = some [.bool, .bool] ∧
    (PySpace.update false List.reverse h exA b).map (fun r => r.2.varType) = some [.real, .real] ∧
    (PySpace.update true id h exA b).map (fun r => r.2.varType) = none := by
  refine ⟨?_, ?_, ?_⟩ <;> decide

/-- C23, with numpy 1.25 or later `update` raises when a space of at least two variables is updated with one new
variable. -/
theorem c23_update_with_new_variable_raises (ord : List String → List String)
    (hord : ∀ l, (ord l).Perm l.dedup) (h : Heap) (a b : PySpace) (ha : 2 ≤ a.varName.length) (n : String)
    (hb : b.varName = [n]) (hn : n ∉ a.varName) : PySpace.update true ord h a b = none := by
  have h0 : ord [] = [] := List.Perm.eq_nil (hord [])
  unfold PySpace.update
  have : npEq true a.varName (ord (b.varName.filter (fun n => a.varName.contains n))) = none := by
    rw [hb]
    simp only [List.filter_cons, List.contains_eq_mem, hn, decide_false, Bool.false_eq_true, if_false,
      List.filter_nil, h0]
    unfold npEq
    rw [if_neg (by simp; intro h; rw [h] at ha; simp at ha)]
    match hv : a.varName, ha with
    | [], ha => simp at ha
    | [_], ha => simp at ha
    | _ :: _ :: _, _ => rfl
  simp only [this]
  rfl

/-- Non-vacuity for C23. -/
example : Plain exHeap exA ∧ Plain exHeap exB ∧ (∀ r ∈ exA.data, r ∉ exB.data) :=
  ⟨exA_plain, exB_plain, by decide⟩

/-! ## C22 -/

private theorem mem_nonzero (types : List VType) (τ : VType) (j : ℕ) :
    j ∈ nonzero (typeMask types τ) ↔ types[j]? = some τ := by
  unfold nonzero typeMask
  rw [List.mem_filter, List.mem_range, List.length_map]
  constructor
  · rintro ⟨h1, h2⟩
    rw [List.getD_eq_getElem _ _ (by simpa using h1)] at h2
    simp only [List.getElem_map, beq_iff_eq] at h2
    rw [List.getElem?_eq_getElem h1, h2]
  · intro h
    obtain ⟨h1, h2⟩ := List.getElem?_eq_some_iff.1 h
    refine ⟨h1, ?_⟩
    rw [List.getD_eq_getElem _ _ (by simpa using h1)]
    simp [h2]

/-- C22: position `j` is in the index set of a type iff variable `j` has that type; so the six sets are disjoint
and cover all positions, each listed once in increasing order. -/
theorem c22_ids (types : List VType) (τ : VType) :
    (∀ j, j ∈ (setIndex types).id τ ↔ types[j]? = some τ) ∧ ((setIndex types).id τ).Pairwise (· < ·) := by
  refine ⟨fun j => mem_nonzero types τ j, ?_⟩
  show (nonzero (typeMask types τ)).Pairwise (· < ·)
  unfold nonzero
  exact List.Pairwise.filter _ List.pairwise_lt_range

/-- C22: every position is in exactly one of the six sets. -/
theorem c22_partition (types : List VType) (j : ℕ) (hj : j < types.length) :
    ∃! τ, j ∈ (setIndex types).id τ := by
  refine ⟨types[j], ((c22_ids types _).1 j).2 (List.getElem?_eq_getElem hj), ?_⟩
  intro τ h
  have := ((c22_ids types τ).1 j).1 h
  rw [List.getElem?_eq_getElem hj] at this
  exact (Option.some.inj this).symm

/-- C22: `categorical_id` holds exactly the discrete, ordinal, Boolean and subset positions, each once. -/
theorem c22_categorical_id (types : List VType) :
    (∀ j, j ∈ (setIndex types).categoricalId ↔ ∃ τ ∈ [VType.discrete, .ordinal, .bool, .subset],
      types[j]? = some τ) ∧ (setIndex types).categoricalId.Nodup := by
  have hmem : ∀ j, j ∈ (setIndex types).categoricalId ↔ (types[j]? = some .discrete ∨ types[j]? = some .ordinal) ∨
      types[j]? = some .bool ∨ types[j]? = some .subset := by
    intro j
    show j ∈ _ ++ _ ++ _ ++ _ ↔ _
    simp only [List.mem_append, mem_nonzero]
    tauto
  constructor
  · intro j
    rw [hmem]
    simp only [List.mem_cons, List.not_mem_nil, or_false, exists_eq_or_imp, exists_eq_left]
    tauto
  · show (nonzero _ ++ nonzero _ ++ nonzero _ ++ nonzero _).Nodup
    have hn : ∀ τ, (nonzero (typeMask types τ)).Nodup := fun τ => (c22_ids types τ).2.imp (fun h => Nat.ne_of_lt h)
    have hdis : ∀ τ σ, τ ≠ σ → ∀ a ∈ nonzero (typeMask types τ), ∀ b ∈ nonzero (typeMask types σ), a ≠ b := by
      rintro τ σ hne a ha b hb rfl
      rw [mem_nonzero] at ha hb
      rw [ha] at hb
      exact hne (Option.some.inj hb)
    rw [List.nodup_append, List.nodup_append, List.nodup_append]
    refine ⟨⟨⟨hn _, hn _, hdis _ _ (by decide)⟩, hn _, ?_⟩, hn _, ?_⟩
    · intro a ha
      rw [List.mem_append] at ha
      rcases ha with ha | ha
      · exact hdis _ _ (by decide) a ha
      · exact hdis _ _ (by decide) a ha
    · intro a ha
      rw [List.mem_append, List.mem_append] at ha
      rcases ha with (ha | ha) | ha
      · exact hdis _ _ (by decide) a ha
      · exact hdis _ _ (by decide) a ha
      · exact hdis _ _ (by decide) a ha

/-- C22, partial: `categorical_mask` flags the discrete, ordinal and Boolean positions.  Missing: subset
positions, which are in `categorical_id` but never flagged (`c22_mask_misses_subsets`). -/
theorem c22_mask_partial (types : List VType) (j : ℕ) :
    (setIndex types).categoricalMask[j]? = (types[j]?).map (fun t => t == .bool || (t == .discrete || t == .ordinal)) := by
  simp only [setIndex, typeMask, List.getElem?_zipWith, List.getElem?_map]
  cases types[j]? <;> rfl

/-- C22 is false for the masks: for every subset variable `categorical_mask` and `subset_mask` are `False`, and
for every discrete or ordinal variable `subset_mask` is `True`. -/
theorem c22_mask_misses_subsets (types : List VType) (j : ℕ) :
    (types[j]? = some .subset → j ∈ (setIndex types).categoricalId ∧
      (setIndex types).categoricalMask[j]? = some false ∧ ((setIndex types).mask .subset)[j]? = some false) ∧
    (types[j]? = some .discrete → ((setIndex types).mask .subset)[j]? = some true) := by
  have hmask : ((setIndex types).mask .subset)[j]? = (types[j]?).map (fun t => t == .discrete || t == .ordinal) := by
    simp only [setIndex, typeMask, if_true, List.getElem?_zipWith, List.getElem?_map]
    cases types[j]? <;> rfl
  constructor
  · intro h
    refine ⟨((c22_categorical_id types).1 j).2 ⟨.subset, by simp, h⟩, ?_, ?_⟩
    · rw [c22_mask_partial, h]; rfl
    · rw [hmask, h]; rfl
  · intro h
    rw [hmask, h]; rfl

example : [VType.real, .subset, .discrete][1]? = some .subset ∧ (1 : ℕ) < [VType.real, .subset, .discrete].length :=
  ⟨rfl, by decide⟩

end Verif.Props
