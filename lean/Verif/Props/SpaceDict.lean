import Verif.Spec.SpaceDict
import Verif.Props.SearchSpace

/-!
# Properties C45 and C46: spaces from dictionaries, equality and hashing
-/
namespace Verif.Props
open Verif.Model Verif.Spec Verif.Proofs

/-! ## C45 -/

private theorem entryVar_eq {valid : PyVar → Bool} {k : String} {τ : VType} {e : Entry} (h : Handled valid k τ e) (i : ℕ)
    (hi : i < declaredCount e) : entryVar k τ e i = declared k τ e := by
  obtain ⟨_, hd, hc, _, hs⟩ := h
  unfold entryVar declared
  rw [hd, hc]
  congr 1
  by_cases hτ : τ = .integer
  · by_cases hi0 : i = 0
    · simp [hτ, hi0]
    · rw [if_neg (by tauto), if_pos hτ, hs hτ (by omega)]
  · simp [hτ]

private theorem new_eq {valid : PyVar → Bool} {k : String} {τ : VType} {e : Entry} (h : Handled valid k τ e) :
    (List.range (entryCount e)).map (entryVar k τ e) = List.replicate (declaredCount e) (declared k τ e) := by
  rw [List.eq_replicate_iff]
  refine ⟨by simp [entryCount, declaredCount], ?_⟩
  intro v hv
  rw [List.mem_map] at hv
  obtain ⟨i, hi, rfl⟩ := hv
  exact entryVar_eq h i (List.mem_range.1 hi)

private theorem fold_handled (valid : PyVar → Bool) (d : List (String × VType × Entry))
    (hd : ∀ x ∈ d, Handled valid x.1 x.2.1 x.2.2) :
    ∀ s : FromDict, s.collected = List.range s.heap.length →
      ∃ s', (d.map (fun x => (x.1, x.2.2))).foldlM (fromDictStep valid) s = some s' ∧
        s'.heap = s.heap ++ d.flatMap (fun x => List.replicate (declaredCount x.2.2) (declared x.1 x.2.1 x.2.2)) ∧
        s'.collected = List.range s'.heap.length := by
  induction d with
  | nil =>
    intro s hs
    exact ⟨s, rfl, by simp, hs⟩
  | cons x d ih =>
    intro s hs
    have hx := hd x (by simp)
    have hne := new_eq hx
    obtain ⟨⟨n, ht, htag⟩, hdef, _, hval, _⟩ := hx
    have hall : (List.replicate (declaredCount x.2.2) (declared x.1 x.2.1 x.2.2)).all valid = true := by
      rw [List.all_eq_true]
      intro v hv
      rw [List.eq_of_mem_replicate hv]
      exact hval
    obtain ⟨s1, h1, h2, h3⟩ : ∃ s1, fromDictStep valid s (x.1, x.2.2) = some s1 ∧
        s1.heap = s.heap ++ List.replicate (declaredCount x.2.2) (declared x.1 x.2.1 x.2.2) ∧
        s1.collected = List.range s1.heap.length := by
      unfold fromDictStep
      simp only [hdef, Option.isSome_none, Bool.false_eq_true, if_false, ht, htag, hne, hall, if_true]
      refine ⟨_, rfl, rfl, ?_⟩
      simp only [hs, List.length_append, List.length_replicate]
      rw [List.range_add]
    obtain ⟨s2, g1, g2, g3⟩ := ih (fun y hy => hd y (by simp [hy])) s1 h3
    refine ⟨s2, ?_, ?_, g3⟩
    · rw [List.map_cons, List.foldlM_cons, h1]
      exact g1
    · rw [g2, h2, List.flatMap_cons, List.append_assoc]

/-- C45, partial: if every entry has a known type name, no default and no conditions, and only entries with the
standard step declare several integers, then the space has, entry by entry, `N` variables of the declared type,
range, precision, scale and step, named after their key (numbered if the name repeats).
Missing: the other entries, see the theorems below. -/
theorem c45_from_dict_partial (valid : PyVar → Bool) (fuel : ℕ) (d : List (String × VType × Entry))
    (hd : ∀ x ∈ d, Handled valid x.1 x.2.1 x.2.2) :
    ∃ h s dict', fromDict valid fuel (d.map (fun x => (x.1, x.2.2))) = some ((h, s), dict') ∧
      anonView h s =
        d.flatMap (fun x => List.replicate (declaredCount x.2.2) (some (anon (declared x.1 x.2.1 x.2.2)))) ∧
      s.varName = numbered (d.flatMap (fun x => List.replicate (declaredCount x.2.2) x.1)) := by
  obtain ⟨s', h1, h2, h3⟩ := fold_handled valid d hd {} (by simp)
  have hheap : s'.heap = d.flatMap (fun x => List.replicate (declaredCount x.2.2) (declared x.1 x.2.1 x.2.2)) := by
    rw [h2]; rfl
  have hview : s'.collected.map (fun r => s'.heap[r]?) = s'.heap.map some := by
    rw [h3]
    apply List.ext_getElem
    · simp
    · intro i h1 h2
      simp
  have hcond : ∀ r ∈ s'.collected, (s'.heap[r]?).bind PyVar.cond = none := by
    intro r hr
    rw [h3, List.mem_range] at hr
    rw [List.getElem?_eq_getElem hr]
    have hm : s'.heap[r] ∈ s'.heap := List.getElem_mem hr
    have : ∀ v ∈ s'.heap, v.cond = none := by
      intro v hv
      rw [hheap, List.mem_flatMap] at hv
      obtain ⟨x, hx, hv⟩ := hv
      rw [List.eq_of_mem_replicate hv]
      exact (hd x hx).2.2.1
    exact this _ hm
  have hnd : s'.collected.Nodup := h3 ▸ List.nodup_range
  have hal : ∀ r ∈ s'.collected, r < s'.heap.length := fun r hr => by rwa [h3, List.mem_range] at hr
  have hnew := newSpace_flat fuel s'.heap s'.collected hcond
  refine ⟨(setData s'.heap s'.collected []).1, (setData s'.heap s'.collected []).2, s'.dict, ?_, ?_, ?_⟩
  · unfold fromDict
    rw [h1]
    simp only [Option.bind_eq_bind, Option.bind_some, hnew]
    rfl
  · rw [anon_after_setData]
    have := congrArg (List.map (Option.map anon)) hview
    rw [List.map_map] at this
    refine this.trans ?_
    rw [hheap, List.map_flatMap, List.map_flatMap]
    simp
  · show s'.collected.map (nameOf (checkData _ _)) = _
    rw [checkData_names _ _ hnd hal]
    congr 1
    have := congrArg (List.map (fun v : Option PyVar => (v.map PyVar.name).getD "")) hview
    rw [List.map_map] at this
    refine this.trans ?_
    rw [hheap, List.map_flatMap, List.map_flatMap]
    simp [declared]

private theorem fold_none (valid : PyVar → Bool) (d : List (String × Entry)) (h : ∃ x ∈ d, x.2.default ≠ none) :
    ∀ s : FromDict, d.foldlM (fromDictStep valid) s = none := by
  induction d with
  | nil => simp at h
  | cons x d ih =>
    intro s
    rw [List.foldlM_cons]
    by_cases hx : x.2.default = none
    · have h' : ∃ y ∈ d, y.2.default ≠ none := by
        obtain ⟨y, hy, hne⟩ := h
        rw [List.mem_cons] at hy
        rcases hy with rfl | hy
        · exact absurd hx hne
        · exact ⟨y, hy, hne⟩
      cases fromDictStep valid s x with
      | none => rfl
      | some s1 => exact ih h' s1
    · have : fromDictStep valid s x = none := by
        unfold fromDictStep
        rw [if_pos (Option.isSome_iff_ne_none.2 hx)]
      rw [this]
      rfl

/-- C45 is false with defaults: every specification in which some entry gives a default raises. -/
theorem c45_default_raises (valid : PyVar → Bool) (fuel : ℕ) (d : List (String × Entry))
    (h : ∃ x ∈ d, x.2.default ≠ none) : fromDict valid fuel d = none := by
  unfold fromDict
  rw [fold_none valid d h]
  rfl

private theorem fold_conds (valid : PyVar → Bool) (d : List (String × Entry)) :
    ∀ s s' : FromDict, (∀ v ∈ s.heap, v.cond = none) → d.foldlM (fromDictStep valid) s = some s' →
      ∀ v ∈ s'.heap, v.cond = none := by
  induction d with
  | nil =>
    intro s s' hs h
    cases h
    exact hs
  | cons x d ih =>
    intro s s' hs h
    rw [List.foldlM_cons] at h
    cases hstep : fromDictStep valid s x with
    | none => rw [hstep] at h; simp at h
    | some s1 =>
      rw [hstep] at h
      refine ih s1 s' ?_ h
      unfold fromDictStep at hstep
      split at hstep
      · simp at hstep
      · split at hstep
        · cases hstep; exact hs
        · split at hstep
          · split at hstep <;> · cases hstep; exact hs
          · dsimp only at hstep
            split at hstep
            · cases hstep
              intro v hv
              rw [List.mem_append] at hv
              rcases hv with hv | hv
              · exact hs v hv
              · rw [List.mem_map] at hv
                obtain ⟨i, _, rfl⟩ := hv
                rfl
            · cases hstep; exact hs

/-- C45 is false with conditions: whatever the specification says, no variable of the result has a condition. -/
theorem c45_conditions_dropped (valid : PyVar → Bool) (fuel : ℕ) (d : List (String × Entry)) (h : Heap) (s : PySpace)
    (d' : List (String × Entry)) (hr : fromDict valid fuel d = some ((h, s), d')) :
    ∀ r : ℕ, (h[r]?).bind PyVar.cond = none := by
  unfold fromDict at hr
  simp only [Option.bind_eq_bind, Option.bind_eq_some_iff] at hr
  obtain ⟨s1, hs1, r, hr1, hr2⟩ := hr
  cases hr2
  unfold newSpace at hr1
  simp only [Option.map_eq_some_iff] at hr1
  obtain ⟨t, _, ht⟩ := hr1
  cases ht
  have hall := fold_conds valid d {} s1 (by simp) hs1
  intro r
  have hc := cond_of_anon (checkData_anon s1.heap s1.collected r)
  show ((checkData s1.heap s1.collected)[r]?).bind PyVar.cond = none
  rw [hc]
  cases hg : s1.heap[r]? with
  | none => rfl
  | some v => exact hall v (List.mem_of_getElem? hg)

/-- C45: the step of an integer entry with `N = 2` reaches only its first variable, and the call removes the step
from the caller's dictionary. -/
theorem c45_step_only_once :
    let e : Entry := { typ := some (.str "int"), range := [.one (.int 0), .one (.int 20)], n := some 2, step := some 5 }
    (fromDict (fun _ => true) 9 [("n", e)]).map
      (fun r => (r.1.1.map (fun v => (v.name, v.step)), r.2.map (fun e => e.2.step))) =
    some ([("n0", 5), ("n1", 1)], [none]) := by decide

/-- C45: an entry of unknown type is not rejected: it adds the variables of the previous entry once more (which
then carry the same name twice), or is ignored if it is the first. -/
theorem c45_unknown_type_repeats :
    (fromDict (fun _ => true) 9 [("a", { typ := some (.str "bool") }), ("b", { typ := some (.str "float") })]).map
      (fun r => (r.1.2.data, r.1.2.varName)) = some ([0, 0], ["a1", "a1"]) ∧
    (fromDict (fun _ => true) 9 [("b", { typ := some (.str "float") })]).map (fun r => r.1.2.varName) =
      some [] := by
  constructor <;> decide

/-- C45: `from_dict(space.to_dict())` is the empty space, for every space. -/
theorem c45_to_dict_not_readable (valid : PyVar → Bool) (fuel : ℕ) (vars : List PyVar) :
    (fromDict valid fuel (vars.map toEntry)).map (fun r => r.1.2.data) = some [] := by
  have hfold : ∀ (vs : List PyVar) (s : FromDict), s.vars = none →
      ∃ s', (vs.map toEntry).foldlM (fromDictStep valid) s = some s' ∧ s'.collected = s.collected := by
    intro vs
    induction vs with
    | nil => intro s _; exact ⟨s, rfl, rfl⟩
    | cons v vs ih =>
      intro s hs
      obtain ⟨s2, h1, h2⟩ := ih { s with dict := s.dict ++ [toEntry v] } hs
      refine ⟨s2, ?_, h2⟩
      rw [List.map_cons, List.foldlM_cons]
      have : fromDictStep valid s (toEntry v) = some { s with dict := s.dict ++ [toEntry v] } := by
        simp [fromDictStep, toEntry, typeOfTag, hs]
      rw [this]
      exact h1
  obtain ⟨s', h1, h2⟩ := hfold vars {} rfl
  unfold fromDict
  rw [h1]
  simp only [Option.bind_eq_bind, Option.bind_some]
  have h2 : s'.collected = [] := h2
  rw [h2, newSpace_flat fuel s'.heap [] (by simp)]
  rfl

/-- Non-vacuity for C45: two real entries and an integer entry with `N = 3`. -/
example :
    let e : Entry := { typ := some (.str "r"), range := [.one (.int 0), .one (.int 1)], n := some 2, precision := some 2 }
    let i : Entry := { typ := some (.str "int"), range := [.one (.int 0), .one (.int 9)], n := some 3 }
    ∀ x ∈ [("x", VType.real, e), ("n", VType.integer, i)], Handled (fun _ => true) x.1 x.2.1 x.2.2 := by
  intro e i x hx
  simp only [List.mem_cons, List.not_mem_nil, or_false] at hx
  rcases hx with rfl | rfl
  · exact ⟨⟨"r", rfl, by decide⟩, rfl, rfl, rfl, by simp⟩
  · exact ⟨⟨"int", rfl, by decide⟩, rfl, rfl, rfl, fun _ _ => rfl⟩

/-! ## C46 -/

/-- C46, partial: equal variables have equal hashes, provided real variables also agree in precision and scale and
integer variables in step, which `==` ignores.  Missing: the others, see `c46_equal_but_different_hash`. -/
theorem c46_hash_partial (v w : PyVar) (h : v.eq w = true)
    (hr : v.typ = .real → v.precision = w.precision ∧ v.scale = w.scale) (hi : v.typ = .integer → v.step = w.step) :
    v.hashKey = w.hashKey := by
  unfold PyVar.eq at h
  simp only [Bool.and_eq_true, beq_iff_eq] at h
  obtain ⟨⟨⟨h1, h2⟩, h3⟩, h4⟩ := h
  unfold PyVar.hashKey
  rw [← h1, h2, h3, h4]
  cases hv : v.typ with
  | real => simp only; rw [(hr hv).1, (hr hv).2]
  | integer => simp only; rw [hi hv]
  | _ => rfl

/-- C46, partial: on such variables, a space equals a permutation of itself. -/
theorem c46_perm_equal (hash : HashKey → ℤ) (a b : List PyVar) (h : a.Perm b) : spaceEq hash a b = true := by
  have heq : ∀ v : PyVar, v.eq v = true := by intro v; simp [PyVar.eq]
  unfold spaceEq
  simp only [Bool.and_eq_true, beq_iff_eq, List.all_eq_true]
  refine ⟨⟨h.length_eq, ?_⟩, ?_⟩
  · intro v hv
    unfold inPySet
    rw [List.any_eq_true]
    exact ⟨v, h.mem_iff.1 hv, by simp [heq]⟩
  · intro v hv
    unfold inPySet
    rw [List.any_eq_true]
    exact ⟨v, h.mem_iff.2 hv, by simp [heq]⟩

/-- C46, partial: for variables without precision, scale or step differences, `A == B` holds exactly when the
spaces have the same dimension and contain each other. -/
theorem c46_space_eq_partial (hash : HashKey → ℤ) (a b : List PyVar)
    (hsame : ∀ v ∈ a, ∀ w ∈ b, v.eq w = true → v.hashKey = w.hashKey) :
    spaceEq hash a b = true ↔ a.length = b.length ∧ spaceContains a b = true ∧ spaceContains b a = true := by
  have hsym : ∀ v w : PyVar, v.eq w = true → w.eq v = true := by
    intro v w h
    unfold PyVar.eq at *
    simp only [Bool.and_eq_true, beq_iff_eq] at *
    obtain ⟨⟨⟨h1, h2⟩, h3⟩, h4⟩ := h
    exact ⟨⟨⟨h1.symm, h2.symm⟩, h3.symm⟩, h4.symm⟩
  unfold spaceEq spaceContains inPySet
  simp only [Bool.and_eq_true, beq_iff_eq, List.all_eq_true, List.any_eq_true, decide_eq_true_eq]
  constructor
  · rintro ⟨⟨h1, h2⟩, h3⟩
    refine ⟨h1, ?_, ?_⟩
    · intro v hv
      obtain ⟨w, hw, _, he⟩ := h3 v hv
      exact ⟨w, hw, he⟩
    · intro v hv
      obtain ⟨w, hw, _, he⟩ := h2 v hv
      exact ⟨w, hw, he⟩
  · rintro ⟨h1, h2, h3⟩
    refine ⟨⟨h1, ?_⟩, ?_⟩
    · intro v hv
      obtain ⟨w, hw, he⟩ := h3 v hv
      exact ⟨w, hw, by rw [hsame v hv w hw he], he⟩
    · intro v hv
      obtain ⟨w, hw, he⟩ := h2 v hv
      exact ⟨w, hw, by rw [hsame w hw v hv (hsym _ _ he)], he⟩

/-- C46 is false in general: two real variables that differ only in precision are equal, but their hash tuples
differ; for every hash function that separates them, the one-variable spaces contain each other and are not equal. -/
theorem c46_equal_but_different_hash :
    let v : PyVar := { name := "x", typ := .real, bounds := [.one (.int 0), .one (.int 1)], precision := some 1 }
    let w : PyVar := { v with precision := some 3 }
    v.eq w = true ∧ v.hashKey ≠ w.hashKey ∧ spaceContains [v] [w] = true ∧ spaceContains [w] [v] = true ∧
      ∀ hash : HashKey → ℤ, hash v.hashKey ≠ hash w.hashKey → spaceEq hash [v] [w] = false := by
  refine ⟨by decide, ?_, by decide, by decide, ?_⟩
  · intro h
    injection h with _ _ _ h _
    revert h
    decide
  · intro hash hne
    simp [spaceEq, inPySet, hne]

example : ∃ v w : PyVar, v.eq w = true ∧ (v.typ = .real → v.precision = w.precision ∧ v.scale = w.scale) ∧
    (v.typ = .integer → v.step = w.step) :=
  ⟨exHeap.getD 3 exHeap[0], exHeap.getD 3 exHeap[0], by decide, fun _ => ⟨rfl, rfl⟩, fun _ => rfl⟩

end Verif.Props
