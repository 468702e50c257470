import Verif.Proofs.SpaceEdit

/-!
# C117, C118: editing a search space in place, and membership
-/
namespace Verif.Props

open Verif.Model Verif.Spec Verif.Proofs

private def rv (n : String) (lo hi : ℤ) : PyVar := ⟨n, .real, [.one (.int lo), .one (.int hi)], none, none, .linear, 1, none⟩
private def iv (n : String) (lo hi : ℤ) : PyVar := ⟨n, .integer, [.one (.int lo), .one (.int hi)], none, none, .linear, 1, none⟩

private def made (vars : List PyVar) : LiveSpace :=
  (LiveSpace.setData ⟨[], [], [], [], [], none, [], none⟩ vars (List.range vars.length)).setType

private theorem init_made {vars : List PyVar} (hv : ∀ v ∈ vars, v.cond = none) : liveInit 1 vars = some (made vars) := by
  have hn : ∀ v ∈ (LiveSpace.setData ⟨[], [], [], [], [], none, [], none⟩ vars (List.range vars.length)).heap, v.cond = none := noCond_setName hv _
  show Option.map _ (setStructure 1 (condsOf (LiveSpace.setData ⟨[], [], [], [], [], none, [], none⟩ vars (List.range vars.length)).heap _) []) = _
  rw [setStructure_plain 1 hn]
  rfl

/-! ### C117: the attributes -/

/-- After every history of calls in which no list assignment raises half way, the names, types, bounds and index arrays of a space are those of its
variables.  (The index arrays of an empty space are excepted, see `c117_empty_index`.) -/
theorem c117_attributes_partial (fuel : ℕ) (vars : List PyVar) (s : LiveSpace) (h : liveInit fuel vars = some s) (calls : List SpaceCall)
    (hc : NoHalfAssignment fuel s calls) : AttributesAgree (s.run fuel calls) :=
  (run_agrees fuel calls (liveInit_agrees h).1 (liveInit_agrees h).2 hc).1

/-- Without conditions and without assignments to items the class of the space is the one for its variables, after every history. -/
theorem c117_class_partial (fuel : ℕ) (vars : List PyVar) (hv : ∀ v ∈ vars, v.cond = none) (calls : List SpaceCall) (hc : ∀ c ∈ calls, PlainCall c) :
    ∃ s, liveInit fuel vars = some s ∧ ClassAgrees (s.run fuel calls) ∧ (s.run fuel calls).canSample = true := by
  obtain ⟨s, h, hp⟩ := liveInit_plain (fuel := fuel) hv
  obtain ⟨h1, _, h3⟩ := run_plain fuel calls (liveInit_agrees h).1 (liveInit_agrees h).2 hp hc
  refine ⟨s, h, class_of_agrees h1 h3.cls, ?_⟩
  unfold LiveSpace.canSample
  split
  · rename_i e
    rw [h3.cls, classFor_iff] at e
    simpa using e.2
  · rfl

/-- Popping a position takes out the variable there and nothing else, if the names are distinct. -/
theorem c117_pop (fuel : ℕ) (vars : List PyVar) (hv : ∀ v ∈ vars, v.cond = none) (calls : List SpaceCall) (hc : ∀ c ∈ calls, PlainCall c) :
    ∃ s, liveInit fuel vars = some s ∧ ∀ i : ℤ, (liveVars (s.run fuel calls)).map PyVar.name |>.Nodup → ∀ k : ℕ,
      k < (liveVars (s.run fuel calls)).length → (i = k ∨ i = (k : ℤ) - (liveVars (s.run fuel calls)).length) →
      liveVars ((s.run fuel calls).pop fuel i).1 = (liveVars (s.run fuel calls)).eraseIdx k ∧
      (((s.run fuel calls).pop fuel i).2.bind fun r => (s.run fuel calls).heap[r]?) = (liveVars (s.run fuel calls))[k]? := by
  obtain ⟨s, h, hp⟩ := liveInit_plain (fuel := fuel) hv
  obtain ⟨h1, h2, h3⟩ := run_plain fuel calls (liveInit_agrees h).1 (liveInit_agrees h).2 hp hc
  refine ⟨s, h, fun i hn k hk hi => ?_⟩
  generalize s.run fuel calls = t at *
  have hl : (liveVars t).length = t.data.length := by
    have := congrArg List.length (filterMap_alive t.heap h2 (fun v => v.name) "")
    simpa [liveVars] using this
  have hpos : pyIndex t.data.length i = some k := by
    unfold pyIndex
    rcases hi with rfl | rfl
    · rw [if_pos (by omega), if_pos (by omega)]; simp
    · rw [if_neg (by omega), if_pos (by omega), hl]; congr 1; omega
  have hn' : t.varName.Nodup := by rw [h1.names]; exact hn
  have hcond : ∀ v ∈ (t.setData t.heap (t.data.eraseIdx k)).heap, v.cond = none := noCond_setName h3.noCond _
  unfold LiveSpace.pop
  rw [hpos]
  show liveVars ((t.setData t.heap (t.data.eraseIdx k)).afterPop fuel).1 = _ ∧
    ((if ((t.setData t.heap (t.data.eraseIdx k)).afterPop fuel).2 = true then t.data[k]? else none).bind fun r => t.heap[r]?) = _
  rw [afterPop_plain fuel hcond h3.noTree]
  refine ⟨setData_erase h1 h2 hn' k, ?_⟩
  rw [if_pos rfl]
  have e := filterMap_alive t.heap h2 (fun v => some v) none
  have e2 := congrArg (fun l => l[k]?) e
  simp only [List.getElem?_map] at e2
  show _ = (t.data.filterMap fun r => t.heap[r]?)[k]?
  have hk' : k < t.data.length := by omega
  rw [List.getElem?_eq_getElem hk'] at e2 ⊢
  rw [List.getElem?_eq_getElem (l := t.data.filterMap fun r => t.heap[r]?) hk] at e2 ⊢
  have hr := h2 _ (List.getElem_mem hk')
  simp only [Option.map_some, Option.bind_some, Option.some.injEq, List.getElem?_eq_getElem hr, Option.getD_some] at e2 ⊢
  exact e2.symm

/-- Removing a name takes out the variable of that name and nothing else; an unknown name raises and changes nothing. -/
theorem c117_remove (fuel : ℕ) (vars : List PyVar) (hv : ∀ v ∈ vars, v.cond = none) (calls : List SpaceCall) (hc : ∀ c ∈ calls, PlainCall c) :
    ∃ s, liveInit fuel vars = some s ∧ ∀ n : String, ((liveVars (s.run fuel calls)).map PyVar.name).Nodup →
      liveVars ((s.run fuel calls).remove fuel (.name n)).1 = (liveVars (s.run fuel calls)).filter (fun v => v.name ≠ n) ∧
      (((s.run fuel calls).remove fuel (.name n)).2 = true ↔ ∃ v ∈ liveVars (s.run fuel calls), v.name = n) := by
  obtain ⟨s, h, hp⟩ := liveInit_plain (fuel := fuel) hv
  obtain ⟨h1, h2, h3⟩ := run_plain fuel calls (liveInit_agrees h).1 (liveInit_agrees h).2 hp hc
  refine ⟨s, h, fun n hn => ?_⟩
  generalize s.run fuel calls = t at *
  have hn' : t.varName.Nodup := by rw [h1.names]; exact hn
  have erase : ∀ l : List PyVar, (l.map PyVar.name).Nodup → l.eraseIdx ((l.map PyVar.name).idxOf n) = l.filter fun v => v.name ≠ n := by
    intro l
    induction l with
    | nil => simp
    | cons v l ih =>
      intro hl
      rw [List.map_cons, List.nodup_cons] at hl
      by_cases e : v.name = n
      · rw [List.map_cons, e, List.idxOf_cons_self, List.eraseIdx_cons_zero, List.filter_cons_of_neg (by simp [e])]
        refine (List.filter_eq_self.2 fun w hw => ?_).symm
        have : w.name ≠ n := by
          rintro rfl
          exact hl.1 (e ▸ List.mem_map_of_mem hw)
        simpa using this
      · rw [List.map_cons, List.idxOf_cons_ne _ e, List.eraseIdx_cons_succ, List.filter_cons_of_pos (by simp [e]), ih hl.2]
  unfold LiveSpace.remove
  by_cases hm : n ∈ t.varName
  · have hpos : t.position (.name n) = some (t.varName.idxOf n) := by
      show (if t.varName.contains n then _ else _) = _
      rw [if_pos (by simpa using hm)]
    rw [hpos]
    generalize hk : t.varName.idxOf n = k
    have hcond : ∀ v ∈ (t.setData t.heap (t.data.eraseIdx k)).heap, v.cond = none := noCond_setName h3.noCond _
    show liveVars ((t.setData t.heap (t.data.eraseIdx k)).afterPop fuel).1 = _ ∧ (((t.setData t.heap (t.data.eraseIdx k)).afterPop fuel).2 = true ↔ _)
    rw [afterPop_plain fuel hcond h3.noTree]
    refine ⟨?_, ?_⟩
    · show liveVars (t.setData t.heap (t.data.eraseIdx k)) = _
      rw [setData_erase h1 h2 hn' k, ← hk, h1.names, erase _ hn]
    · rw [h1.names, List.mem_map] at hm
      simpa using hm
  · have hpos : t.position (.name n) = none := by
      show (if t.varName.contains n then _ else _) = _
      rw [if_neg (by simpa using hm)]
    rw [hpos]
    rw [h1.names, List.mem_map] at hm
    refine ⟨?_, by simpa using hm⟩
    refine (List.filter_eq_self.2 fun w hw => ?_).symm
    have : w.name ≠ n := fun e => hm ⟨w, hw, e⟩
    simpa using this

/-- A space of real variables into which an integer variable is assigned stays a `RealSpace` and cannot be sampled. -/
theorem c117_class_refuted : ∃ s, liveInit 1 [rv "x" 0 1, rv "y" 0 1] = some s ∧
    (s.setItem (.pos 1) (iv "k" 0 5)).2 = true ∧ (liveVars (s.setItem (.pos 1) (iv "k" 0 5)).1).map PyVar.typ = [.real, .integer] ∧
    ¬ ClassAgrees (s.setItem (.pos 1) (iv "k" 0 5)).1 ∧ (s.setItem (.pos 1) (iv "k" 0 5)).1.canSample = false := by
  have h := init_made (vars := [rv "x" 0 1, rv "y" 0 1]) (by simp [rv])
  obtain ⟨s, e⟩ : ∃ s, s = made [rv "x" 0 1, rv "y" 0 1] := ⟨_, rfl⟩
  rw [← e] at h
  have hc : (s.setItem (.pos 1) (iv "k" 0 5)).1.cls = some .real := by subst e; rfl
  have ht : (liveVars (s.setItem (.pos 1) (iv "k" 0 5)).1).map PyVar.typ = [.real, .integer] := by subst e; decide +kernel
  refine ⟨s, h, by subst e; decide +kernel, ht, fun hcl => ?_, by subst e; decide +kernel⟩
  have := ((hcl .real).1 hc).2
  have h2 : ∀ τ ∈ (liveVars (s.setItem (.pos 1) (iv "k" 0 5)).1).map PyVar.typ, τ = .real := by
    intro τ hτ
    obtain ⟨v, hv, rfl⟩ := List.mem_map.1 hτ
    exact this v hv
  rw [ht] at h2
  exact absurd (h2 .integer (by simp)) (by simp)

/-- A list assignment whose second key is not supported raises after it replaced the first variable: the names no longer agree. -/
theorem c117_half_assignment_refuted : ∃ s, liveInit 1 [rv "x" 0 1, rv "y" 0 1] = some s ∧
    (s.setItems [(.pos 0, rv "z" 2 3), (.other, rv "w" 4 5)]).2 = false ∧
    (liveVars (s.setItems [(.pos 0, rv "z" 2 3), (.other, rv "w" 4 5)]).1).map PyVar.name = ["z", "y"] ∧
    (s.setItems [(.pos 0, rv "z" 2 3), (.other, rv "w" 4 5)]).1.varName = ["x", "y"] ∧
    ¬ AttributesAgree (s.setItems [(.pos 0, rv "z" 2 3), (.other, rv "w" 4 5)]).1 := by
  have h := init_made (vars := [rv "x" 0 1, rv "y" 0 1]) (by simp [rv])
  obtain ⟨s, e⟩ : ∃ s, s = made [rv "x" 0 1, rv "y" 0 1] := ⟨_, rfl⟩
  rw [← e] at h
  have h1 : (liveVars (s.setItems [(.pos 0, rv "z" 2 3), (.other, rv "w" 4 5)]).1).map PyVar.name = ["z", "y"] := by subst e; decide +kernel
  have h2 : (s.setItems [(.pos 0, rv "z" 2 3), (.other, rv "w" 4 5)]).1.varName = ["x", "y"] := by subst e; decide +kernel
  refine ⟨s, h, by subst e; decide +kernel, h1, h2, fun ha => ?_⟩
  have := ha.names
  rw [h1, h2] at this
  exact absurd this (by decide)

/-- Popping the last variable leaves the index arrays of the space with one variable. -/
theorem c117_empty_index : ∃ s, liveInit 1 [rv "x" 0 1] = some s ∧ liveVars (s.pop 1 0).1 = [] ∧
    (s.pop 1 0).1.index.map (fun ix => ix.id .real) = some [0] := by
  have h := init_made (vars := [rv "x" 0 1]) (by simp [rv])
  obtain ⟨s, e⟩ : ∃ s, s = made [rv "x" 0 1] := ⟨_, rfl⟩
  rw [← e] at h
  exact ⟨s, h, List.map_eq_nil_iff.1 (show (liveVars (s.pop 1 0).1).map PyVar.name = [] by subst e; decide +kernel), by subst e; decide +kernel⟩

/-- A non-trivial history meets the hypotheses of `c117_attributes_partial` and of `c117_class_partial`. -/
example : ∃ s, liveInit 1 [rv "x" 0 1, iv "k" 0 5] = some s ∧
    NoHalfAssignment 1 s [.setItems [(.name "x", rv "z" 2 3), (.pos (-1), rv "w" 4 5)], .pop 0, .imul 3] ∧
    (s.run 1 [.setItems [(.name "x", rv "z" 2 3), (.pos (-1), rv "w" 4 5)], .pop 0, .imul 3]).varName = ["w0", "w1", "w2"] := by
  have h := init_made (vars := [rv "x" 0 1, iv "k" 0 5]) (by simp [rv, iv])
  obtain ⟨s, e⟩ : ∃ s, s = made [rv "x" 0 1, iv "k" 0 5] := ⟨_, rfl⟩
  rw [← e] at h
  refine ⟨s, h, ⟨?_, ?_, ?_, trivial⟩, by subst e; decide +kernel⟩
  · rintro kvs hk
    cases hk
    subst e; decide +kernel
  · rintro kvs hk; cases hk
  · rintro kvs hk; cases hk

example : (∀ v ∈ [rv "x" 0 1, iv "k" 0 5], v.cond = none) ∧ ∀ c ∈ [SpaceCall.remove (.name "x"), .iadd [iv "j" 0 9], .isub ["k"], .rename ["m"]],
    PlainCall c := by
  simp [rv, iv, PlainCall]

example : ∃ s, liveInit 1 [rv "x" 0 1, iv "k" 0 5] = some s ∧
    (s.run 1 [.remove (.name "x"), .iadd [iv "j" 0 9], .isub ["k"], .rename ["m"]]).cls = some .integer ∧
    (s.run 1 [.remove (.name "x"), .iadd [iv "j" 0 9], .isub ["k"], .rename ["m"]]).varName = ["m"] := by
  refine ⟨made [rv "x" 0 1, iv "k" 0 5], init_made (by simp [rv, iv]), ?_⟩
  decide +kernel

/-! ### C118: membership -/

/-- A point of the space is found in it. -/
theorem c118_complete (vars : List PyVar) (xs : List Lvl) (h : List.Forall₂ InVariable vars xs) : spaceHas vars (.list xs) = some true := by
  show (xs.zipIdx.mapM fun xi => (vars[xi.2]?).bind fun v => v.has xi.1).map (fun bs => bs.all id) = some true
  rw [mapM_all]
  rintro ⟨x, i⟩ hx
  have hx : xs[i]? = some x := List.mem_zipIdx_iff_getElem?.1 hx
  obtain ⟨hi, e⟩ := List.getElem?_eq_some_iff.1 hx
  have hiv : i < vars.length := by rw [h.length_eq]; exact hi
  show (vars[i]?).bind (fun v => v.has x) = some true
  rw [List.getElem?_eq_getElem hiv, Option.bind_some, has_true]
  have := (List.forall₂_iff_get.1 h).2 i hiv hi
  simp only [List.get_eq_getElem] at this
  rw [← e]
  exact this.1

/-- What is found: exactly the lists that are not longer than the space and have every entry in the range of its variable.  So a list with one entry per
variable, and whole numbers for the integer variables, is found iff it is a point of the space. -/
theorem c118_list_partial (vars : List PyVar) (xs : List Lvl) :
    (spaceHas vars (.list xs) = some true ↔ xs.length ≤ vars.length ∧ ∀ (i : ℕ) (v : PyVar) (x : Lvl), vars[i]? = some v → xs[i]? = some x → InRange v x) ∧
    (xs.length = vars.length → (∀ (i : ℕ) (v : PyVar) (x : Lvl), vars[i]? = some v → xs[i]? = some x → v.typ = .integer → ∃ q, x.number = some q ∧ q.den = 1) →
      (spaceHas vars (.list xs) = some true ↔ List.Forall₂ InVariable vars xs)) := by
  have main : spaceHas vars (.list xs) = some true ↔ xs.length ≤ vars.length ∧ ∀ (i : ℕ) (v : PyVar) (x : Lvl), vars[i]? = some v → xs[i]? = some x → InRange v x := by
    show (xs.zipIdx.mapM fun xi => (vars[xi.2]?).bind fun v => v.has xi.1).map (fun bs => bs.all id) = some true ↔ _
    rw [mapM_all]
    constructor
    · intro h
      have get : ∀ (i : ℕ) (x : Lvl), xs[i]? = some x → ∃ v, vars[i]? = some v ∧ InRange v x := by
        intro i x hx
        have := h (x, i) (List.mem_zipIdx_iff_getElem?.2 hx)
        obtain ⟨v, hv, h2⟩ := Option.bind_eq_some_iff.1 this
        exact ⟨v, hv, (has_true v x).1 h2⟩
      refine ⟨?_, fun i v x hv hx => ?_⟩
      · by_contra hlt
        have hlt : vars.length < xs.length := by omega
        obtain ⟨v, hv, _⟩ := get vars.length _ (List.getElem?_eq_getElem hlt)
        simp at hv
      · obtain ⟨w, hw, h2⟩ := get i x hx
        rw [hv] at hw
        cases hw
        exact h2
    · rintro ⟨hl, h⟩ ⟨x, i⟩ hx
      have hx : xs[i]? = some x := List.mem_zipIdx_iff_getElem?.1 hx
      obtain ⟨hi, _⟩ := List.getElem?_eq_some_iff.1 hx
      have hiv : i < vars.length := by omega
      show (vars[i]?).bind (fun v => v.has x) = some true
      rw [List.getElem?_eq_getElem hiv, Option.bind_some, has_true]
      exact h i _ x (List.getElem?_eq_getElem hiv) hx
  refine ⟨main, fun hl hw => ⟨fun h => ?_, c118_complete vars xs⟩⟩
  obtain ⟨_, h⟩ := main.1 h
  refine List.forall₂_iff_get.2 ⟨hl.symm, fun i h1 h2 => ?_⟩
  have a := List.getElem?_eq_getElem h1
  have b := List.getElem?_eq_getElem h2
  exact ⟨h i _ _ a b, hw i _ _ a b⟩

/-- A dictionary is found iff every key is the name of a variable whose range contains the value. -/
theorem c118_dict_partial (vars : List PyVar) (hn : (vars.map PyVar.name).Nodup) (d : List (String × Lvl)) :
    spaceHas vars (.dict d) = some true ↔ ∀ kx ∈ d, ∃ v ∈ vars, v.name = kx.1 ∧ InRange v kx.2 := by
  show (d.mapM fun kx => (vars.find? fun v => v.name == kx.1).bind fun v => v.has kx.2).map (fun bs => bs.all id) = some true ↔ _
  rw [mapM_all]
  refine forall₂_congr fun kx _ => ?_
  rw [Option.bind_eq_some_iff]
  constructor
  · rintro ⟨v, hv, h⟩
    exact ⟨v, List.mem_of_find?_eq_some hv, by simpa using List.find?_some hv, (has_true v kx.2).1 h⟩
  · rintro ⟨v, hv, hk, h⟩
    refine ⟨v, ?_, (has_true v kx.2).2 h⟩
    cases e : vars.find? fun v => v.name == kx.1 with
    | none => exact absurd (List.find?_eq_none.1 e v hv) (by simp [hk])
    | some w =>
      have hw : w.name = kx.1 := by simpa using List.find?_some e
      rw [List.inj_on_of_nodup_map hn (List.mem_of_find?_eq_some e) hv (hw.trans hk.symm)]

/-- A list with too few entries, an empty dictionary and a fraction for an integer variable are found; a list with too many entries raises. -/
theorem c118_refuted :
    spaceHas [rv "x" 0 1, iv "k" 0 5] (.list [.one (.int 1)]) = some true ∧
    spaceHas [rv "x" 0 1, iv "k" 0 5] (.dict []) = some true ∧
    spaceHas [rv "x" 0 1, iv "k" 0 5] (.list [.one (.int 1), .one (.flt (5 / 2))]) = some true ∧
    ¬ List.Forall₂ InVariable [rv "x" 0 1, iv "k" 0 5] [.one (.int 1), .one (.flt (5 / 2))] ∧
    spaceHas [rv "x" 0 1, iv "k" 0 5] (.list [.one (.int 1), .one (.int 2), .one (.int 3)]) = none := by
  refine ⟨by decide +kernel, by decide +kernel, by decide +kernel, fun h => ?_, by decide +kernel⟩
  rw [List.forall₂_cons, List.forall₂_cons] at h
  obtain ⟨q, hq, hd⟩ := h.2.1.2 rfl
  simp only [Lvl.number, Base.number, Option.some.injEq] at hq
  rw [← hq] at hd
  exact absurd hd (by decide +kernel)

example : List.Forall₂ InVariable [rv "x" 0 1, iv "k" 0 5] [.one (.flt (1 / 2)), .one (.int 3)] := by
  refine .cons ⟨?_, by simp [rv]⟩ (.cons ⟨?_, fun _ => ⟨3, rfl, rfl⟩⟩ .nil)
  · rw [← has_true]; decide +kernel
  · rw [← has_true]; decide +kernel

end Verif.Props
