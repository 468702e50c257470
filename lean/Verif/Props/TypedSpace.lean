import Verif.Spec.TypedSpace
import Verif.Proofs.SpaceEdit

/-!
# C126: the constructors of typed spaces
-/
namespace Verif.Props

open Verif.Model Verif.Spec Verif.Proofs

private theorem readyOption_fits {V : Type*} {dim : ℕ} {a : OptArg V} (h : OptArg.Fits dim a) :
    ∃ l, readyOption dim a = some l ∧ ∀ i < dim, (l[i]?).join = OptArg.at i a := by
  cases a with
  | absent =>
    refine ⟨_, rfl, fun i hi => ?_⟩
    rw [List.getElem?_replicate, if_pos hi]; rfl
  | scalar v =>
    refine ⟨_, rfl, fun i hi => ?_⟩
    rw [List.getElem?_replicate, if_pos hi]; rfl
  | seq l =>
    have hl : l.length = dim := h
    refine ⟨l.map some, by show (if l.length = dim then _ else _) = _; rw [if_pos hl], fun i hi => ?_⟩
    rw [List.getElem?_map]
    show _ = l[i]?
    rw [List.getElem?_eq_getElem (by omega)]; rfl

private theorem readyOption_misfit {V : Type*} {dim : ℕ} {a : OptArg V} (h : ¬ OptArg.Fits dim a) : readyOption dim a = none := by
  cases a with
  | absent => exact absurd trivial h
  | scalar v => exact absurd trivial h
  | seq l =>
    show (if l.length = dim then _ else _) = _
    exact if_neg h

private theorem names_nodup (dim : ℕ) (s : String) : ((List.range dim).map fun i => s ++ toString i).Nodup := by
  rw [List.nodup_map_iff_inj_on List.nodup_range]
  intro i _ j _ h
  have h1 := congrArg String.toList h
  rw [String.toList_append, String.toList_append] at h1
  exact Nat.repr_injective (String.toList_inj.1 (List.append_cancel_left h1))

private theorem readyNames_fits {dim : ℕ} (hd : 0 < dim) {names : NameArg} (h : NameArg.Fits dim names) :
    ∃ l, readyNames dim names = some l ∧ l.length = dim ∧ l.Nodup ∧ ∀ i < dim, l[i]? = NameArg.at dim i names := by
  cases names with
  | one s =>
    by_cases h1 : dim = 1
    · subst h1
      refine ⟨[s], by simp [readyNames], rfl, by simp, fun i hi => ?_⟩
      have : i = 0 := by omega
      subst this; simp [NameArg.at]
    · refine ⟨(List.range dim).map fun i => s ++ toString i, by show some (if dim > 1 then _ else _) = _; rw [if_pos (by omega)], by simp, names_nodup dim s, fun i hi => ?_⟩
      rw [List.getElem?_map, List.getElem?_range hi]
      unfold NameArg.at
      simp only [Option.map_some, if_neg h1]
  | many l =>
    obtain ⟨h1, h2⟩ : l.length = dim ∧ l.Nodup := h
    exact ⟨l, by show (if l.length = dim then _ else _) = _; rw [if_pos h1], h1, h2, fun i _ => rfl⟩

private theorem vars_of (τ : VType) (bounds : List Lvl) (bs : List (List Lvl)) (hb : readyBounds bounds = some bs) (hpos : 0 < bs.length) (names : NameArg)
    (a : TypedArgs) (h : ArgsFit bs.length names a) :
    ∃ vars, (∀ valid : PyVar → Bool, (∀ v ∈ vars, valid v = true) → typedVars valid τ bounds names a = some vars) ∧
      (∀ valid : PyVar → Bool, (∃ v ∈ vars, valid v = false) → typedVars valid τ bounds names a = none) ∧ vars.length = bs.length ∧
      (vars.map PyVar.name).Nodup ∧
      ∀ (i : ℕ) (b : List Lvl) (v : PyVar), bs[i]? = some b → vars[i]? = some v → AsAsked τ bs.length i b names a v := by
  obtain ⟨ns, n1, n2, n3, n4⟩ := readyNames_fits hpos h.names
  obtain ⟨ds, d1, d2⟩ := readyOption_fits h.default
  obtain ⟨ps, p1, p2⟩ := readyOption_fits h.precision
  obtain ⟨ss, s1, s2⟩ := readyOption_fits h.scale
  obtain ⟨ts, t1, t2⟩ := readyOption_fits h.step
  set args : List VarArgs := (List.range bs.length).map fun i =>
    ⟨bs.getD i [], ns.getD i "", (ds[i]?).join, (ps[i]?).join, (ss[i]?).join, (ts[i]?).join⟩ with hargs
  have hr : readyArgs bounds names a = some args := by
    unfold readyArgs
    rw [hb]
    simp only [Option.bind_eq_bind, Option.bind_some, n1, d1, p1, s1, t1]
    rfl
  refine ⟨args.map (makeVar τ), fun valid hv => ?_, fun valid hv => ?_, by simp [hargs], ?_, ?_⟩
  · unfold typedVars
    rw [hr, Option.bind_some]
    dsimp only
    rw [if_pos (List.all_eq_true.2 hv)]
  · unfold typedVars
    rw [hr, Option.bind_some]
    dsimp only
    obtain ⟨v, hv1, hv2⟩ := hv
    rw [if_neg]
    intro hall
    rw [List.all_eq_true.1 hall v hv1] at hv2
    exact Bool.noConfusion hv2
  · have : (args.map (makeVar τ)).map PyVar.name = ns := by
      rw [List.map_map, hargs, List.map_map]
      apply List.ext_getElem
      · simp [n2]
      · intro i h1 h2
        simp [makeVar, List.getD_eq_getElem?_getD, List.getElem?_eq_getElem h2]
    rw [this]; exact n3
  · intro i b v hbi hvi
    have hi : i < bs.length := (List.getElem?_eq_some_iff.1 hbi).1
    rw [List.getElem?_map, hargs, List.getElem?_map, List.getElem?_range hi] at hvi
    simp only [Option.map_some, Option.some.injEq] at hvi
    subst hvi
    refine ⟨rfl, ?_, ?_, ?_, p2 i hi, ?_, ?_, rfl⟩
    · show boundsFor τ (bs.getD i []) = _
      rw [List.getD_eq_getElem?_getD, hbi]; rfl
    · rw [← n4 i hi]
      show ns[i]? = some (ns.getD i "")
      rw [List.getD_eq_getElem?_getD, List.getElem?_eq_getElem (by omega)]; rfl
    · show (if τ = .bool then some (((ds[i]?).join).getD _) else (ds[i]?).join) = _
      rw [d2 i hi]
    · show ((ss[i]?).join).getD _ = _
      rw [s2 i hi]
    · show ((ts[i]?).join).getD _ = _
      rw [t2 i hi]

private theorem space_of (fuel : ℕ) (vars : List PyVar) (hn : (vars.map PyVar.name).Nodup) (hc : ∀ v ∈ vars, v.cond = none) :
    ∃ s, liveInit fuel vars = some s ∧ s.varName = vars.map PyVar.name ∧ liveVars s = vars := by
  obtain ⟨s, h1, h2⟩ := liveInit_plain (fuel := fuel) hc
  have e : (List.range vars.length).map (nameOf vars) = vars.map PyVar.name := by
    apply List.ext_getElem
    · simp
    · intro i h1 h2
      have hi : i < vars.length := by simpa using h2
      simp [nameOf, List.getElem?_eq_getElem hi]
  have hk : checkData vars (List.range vars.length) = vars := checkData_of_nodup _ _ (by rw [e]; exact hn)
  unfold liveInit at h1 ⊢
  obtain ⟨st, h3, h4⟩ := Option.map_eq_some_iff.1 h1
  refine ⟨s, h1, ?_, ?_⟩
  · rw [← h4]
    show (List.range vars.length).map (nameOf (checkData vars (List.range vars.length))) = _
    rw [hk, e]
  · rw [← h4]
    show ((List.range vars.length).filterMap fun r => (checkData vars (List.range vars.length))[r]?) = _
    rw [hk]
    clear h1 h2 h3 h4 hk e hn hc
    induction vars with
    | nil => rfl
    | cons v rest ih =>
      rw [List.length_cons, List.range_succ_eq_map, List.filterMap_cons]
      simp only [List.getElem?_cons_zero, List.filterMap_map]
      congr 1

private theorem class_of (fuel : ℕ) {vars : List PyVar} {s : LiveSpace} (h : liveInit fuel vars = some s) (hv : liveVars s = vars) (hne : vars ≠ []) {τ : VType}
    (ht : ∀ v ∈ vars, v.typ = τ) : s.cls = some τ := by
  have ha := (liveInit_agrees h).1
  have hc : s.cls = classFor s.varType := by
    unfold liveInit at h
    obtain ⟨st, _, h4⟩ := Option.map_eq_some_iff.1 h
    rw [← h4]; rfl
  exact (class_of_agrees ha hc τ).2 (by rw [hv]; exact ⟨hne, ht⟩)

private theorem built (fuel : ℕ) (τ : VType) (bounds : List Lvl) (bs : List (List Lvl)) (hb : readyBounds bounds = some bs) (hpos : 0 < bs.length) (names : NameArg)
    (a : TypedArgs) (h : ArgsFit bs.length names a) :
    ∃ vars : List PyVar, vars.length = bs.length ∧ (vars.map PyVar.name).Nodup ∧
      (∀ (i : ℕ) (b : List Lvl) (v : PyVar), bs[i]? = some b → vars[i]? = some v → AsAsked τ bs.length i b names a v) ∧
      (∀ valid : PyVar → Bool, (∀ v ∈ vars, valid v = true) →
        ∃ s, typedSpace fuel valid τ bounds names a = some s ∧ liveVars s = vars ∧ s.varName = vars.map PyVar.name ∧ s.cls = some τ) ∧
      (∀ valid : PyVar → Bool, (∃ v ∈ vars, valid v = false) → typedSpace fuel valid τ bounds names a = none) := by
  obtain ⟨vars, h1, h1', h2, h3, h4⟩ := vars_of τ bounds bs hb hpos names a h
  have hask : ∀ v ∈ vars, v.typ = τ ∧ v.cond = none := by
    intro v hv
    obtain ⟨i, hi, rfl⟩ := List.mem_iff_getElem.1 hv
    have := h4 i _ _ (List.getElem?_eq_getElem (h2 ▸ hi)) (List.getElem?_eq_getElem hi)
    exact ⟨this.typ, this.noCond⟩
  refine ⟨vars, h2, h3, h4, fun valid hv => ?_, fun valid hv => ?_⟩
  · obtain ⟨s, e1, e2, e3⟩ := space_of fuel vars h3 fun v hv => (hask v hv).2
    refine ⟨s, ?_, e3, e2, class_of fuel e1 e3 ?_ fun v hv => (hask v hv).1⟩
    · unfold typedSpace
      rw [h1 valid hv]; exact e1
    · rintro rfl
      simp at h2; omega
  · unfold typedSpace
    rw [h1' valid hv]; rfl

/-- **C126.** Bounds given as pairs (or lists of levels), one per variable: when the names and the optional arguments fit their number, the space has exactly one
variable per entry, in this order, all of the class's type, each with the bounds, the name, and the options given for it; one given name is numbered, one given
option counts for all.  The call returns just when the constructor of every one of these variables does. -/
theorem c126_variables_partial (fuel : ℕ) (τ : VType) (bs : List (List Base)) (hne : bs ≠ []) (names : NameArg) (a : TypedArgs)
    (h : ArgsFit bs.length names a) :
    ∃ vars : List PyVar, vars.length = bs.length ∧ (vars.map PyVar.name).Nodup ∧
      (∀ (i : ℕ) (b : List Base) (v : PyVar), bs[i]? = some b → vars[i]? = some v → AsAsked τ bs.length i (b.map .one) names a v) ∧
      (∀ valid : PyVar → Bool, (∀ v ∈ vars, valid v = true) →
        ∃ s, typedSpace fuel valid τ (bs.map .tup) names a = some s ∧ liveVars s = vars ∧ s.varName = vars.map PyVar.name ∧ s.cls = some τ) ∧
      (∀ valid : PyVar → Bool, (∃ v ∈ vars, valid v = false) → typedSpace fuel valid τ (bs.map .tup) names a = none) := by
  have hb : readyBounds (bs.map .tup) = some (bs.map fun b => b.map .one) := by
    cases bs with
    | nil => exact absurd rfl hne
    | cons b rest =>
      show (List.map Lvl.tup (b :: rest)).mapM pyTuple = _
      rw [List.mapM_map]
      generalize b :: rest = l
      induction l with
      | nil => rfl
      | cons c l ih =>
        rw [List.mapM_cons, ih]; rfl
  have hp : 0 < (bs.map fun b => b.map Lvl.one).length := by
    rw [List.length_map]; exact List.length_pos_iff.2 hne
  obtain ⟨vars, h1, h2, h3, h4, h5⟩ := built fuel τ _ _ hb hp names a (by rw [List.length_map]; exact h)
  rw [List.length_map] at h1 h3
  exact ⟨vars, h1, h2, fun i b v hbi hvi => h3 i _ v (by rw [List.getElem?_map, hbi]; rfl) hvi, h4, h5⟩

/-- **C126.** Bounds that begin with a number or a word are those of a single variable, with the name as given. -/
theorem c126_single (fuel : ℕ) (τ : VType) (b : Base) (rest : List Lvl) (names : NameArg) (a : TypedArgs) (h : ArgsFit 1 names a) :
    ∃ v : PyVar, AsAsked τ 1 0 (.one b :: rest) names a v ∧
      (∀ valid : PyVar → Bool, valid v = true →
        ∃ s, typedSpace fuel valid τ (.one b :: rest) names a = some s ∧ liveVars s = [v] ∧ s.varName = [v.name] ∧ s.cls = some τ) ∧
      (∀ valid : PyVar → Bool, valid v = false → typedSpace fuel valid τ (.one b :: rest) names a = none) := by
  obtain ⟨vars, h1, h2, h3, h4, h5⟩ := built fuel τ (.one b :: rest) [.one b :: rest] rfl (by simp) names a h
  obtain ⟨v, rfl⟩ := List.length_eq_one_iff.1 h1
  exact ⟨v, h3 0 _ v rfl rfl, fun valid hv => h4 valid (by simpa using hv), fun valid hv => h5 valid ⟨v, by simp, hv⟩⟩

/-- **C126.** With too few or too many names or values of an option the call raises. -/
theorem c126_misfit (fuel : ℕ) (valid : PyVar → Bool) (τ : VType) (bounds : List Lvl) (bs : List (List Lvl)) (hb : readyBounds bounds = some bs) (names : NameArg)
    (a : TypedArgs) (h : (∃ l, names = .many l ∧ l.length ≠ bs.length) ∨ ¬ OptArg.Fits bs.length a.default ∨ ¬ OptArg.Fits bs.length a.precision ∨
      ¬ OptArg.Fits bs.length a.scale ∨ ¬ OptArg.Fits bs.length a.step) :
    typedSpace fuel valid τ bounds names a = none := by
  have : readyArgs bounds names a = none := by
    unfold readyArgs
    rw [hb]
    simp only [Option.bind_eq_bind, Option.bind_some]
    rcases h with ⟨l, rfl, hl⟩ | h | h | h | h
    · have : readyNames bs.length (.many l) = none := by
        show (if l.length = bs.length then _ else _) = _
        rw [if_neg hl]
      rw [this]; rfl
    · rw [readyOption_misfit h]; simp
    · rw [readyOption_misfit h]; simp
    · rw [readyOption_misfit h]; simp
    · rw [readyOption_misfit h]; simp
  unfold typedSpace typedVars
  rw [this]; rfl

/-- **C126 (refuted for the default of one subset variable).** A subset is a tuple, and a tuple is read as one default per variable: no default can be given
to a single subset variable in this way, not even one of its own levels — provided, as in `Variable.set_default_value`, that a default has to be a level. -/
theorem c126_subset_default_refuted (fuel : ℕ) (valid : PyVar → Bool) (hv : ∀ v d, v.default = some d → v.has d = some false → valid v = false)
    (b : Base) (rest : List Lvl) (name : String) (levels : List Base) (prec : OptArg ℤ) (scale : OptArg Scale) (step : OptArg ℚ) :
    typedSpace fuel valid .subset (.one b :: rest) (.one name) ⟨.seq (levels.map .one), prec, scale, step⟩ = none := by
  by_cases hl : levels.length = 1
  · obtain ⟨x, rfl⟩ := List.length_eq_one_iff.1 hl
    by_cases hfit : OptArg.Fits 1 prec ∧ OptArg.Fits 1 scale ∧ OptArg.Fits 1 step
    · obtain ⟨v, h1, _, h3⟩ := c126_single fuel .subset b rest (.one name) ⟨.seq [.one x], prec, scale, step⟩ ⟨trivial, rfl, hfit.1, hfit.2.1, hfit.2.2⟩
      refine h3 valid (hv v (.one x) h1.default ?_)
      unfold PyVar.has
      rw [h1.typ]
      simp only [Option.some.injEq]
      rw [List.any_eq_false]
      intro l hm
      rw [h1.bounds] at hm
      have : ∃ t, l = .tup t := by
        simp only [boundsFor] at hm
        have := (mem_dedupLevels _ _).1 hm
        obtain ⟨t, _, rfl⟩ := List.mem_map.1 this
        exact ⟨t, rfl⟩
      obtain ⟨t, rfl⟩ := this
      simp [Lvl.same]
    · refine c126_misfit fuel valid _ _ [.one b :: rest] rfl _ _ ?_
      right; right
      by_contra hcon
      push Not at hcon
      exact hfit hcon
  · refine c126_misfit fuel valid _ _ [.one b :: rest] rfl _ _ (Or.inr (Or.inl ?_))
    show ¬ (levels.map Lvl.one).length = 1
    rw [List.length_map]; exact hl

/-- **C126 (refuted for a word among the bounds).** After a pair, a word is taken apart into its letters: `DiscreteSpace([("a", "b"), "no"])` has a second variable
with the levels `"n"` and `"o"`. -/
theorem c126_word_refuted (fuel : ℕ) :
    (typedSpace fuel (fun _ => true) .discrete [.tup [.str "a", .str "b"], .one (.str "no")] (.one "x") {}).map (fun s => s.bounds)
      = some [[.one (.str "a"), .one (.str "b")], [.one (.str "n"), .one (.str "o")]] := by
  rfl

/-- **C126 (refuted for `BoolSpace`).** Only one variable can be made: any other number of names raises. -/
theorem c126_bool_refuted (fuel : ℕ) (valid : PyVar → Bool) (l : List String) (hl : l.length ≠ 1) (a : TypedArgs) : boolSpace fuel valid (.many l) a = none :=
  c126_misfit fuel valid _ _ [[.one (.bool false), .one (.bool true)]] rfl _ _ (Or.inl ⟨l, rfl, hl⟩)

/-- Three real variables with one name, two given precisions too few, or a list of three. -/
example : ArgsFit 3 (.one "x") { precision := .seq [1, 2, 3], scale := .scalar .log } := ⟨trivial, trivial, rfl, trivial, trivial⟩

example (fuel : ℕ) : ∃ s, typedSpace fuel (fun _ => true) .real [.tup [.int 0, .int 1], .tup [.int 2, .int 5]] (.one "x")
    { precision := .seq [1, 2] } = some s ∧ s.varName = ["x0", "x1"] ∧ (liveVars s).map PyVar.precision = [some 1, some 2] := by
  exact ⟨_, rfl, by decide +kernel, rfl⟩

end Verif.Props
