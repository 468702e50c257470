import Verif.Spec.ConstraintCall
import Verif.Props.PartialArgument
import Verif.Proofs.Solution
import Verif.Model.SpaceEdit

/-!
# C128: the user's constraint functions
-/
namespace Verif.Props

open Verif.Model Verif.Spec Verif.Proofs

private theorem lookup_zip {names : List String} (hn : names.Nodup) (x : List Lvl) (i : ℕ) (n : String) (v : Lvl) (h1 : names[i]? = some n) (h2 : x[i]? = some v) :
    (names.zip x).lookup n = some v := by
  induction names generalizing x i with
  | nil => simp at h1
  | cons m names ih =>
    cases x with
    | nil => simp at h2
    | cons w x =>
      cases i with
      | zero =>
        simp at h1 h2
        subst h1; subst h2
        simp [List.lookup_cons]
      | succ i =>
        simp at h1 h2
        have hmem : n ∈ names := List.mem_of_getElem? h1
        have hne : (n == m) = false := by
          rw [beq_eq_false_iff_ne]
          rintro rfl
          exact (List.nodup_cons.1 hn).1 hmem
        rw [List.zip_cons_cons, List.lookup_cons, hne]
        exact ih (List.nodup_cons.1 hn).2 x i h1 h2

private theorem candidate_presents (asDict : Bool) {names : List String} (hn : names.Nodup) {x : List Lvl} (hl : x.length = names.length) :
    Presents asDict names x (candidateOf asDict names x) := by
  cases asDict with
  | false => exact ⟨rfl, rfl⟩
  | true =>
    have hk : ((names.zip x).map Prod.fst) = names := List.map_fst_zip hl.ge
    have : dictOf (names.zip x) = names.zip x := dictOf_nodup _ (by show ((names.zip x).map Prod.fst).Nodup; rw [hk]; exact hn)
    show true = true ∧ (dictOf (names.zip x)).map Prod.fst = names ∧ _
    rw [this]
    exact ⟨rfl, hk, fun i n v h1 h2 => lookup_zip hn x i n v h1 h2⟩

private theorem lookup_get {d : List (String × Lvl)} (hn : (d.map Prod.fst).Nodup) (i : ℕ) (p : String × Lvl) (h : d[i]? = some p) : d.lookup p.1 = some p.2 := by
  have e : d = (d.map Prod.fst).zip (d.map Prod.snd) := (List.zip_of_prod rfl rfl)
  rw [e]
  exact lookup_zip hn _ i _ _ (by rw [List.getElem?_map, h]; rfl) (by rw [List.getElem?_map, h]; rfl)

private theorem presents_unique (asDict : Bool) {names : List String} (hn : names.Nodup) {x : List Lvl} (hl : x.length = names.length) {c : Candidate}
    (h : Presents asDict names x c) : c = candidateOf asDict names x := by
  cases c with
  | list y =>
    obtain ⟨rfl, rfl⟩ := h
    rfl
  | dict d =>
    obtain ⟨rfl, hk, hv⟩ := h
    have hk' : ((names.zip x).map Prod.fst) = names := List.map_fst_zip hl.ge
    have hz : dictOf (names.zip x) = names.zip x := dictOf_nodup _ (by show ((names.zip x).map Prod.fst).Nodup; rw [hk']; exact hn)
    show Candidate.dict d = .dict (dictOf (names.zip x))
    rw [hz]
    congr 1
    have hlen : d.length = names.length := by rw [← hk, List.length_map]
    apply List.ext_getElem
    · simp [hlen, hl]
    · intro i h1 h2
      have hi : i < names.length := hlen ▸ h1
      have hname : (d[i]).1 = names[i] := by
        have : (d.map Prod.fst)[i]'(by simpa using h1) = names[i] := by simp [hk]
        simpa using this
      have hval : (d[i]).2 = x[i]'(by omega) := by
        have e1 := lookup_get (by rw [hk]; exact hn) i d[i] (List.getElem?_eq_getElem h1)
        have e2 := hv i names[i] (x[i]'(by omega)) (List.getElem?_eq_getElem hi) (List.getElem?_eq_getElem (by omega))
        rw [hname, e2] at e1
        exact (Option.some.inj e1).symm
      rw [List.getElem_zip]
      exact Prod.ext hname hval

private theorem several {K : Type*} (func : Candidate → Option (List K)) (asDict : Bool) {names : List String} {rows : List (List Lvl)} (hr : rows ≠ [])
    (hl : ∀ x ∈ rows, x.length = names.length) {X : WrapArg} (hX : wrapArray X = some rows) :
    funcWithListArg func asDict names X = (rows.mapM fun r => func (candidateOf asDict names r)).bind fun vals =>
      if vals.all (fun v => v.length == (vals.headD []).length) then some vals.flatten else none := by
  unfold funcWithListArg
  rw [hX, Option.bind_some]
  cases rows with
  | nil => exact absurd rfl hr
  | cons r rest =>
    simp only [hl r (by simp), if_true]

private theorem mapM_forall {α β : Type*} (f : α → Option β) (l : List α) (vs : List β) (h : List.Forall₂ (fun a b => f a = some b) l vs) : l.mapM f = some vs := by
  induction h with
  | nil => rfl
  | cons h1 _ ih => rw [List.mapM_cons, h1, ih]; rfl

private theorem mapM_fails {α β : Type*} (f : α → Option β) (l : List α) (h : ∃ a ∈ l, f a = none) : l.mapM f = none := by
  induction l with
  | nil => simp at h
  | cons a l ih =>
    rw [List.mapM_cons]
    obtain ⟨b, hb, hf⟩ := h
    rcases List.mem_cons.1 hb with rfl | hb
    · rw [hf]; rfl
    · rw [ih ⟨b, hb, hf⟩]; cases f a <;> rfl

private theorem one_row {K : Type*} (func : Candidate → Option (List K)) (asDict : Bool) {names : List String} {x : List Lvl} (hl : x.length = names.length) {X : WrapArg}
    (hX : wrapArray X = some [x]) : funcWithListArg func asDict names X = func (candidateOf asDict names x) := by
  unfold funcWithListArg
  rw [hX, Option.bind_some]
  simp only [hl, if_true, List.mapM_cons, List.mapM_nil]
  cases func (candidateOf asDict names x) with
  | none => rfl
  | some v => simp

private theorem unpacks_iff (x : List Lvl) : unpacks x = true ↔ OnlyEqualTuples x := by
  cases x with
  | nil => simp [unpacks, OnlyEqualTuples]
  | cons v rest =>
    cases v with
    | one b =>
      simp only [unpacks, tupleLength?, OnlyEqualTuples]
      constructor
      · intro h; simp at h
      · rintro ⟨-, k, h⟩
        obtain ⟨t, ht, -⟩ := h (.one b) (by simp)
        exact absurd ht (by simp)
    | tup t =>
      simp only [unpacks, tupleLength?, OnlyEqualTuples, Option.isSome_some, Bool.true_and, List.all_eq_true, beq_iff_eq]
      constructor
      · intro h
        refine ⟨by simp, t.length, fun v hv => ?_⟩
        rcases List.mem_cons.1 hv with rfl | hv
        · exact ⟨t, rfl, rfl⟩
        · have := h v hv
          cases v with
          | one b => simp at this
          | tup u => exact ⟨u, rfl, by simpa using this⟩
      · rintro ⟨-, k, h⟩ w hw
        obtain ⟨t', ht, hk⟩ := h (.tup t) (by simp)
        obtain ⟨u, rfl, hu⟩ := h w (by simp [hw])
        cases ht
        simp [hk, hu]

/-- **C128.** Called on a single candidate — an array, or a list that is not made of subsets of one size only — the wrapped constraint is the user's function on
exactly this candidate, as a list or as a dictionary. -/
theorem c128_point_partial {K : Type*} (func : Candidate → Option (List K)) (asDict : Bool) (names : List String) (hn : names.Nodup) (x : List Lvl)
    (hl : x.length = names.length) :
    ∃ c, Presents asDict names x c ∧ funcWithListArg func asDict names (.array (.one x)) = func c ∧
      funcWithListArg func asDict names (.array (.two [x])) = func c ∧ (¬ OnlyEqualTuples x → funcWithListArg func asDict names (.list x) = func c) := by
  refine ⟨_, candidate_presents asDict hn hl, one_row func asDict hl rfl, one_row func asDict hl rfl, fun h => one_row func asDict hl ?_⟩
  have : unpacks x = false := by
    rw [Bool.eq_false_iff]; exact fun hu => h ((unpacks_iff x).1 hu)
  simp [wrapArray, this]

/-- **C128.** Called on several candidates it gives the values of the first, then those of the second, and so on; it raises if one of the calls does. -/
theorem c128_batch_partial {K : Type*} (func : Candidate → Option (List K)) (asDict : Bool) (names : List String) (hn : names.Nodup) (X : List (List Lvl)) (hX : X ≠ [])
    (hl : ∀ x ∈ X, x.length = names.length) (ht : ¬ OnlyEqualTuples X.flatten) :
    (∀ (k : ℕ) (vals : List (List K)),
      List.Forall₂ (fun x v => ∃ c, Presents asDict names x c ∧ func c = some v ∧ v.length = k) X vals →
        funcWithListArg func asDict names (.rows X) = some vals.flatten ∧ funcWithListArg func asDict names (.array (.two X)) = some vals.flatten) ∧
      ((∃ x ∈ X, ∀ c, Presents asDict names x c → func c = none) →
        funcWithListArg func asDict names (.rows X) = none ∧ funcWithListArg func asDict names (.array (.two X)) = none) := by
  have hu : unpacks X.flatten = false := by
    rw [Bool.eq_false_iff]; exact fun hu => ht ((unpacks_iff _).1 hu)
  have e1 := several func asDict hX hl (X := .rows X) (by simp [wrapArray, hu])
  have e2 := several func asDict hX hl (X := .array (.two X)) rfl
  constructor
  · intro k vals h
    have h1 : List.Forall₂ (fun x v => func (candidateOf asDict names x) = some v ∧ v.length = k) X vals := by
      have : ∀ x ∈ X, ∀ v, (∃ c, Presents asDict names x c ∧ func c = some v ∧ v.length = k) → func (candidateOf asDict names x) = some v ∧ v.length = k := by
        rintro x hx v ⟨c, h1, h2, h3⟩
        rw [← presents_unique asDict hn (hl x hx) h1]
        exact ⟨h2, h3⟩
      clear e1 e2 hu ht hX
      induction h with
      | nil => exact .nil
      | cons h1 _ ih =>
        exact .cons (this _ (by simp) _ h1) (ih (fun x hx => hl x (by simp [hx])) fun x hx => this x (by simp [hx]))
    have h2 : X.mapM (fun r => func (candidateOf asDict names r)) = some vals := mapM_forall _ _ _ (h1.imp fun _ _ h => h.1)
    have h3 : ∀ v ∈ vals, v.length = k := by
      clear e1 e2 hu ht hX hl h2 h
      induction h1 with
      | nil => simp
      | cons h1 _ ih =>
        intro v hv
        rcases List.mem_cons.1 hv with rfl | hv
        · exact h1.2
        · exact ih v hv
    have h4 : vals.all (fun v => v.length == (vals.headD []).length) = true := by
      rw [List.all_eq_true]
      intro v hv
      cases vals with
      | nil => simp at hv
      | cons w vals =>
        rw [beq_iff_eq, h3 v hv]
        exact (h3 w (by simp)).symm
    rw [e1, e2, h2, Option.bind_some, if_pos h4]
    exact ⟨rfl, rfl⟩
  · rintro ⟨x, hx, h⟩
    have := mapM_fails (fun r => func (candidateOf asDict names r)) X ⟨x, hx, h _ (candidate_presents asDict hn (hl x hx))⟩
    rw [e1, e2, this]
    exact ⟨rfl, rfl⟩

/-- **C128.** While variables are fixed, the constraint sees the completed candidate: the fixed values at their places and the others in order. -/
theorem c128_fixed {K : Type*} (func : Candidate → Option (List K)) (asDict : Bool) (names : List String) (hn : names.Nodup) (fixed : FixedDict Lvl) (x : List Lvl)
    (hx : x.length = freeCount names fixed) :
    ∃ y c, FullPoint names fixed x y ∧ Presents asDict names y c ∧ fixedConstraint func asDict names fixed x = func c := by
  obtain ⟨y, h1, h2⟩ := c37_single_partial (fun rows => funcWithListArg func asDict names (.array (.two rows))) names fixed x hx
  obtain ⟨c, h3, -, h4, -⟩ := c128_point_partial func asDict names hn y h1.1
  refine ⟨y, c, h1, h3, ?_⟩
  unfold fixedConstraint
  rw [h2]
  exact h4

/-- **C128 (refuted for lists of subsets of one size).** A candidate with two subset variables whose values have two members each, given as a list as in `tell`: the
user's function is called twice, on the two values instead of the candidate. -/
theorem c128_subsets_refuted {K : Type*} (func : Candidate → Option (List K)) (a b c d : Base) (n m : String) (u v : K)
    (hu : func (.list [.one a, .one b]) = some [u]) (hv : func (.list [.one c, .one d]) = some [v]) :
    funcWithListArg func false [n, m] (.list [.tup [a, b], .tup [c, d]]) = some [u, v] := by
  simp [funcWithListArg, wrapArray, unpacks, tupleLength?, Lvl.members, candidateOf, hu, hv]

/-- With sizes that fit no point of the space it raises, whatever the function does. -/
theorem c128_subsets_raise_refuted {K : Type*} (func : Candidate → Option (List K)) (asDict : Bool) (names : List String) (x : List Lvl) (k : ℕ) (hx : x ≠ [])
    (ht : ∀ v ∈ x, ∃ t : List Base, v = .tup t ∧ t.length = k) (hk : k ≠ names.length) : funcWithListArg func asDict names (.list x) = none := by
  have hu : unpacks x = true := (unpacks_iff x).2 ⟨hx, k, ht⟩
  cases x with
  | nil => exact absurd rfl hx
  | cons v rest =>
    obtain ⟨t, rfl, h2⟩ := ht v (by simp)
    unfold funcWithListArg
    simp only [wrapArray, hu, if_true, Option.bind_some, List.map_cons]
    rw [if_neg]
    simp only [Lvl.members, List.length_map]
    omega

/-- A constraint on dictionaries, `x["b"] - 1`, at a point with a fixed variable. -/
example : fixedConstraint (fun c => match c with | .dict d => (d.lookup "b").bind fun v => v.number.map fun q => [q - 1] | .list _ => none) true ["a", "b"]
    (fun n => if n = "a" then some (.one (.str "u")) else none) [.one (.int 5)] = some [4] := by decide +kernel

example : ¬ OnlyEqualTuples [.tup [.int 1, .int 2], .one (.int 3)] := by
  rintro ⟨-, k, h⟩
  obtain ⟨t, ht, -⟩ := h (.one (.int 3)) (by simp)
  exact absurd ht (by simp)

end Verif.Props
