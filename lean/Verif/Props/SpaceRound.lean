import Verif.Spec.SpaceRound
import Verif.Props.Variables
import Mathlib.Analysis.Complex.ExponentialBounds

/-!
# C171: rounding and rescaling of designs
-/
namespace Verif.Props

open Verif.Model Verif.Spec

private theorem write_exact {t : ElemType} (ht : t ≠ .int) (x : ℝ) : writeAs t x = x := if_neg ht

private theorem row_converted (op : RealVar → ℝ → ℝ) {t : ElemType} (ht : t ≠ .int) {vs : List (Option RealVar)} {r : List DesignEntry} (h : FitsRow vs r) :
    ∃ r', overwriteRow op t vs r = some r' ∧ RowConverted op vs r r' := by
  induction h with
  | nil => exact ⟨[], rfl, rfl, rfl, fun i => ⟨by simp, by simp⟩⟩
  | @cons v e vs es h1 _ ih =>
    obtain ⟨r', h2, h3, h4, h5⟩ := ih
    cases v with
    | none =>
      refine ⟨e :: r', by simp [overwriteRow, h2], by simp [h3], by simp [h4], fun i => ?_⟩
      cases i with
      | zero => simp
      | succ i => simpa using h5 i
    | some v =>
      obtain ⟨x, rfl⟩ := h1 rfl
      refine ⟨.num (op v x) :: r', by simp [overwriteRow, h2, write_exact ht], by simp [h3], by simp [h4], fun i => ?_⟩
      cases i with
      | zero =>
        refine ⟨fun w y hw hy => ?_, by simp⟩
        simp only [List.getElem?_cons_zero, Option.some.injEq, DesignEntry.num.injEq] at hw hy ⊢
        rw [hw, hy]
      | succ i => simpa using h5 i

private theorem rows_converted (op : RealVar → ℝ → ℝ) {t : ElemType} (ht : t ≠ .int) {vs : List (Option RealVar)} {x : List (List DesignEntry)}
    (h : ∀ r ∈ x, FitsRow vs r) : ∃ y, overwriteRows op t vs x = some y ∧ List.Forall₂ (RowConverted op vs) x y := by
  induction x with
  | nil => exact ⟨[], rfl, .nil⟩
  | cons r x ih =>
    obtain ⟨r', h1, h2⟩ := row_converted op ht (h r (by simp))
    obtain ⟨y, h3, h4⟩ := ih fun r hr => h r (by simp [hr])
    refine ⟨r' :: y, ?_, .cons h2 h4⟩
    simp only [overwriteRows] at h3 ⊢
    simp [List.mapM_cons, h1, h3]

private theorem matrix_of {vs : List (Option RealVar)} {a : DesignArg} (hne : designRows a ≠ []) (h : ∀ r ∈ designRows a, FitsRow vs r) :
    matrixOf a = some (designRows a) := by
  have hl : ∀ r ∈ designRows a, r.length = vs.length := fun r hr => (h r hr).length_eq.symm
  cases a with
  | rows x =>
    cases x with
    | nil => exact absurd rfl hne
    | cons r x =>
      refine if_pos ⟨rfl, fun q hq => ?_⟩
      rw [hl q hq]
      exact (hl r (by simp [designRows])).symm
  | row x => rfl
  | array t x => rfl
  | vector t x => rfl

private theorem discrete_rows (op : RealVar → ℝ → ℝ) {vs : List (Option RealVar)} (hv : ∀ v ∈ vs, v = none) {x : List (List DesignEntry)}
    (h : ∀ r ∈ x, FitsRow vs r) : List.Forall₂ (RowConverted op vs) x x := by
  rw [List.forall₂_same]
  intro r hr
  refine ⟨(h r hr).length_eq.symm, (h r hr).length_eq.symm, fun i => ⟨fun v y hi => ?_, fun _ => rfl⟩⟩
  have := hv _ (List.mem_of_getElem? hi)
  exact absurd this (by simp)

private theorem converted (op : RealVar → ℝ → ℝ) {s : DesignSpace} (hs : ProperSpace s) {a : DesignArg} (hne : designRows a ≠ [])
    (h : ∀ r ∈ designRows a, FitsRow s.vars r) (hint : s.cls = .general → ¬ IsIntArray a) :
    ∃ c, convertDesign op s a = some c ∧ List.Forall₂ (RowConverted op s.vars) (designRows a) c.result := by
  have hm := matrix_of hne h
  unfold convertDesign
  cases hc : s.cls with
  | real =>
    obtain ⟨y, h1, h2⟩ := rows_converted op (t := .float) (by decide) h
    refine ⟨⟨y, a⟩, ?_, h2⟩
    simp only [convertReal, hm, Option.bind_some, h1, Option.map_some]
    exact if_pos fun r hr => (h r hr).length_eq.symm
  | discrete => exact ⟨⟨designRows a, a⟩, by simp [convertDiscrete, hm], discrete_rows op (hs.2 hc) h⟩
  | general =>
    have hi := hint hc
    cases a with
    | rows x =>
      obtain ⟨y, h1, h2⟩ := rows_converted op (t := .object) (by decide) h
      exact ⟨⟨y, .rows x⟩, by simp only [convertGeneral, hm, Option.bind_some, h1, Option.map_some], h2⟩
    | row x =>
      obtain ⟨y, h1, h2⟩ := rows_converted op (t := .object) (by decide) h
      exact ⟨⟨y, .row x⟩, by simp only [convertGeneral, hm, Option.bind_some, h1, Option.map_some], h2⟩
    | array t x =>
      obtain ⟨y, h1, h2⟩ := rows_converted op (t := t) hi h
      exact ⟨⟨y, .array t y⟩, by simp only [convertGeneral, hm, Option.bind_some, h1, Option.map_some], h2⟩
    | vector t x =>
      obtain ⟨y, h1, h2⟩ := rows_converted op (t := t) hi h
      exact ⟨⟨y, .vector t (y.headD [])⟩, by simp only [convertGeneral, hm, Option.bind_some, h1, Option.map_some], h2⟩

/-- **C171, result of `round`** (the part that holds).  Unless the space is mixed and the argument an array of integers: every design
that fits the space is rounded, the values of real variables to their precision, and all others are returned as they are. -/
theorem c171_round_partial {s : DesignSpace} (hs : ProperSpace s) {a : DesignArg} (hne : designRows a ≠ [])
    (h : ∀ r ∈ designRows a, FitsRow s.vars r) (hint : s.cls = .general → ¬ IsIntArray a) :
    ∃ c, spaceRound s a = some c ∧ List.Forall₂ (RowConverted RealVar.round s.vars) (designRows a) c.result := converted _ hs hne h hint

/-- **C171, result of `to_linear_scale`** (the part that holds).  The same for the inverse of the scales. -/
theorem c171_linear_partial {s : DesignSpace} (hs : ProperSpace s) {a : DesignArg} (hne : designRows a ≠ [])
    (h : ∀ r ∈ designRows a, FitsRow s.vars r) (hint : s.cls = .general → ¬ IsIntArray a) :
    ∃ c, spaceToLinear s a = some c ∧ List.Forall₂ (RowConverted (fun v x => scaleInv v.scale (some x)) s.vars) (designRows a) c.result :=
  converted _ hs hne h hint

/-- **C171, argument** (the part that holds).  Lists are never changed, and arrays are not changed by a space whose variables are all real or all of
one discrete type. -/
theorem c171_argument_partial {s : DesignSpace} {a : DesignArg} (h : s.cls = .general → ¬ IsArray a) {c : Converted}
    (hc : spaceRound s a = some c ∨ spaceToLinear s a = some c) : c.argument = a := by
  have key : ∀ op, convertDesign op s a = some c → c.argument = a := by
    intro op hc
    unfold convertDesign at hc
    cases hk : s.cls with
    | real =>
      rw [hk] at hc
      simp only [convertReal, Option.bind_eq_some_iff] at hc
      obtain ⟨x, _, hx⟩ := hc
      split_ifs at hx
      obtain ⟨y, _, rfl⟩ := Option.map_eq_some_iff.1 hx
      rfl
    | discrete =>
      rw [hk] at hc
      obtain ⟨y, _, rfl⟩ := Option.map_eq_some_iff.1 hc
      rfl
    | general =>
      rw [hk] at hc
      simp only [convertGeneral, Option.bind_eq_some_iff] at hc
      obtain ⟨x, _, hx⟩ := hc
      cases a with
      | rows _ => obtain ⟨y, _, rfl⟩ := Option.map_eq_some_iff.1 hx; rfl
      | row _ => obtain ⟨y, _, rfl⟩ := Option.map_eq_some_iff.1 hx; rfl
      | array _ _ => exact absurd trivial (h hk)
      | vector _ _ => exact absurd trivial (h hk)
  exact hc.elim (key _) (key _)

private theorem mapM_length {x y : List (List DesignEntry)} {f : List DesignEntry → Option (List DesignEntry)} (h : x.mapM f = some y) : y.length = x.length := by
  induction x generalizing y with
  | nil => simp at h; simp [← h]
  | cons r x ih =>
    simp only [List.mapM_cons, Option.bind_eq_bind, Option.bind_eq_some_iff, Option.pure_def, Option.some.injEq] at h
    obtain ⟨r', _, y', h2, rfl⟩ := h
    simp [ih h2]

/-- **C171, argument, the other case.**  A mixed space overwrites an array: afterwards the caller's array holds the result. -/
theorem c171_overwritten {s : DesignSpace} (hs : s.cls = .general) {a : DesignArg} (h : IsArray a) {c : Converted}
    (hc : spaceRound s a = some c ∨ spaceToLinear s a = some c) : designRows c.argument = c.result := by
  have key : ∀ op, convertDesign op s a = some c → designRows c.argument = c.result := by
    intro op hc
    rw [convertDesign, hs] at hc
    simp only [convertGeneral, Option.bind_eq_some_iff] at hc
    obtain ⟨x, hm, hx⟩ := hc
    cases a with
    | rows _ => exact h.elim
    | row _ => exact h.elim
    | array _ _ => obtain ⟨y, _, rfl⟩ := Option.map_eq_some_iff.1 hx; rfl
    | vector _ _ =>
      obtain ⟨y, hy, rfl⟩ := Option.map_eq_some_iff.1 hx
      simp only [matrixOf, Option.some.injEq] at hm
      subst hm
      have := mapM_length hy
      obtain ⟨r, rfl⟩ := List.length_eq_one_iff.1 (by simpa using this)
      rfl
  exact hc.elim (key _) (key _)

private theorem row_again {vs : List (Option RealVar)} {r q : List DesignEntry} (h : RowConverted RealVar.round vs r q) (hf : FitsRow vs r)
    (hb : ∀ (i : ℕ) (v : RealVar) (x : ℝ), vs[i]? = some (some v) → r[i]? = some (.num x) → v.contains x) :
    FitsRow vs q ∧ ∀ q', RowConverted RealVar.round vs q q' → q' = q := by
  obtain ⟨h1, h2, h3⟩ := h
  have hnum : ∀ (i : ℕ) (v : RealVar), vs[i]? = some (some v) → ∃ x, r[i]? = some (DesignEntry.num x) := by
    intro i v hv
    have hi : i < vs.length := (List.getElem?_eq_some_iff.1 hv).1
    have := List.Forall₂.get hf hi (by omega)
    rw [List.get_eq_getElem, (List.getElem?_eq_some_iff.1 hv).2] at this
    obtain ⟨x, hx⟩ := this rfl
    exact ⟨x, List.getElem?_eq_some_iff.2 ⟨by omega, hx⟩⟩
  constructor
  · rw [FitsRow, List.forall₂_iff_get]
    refine ⟨h2.symm, fun i hi hq => fun hs => ?_⟩
    obtain ⟨v, hv⟩ := Option.isSome_iff_exists.1 hs
    have hv' : vs[i]? = some (some v) := List.getElem?_eq_some_iff.2 ⟨hi, hv⟩
    obtain ⟨x, hx⟩ := hnum i v hv'
    exact ⟨_, (List.getElem?_eq_some_iff.1 ((h3 i).1 v x hv' hx)).2⟩
  · rintro q' ⟨_, g2, g3⟩
    refine List.ext_getElem? fun i => ?_
    by_cases hi : i < vs.length
    · cases hv : vs[i] with
      | none => exact (g3 i).2 (List.getElem?_eq_some_iff.2 ⟨hi, hv⟩)
      | some v =>
        have hv' : vs[i]? = some (some v) := List.getElem?_eq_some_iff.2 ⟨hi, hv⟩
        obtain ⟨x, hx⟩ := hnum i v hv'
        have e1 := (h3 i).1 v x hv' hx
        rw [(g3 i).1 v _ hv' e1, e1]
        have hc := hb i v x hv' hx
        rw [c19_idempotent_partial v (le_trans hc.1 hc.2) x (.inl hc)]
    · rw [List.getElem?_eq_none (by omega), List.getElem?_eq_none (by omega)]

/-- **C171, rounding again.**  A design with all real values within their bounds and not in an array of integers: rounding what `round` returned changes
nothing. -/
theorem c171_again {s : DesignSpace} (hs : ProperSpace s) {a : DesignArg} (hne : designRows a ≠ [])
    (h : ∀ r ∈ designRows a, FitsRow s.vars r) (hint : s.cls = .general → ¬ IsIntArray a)
    (hb : ∀ r ∈ designRows a, ∀ (i : ℕ) (v : RealVar) (x : ℝ), s.vars[i]? = some (some v) → r[i]? = some (.num x) → v.contains x) {t : ElemType} (ht : t ≠ .int) :
    ∃ c c', spaceRound s a = some c ∧ spaceRound s (.array t c.result) = some c' ∧ c'.result = c.result := by
  obtain ⟨c, h1, h2⟩ := c171_round_partial hs hne h hint
  have hrow : ∀ q ∈ c.result, ∃ r ∈ designRows a, RowConverted RealVar.round s.vars r q := by
    intro q hq
    obtain ⟨i, hi, rfl⟩ := List.getElem_of_mem hq
    have hl := h2.length_eq
    exact ⟨(designRows a)[i]'(by omega), List.getElem_mem _, List.Forall₂.get h2 (by omega) hi⟩
  have hfit : ∀ q ∈ designRows (.array t c.result), FitsRow s.vars q := fun q hq => by
    obtain ⟨r, hr, hc⟩ := hrow q hq
    exact (row_again hc (h r hr) (hb r hr)).1
  obtain ⟨c', h3, h4⟩ := c171_round_partial (a := .array t c.result) hs (fun hn => hne (by
    have := h2.length_eq
    rw [show c.result = [] from hn] at this
    exact List.eq_nil_of_length_eq_zero this)) hfit fun _ => ht
  refine ⟨c, c', h1, h3, ?_⟩
  have hl := h4.length_eq
  refine List.ext_getElem (by exact hl.symm) fun i hi hi' => ?_
  obtain ⟨r, hr, hc⟩ := hrow _ (List.getElem_mem hi')
  exact (row_again hc (h r hr) (hb r hr)).2 _ (List.Forall₂.get h4 (by exact hi') hi)

/-! ### The two exceptions -/

/-- A real variable on a logarithmic scale and a variable of another type. -/
noncomputable def mixedLogSpace : DesignSpace := ⟨.general, [some { lo := 1, hi := 10, scale := .log }, none]⟩

/-- **C171 refuted.**  In a mixed space, `to_linear_scale` overwrites an array that it is given, so that calling it twice with the same array gives different
results; and in an array of integers the converted values are truncated: `1` becomes `2` instead of `e`. -/
theorem c171_refuted :
    ProperSpace mixedLogSpace ∧
    (∀ t ∈ [ElemType.object, ElemType.float], ∃ c c', spaceToLinear mixedLogSpace (.array t [[.num 1, .num 5]]) = some c ∧
      c.argument ≠ .array t [[.num 1, .num 5]] ∧ spaceToLinear mixedLogSpace c.argument = some c' ∧ c'.result ≠ c.result) ∧
    ∃ c, spaceToLinear mixedLogSpace (.array .int [[.num 1, .num 5]]) = some c ∧ c.result = [[.num 2, .num 5]] ∧
      ¬ List.Forall₂ (RowConverted (fun v x => scaleInv v.scale (some x)) mixedLogSpace.vars) [[.num 1, .num 5]] c.result := by
  have hne : Real.exp 1 ≠ 1 := by
    have := Real.add_one_lt_exp (one_ne_zero (α := ℝ))
    intro h
    linarith
  have he : (⌊Real.exp 1⌋ : ℝ) = 2 := by
    have h1 := Real.exp_one_gt_d9
    have h2 := Real.exp_one_lt_d9
    have : ⌊Real.exp 1⌋ = 2 := by
      rw [Int.floor_eq_iff]
      norm_num at h1 h2 ⊢
      constructor <;> linarith
    rw [this]
    norm_num
  have hrow : ∀ t x y, spaceToLinear mixedLogSpace (.array t [[.num x, .num y]]) =
      some ⟨[[.num (writeAs t (Real.exp x)), .num y]], .array t [[.num (writeAs t (Real.exp x)), .num y]]⟩ := by
    intro t x y
    simp only [spaceToLinear, convertDesign, mixedLogSpace, convertGeneral, matrixOf, Option.bind_some, overwriteRows, List.mapM_cons, List.mapM_nil,
      overwriteRow, Option.map_some, Option.bind_eq_bind, Option.pure_def, RealVar.toLinear, scaleInv]
  refine ⟨⟨by simp [mixedLogSpace], by simp [mixedLogSpace]⟩, fun t ht => ?_, ?_⟩
  · have hw : ∀ x, writeAs t x = x := write_exact (by
      rintro rfl
      simp at ht)
    refine ⟨_, _, hrow t 1 5, ?_, hrow t _ 5, ?_⟩
    · rw [hw]
      intro h
      simp only [DesignArg.array.injEq, List.cons.injEq, DesignEntry.num.injEq] at h
      exact hne h.2.1.1
    · rw [hw, hw]
      intro h
      simp only [List.cons.injEq, DesignEntry.num.injEq, Real.exp_eq_exp] at h
      exact hne h.1.1
  · have hw : writeAs .int (Real.exp 1) = 2 := by
      rw [writeAs, if_pos rfl, if_pos (Real.exp_pos 1).le, he]
    refine ⟨_, hrow .int 1 5, by rw [hw], ?_⟩
    rw [hw]
    intro h
    obtain ⟨_, _, h3⟩ := (List.forall₂_cons.1 h).1
    have := (h3 0).1 { lo := 1, hi := 10, scale := .log } 1 rfl rfl
    simp only [List.getElem?_cons_zero, Option.some.injEq, DesignEntry.num.injEq, scaleInv] at this
    have h1 := Real.exp_one_gt_d9
    norm_num at h1
    linarith

/-! ### A case -/

/-- A real variable with one digit and a categorical one; a list of two rows. -/
example :
    let s : DesignSpace := ⟨.general, [some { lo := 0, hi := 1, precision := some 1 }, none]⟩
    let a : DesignArg := .rows [[.num (1 / 3), .other "a"], [.num (2 / 3), .other "b"]]
    ProperSpace s ∧ designRows a ≠ [] ∧ (∀ r ∈ designRows a, FitsRow s.vars r) ∧ (s.cls = .general → ¬ IsIntArray a) ∧
    (s.cls = .general → ¬ IsArray a) ∧
    ∀ r ∈ designRows a, ∀ (i : ℕ) (v : RealVar) (x : ℝ), s.vars[i]? = some (some v) → r[i]? = some (.num x) → v.contains x := by
  refine ⟨⟨by simp, by simp⟩, by simp [designRows], ?_, fun _ h => h, fun _ h => h, ?_⟩
  · intro r hr
    simp only [designRows, List.mem_cons, List.not_mem_nil, or_false] at hr
    rcases hr with rfl | rfl <;> exact .cons (fun _ => ⟨_, rfl⟩) (.cons (by simp) .nil)
  · intro r hr i v x hv hx
    simp only [designRows, List.mem_cons, List.not_mem_nil, or_false] at hr
    match i with
    | 0 =>
      simp only [List.getElem?_cons_zero, Option.some.injEq] at hv
      subst hv
      rcases hr with rfl | rfl <;> simp only [List.getElem?_cons_zero, Option.some.injEq, DesignEntry.num.injEq] at hx <;> subst hx <;>
        constructor <;> norm_num
    | 1 => simp at hv
    | i + 2 => simp at hv

end Verif.Props
