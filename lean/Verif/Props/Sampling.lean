import Verif.Proofs.Sampling
import Verif.Props.Variables

/-!
# Properties C17, C18, C29, C55: sampling
-/
namespace Verif.Props
open Verif.Model Verif.Proofs

/-- A variable as the user should declare it: ordered bounds in the domain of the scale, a positive step and
integer bounds, at least one level. -/
def Proper : Kind → Prop
  | .real v => v.lo < v.hi ∧ v.lo ∈ scaleDomain v.scale ∧ v.hi ∈ scaleDomain v.scale
  | .integer v => v.lo < v.hi ∧ 0 < v.step
  | .ordinal l => l ≠ []
  | .discrete l => l ≠ []
  | .bool => True
  | .subset b => b ≠ []

/-- The two declarations for which sampling can leave the space: a logit scale with upper bound 1, and
integer variables with fractional bounds. -/
def Regular : Kind → Prop
  | .real v => v.scale = .logit → v.hi < 1
  | .integer v => (∃ z : ℤ, v.lo = z) ∧ ∃ z : ℤ, v.hi = z
  | _ => True

private theorem real_ok {v : RealVar} (h : Proper (.real v)) (h' : Regular (.real v)) :
    ∀ u, 0 ≤ u → u ≤ 1 → ∃ x, (Kind.real v).ofUniform u = some x ∧ (Kind.real v).contains x := by
  obtain ⟨hlt, hlo, hhi⟩ := h
  intro u hu0 hu1
  have hfin : ∀ x ∈ scaleDomain v.scale, (v.scale = .logit → x < 1) → ∃ y, scaleTrans v.scale x = some y := by
    intro x hx hne
    revert hx hne
    cases v.scale <;> intro hx hne
    · exact ⟨_, rfl⟩
    · exact ⟨_, rfl⟩
    · exact ⟨_, rfl⟩
    · simp only [scaleTrans]
      rw [if_neg (hne rfl).ne]
      exact ⟨_, rfl⟩
    · exact ⟨_, rfl⟩
  obtain ⟨l, hl⟩ := hfin v.lo hlo (fun hs => lt_trans hlt (h' hs))
  obtain ⟨r, hr⟩ := hfin v.hi hhi h'
  have h1 := c20_inverse v.scale v.lo hlo
  have h2 := c20_inverse v.scale v.hi hhi
  have h3 := c20_strictly_increasing v.scale v.lo v.hi hlo hhi hlt
  rw [hl] at h1 h3
  rw [hr] at h2 h3
  obtain ⟨x, hx, hc⟩ := realSample_of_finite v hl hr h1 h2 (le_of_lt h3) hlt.le hu0 hu1
  exact ⟨.real x, by simp [Kind.ofUniform, hx], hc⟩

private theorem subset_levels_ne {b : List Base} (h : b ≠ []) : Kind.levels (.subset b) ≠ [] := by
  cases b with
  | nil => exact absurd rfl h
  | cons a as =>
    have : Lvl.tup [a] ∈ Kind.levels (.subset (a :: as)) := by
      unfold Kind.levels
      rw [mem_dedupLevels, List.mem_map]
      exact ⟨[a], ((c56_subset_levels (a :: as)).1 [a]).2 ⟨by simp, by simp⟩, rfl⟩
    intro h'
    rw [h'] at this
    simp at this

private theorem disc_ok {k : Kind} (hk : k.vtype ≠ .real) (h : Proper k) (h' : Regular k) :
    0 < k.size ∧ ∀ i < k.size, ∃ v, k.ofDraw i = some v ∧ k.contains v := by
  have hlev : ∀ l : List Lvl, l ≠ [] → 0 < l.length ∧ ∀ i < l.length, ∃ x, l[i]? = some x ∧ x ∈ l := by
    intro l hl
    refine ⟨List.length_pos_iff.2 hl, fun i hi => ⟨l[i], List.getElem?_eq_getElem hi, List.getElem_mem hi⟩⟩
  cases k with
  | real v => exact absurd rfl hk
  | integer v =>
    obtain ⟨hlt, hs⟩ := h
    obtain ⟨⟨lo, hlo⟩, hi, hhi⟩ := h'
    constructor
    · show 0 < v.size.toNat
      unfold IntVar.size
      have : 0 ≤ (v.hi - v.lo) / v.step := div_nonneg (by linarith) hs.le
      have := Int.floor_nonneg.2 this
      omega
    · intro i hi'
      obtain ⟨z, hz, hc, _⟩ := intSample_spec v hlo hhi hlt hs hi'
      exact ⟨.int z, by simp [Kind.ofDraw, hz], hc⟩
  | ordinal l =>
    obtain ⟨h1, h2⟩ := hlev l h
    refine ⟨h1, fun i hi => ?_⟩
    obtain ⟨x, hx, hm⟩ := h2 i hi
    exact ⟨.lvl x, by simp [Kind.ofDraw, Kind.levels, hx], hm⟩
  | discrete l =>
    obtain ⟨h1, h2⟩ := hlev l h
    refine ⟨h1, fun i hi => ?_⟩
    obtain ⟨x, hx, hm⟩ := h2 i hi
    exact ⟨.lvl x, by simp [Kind.ofDraw, Kind.levels, hx], hm⟩
  | bool =>
    obtain ⟨h1, h2⟩ := hlev (Kind.levels .bool) (by simp [Kind.levels])
    refine ⟨h1, fun i hi => ?_⟩
    obtain ⟨x, hx, hm⟩ := h2 i hi
    exact ⟨.lvl x, by simp [Kind.ofDraw, hx], hm⟩
  | subset b =>
    obtain ⟨h1, h2⟩ := hlev (Kind.levels (.subset b)) (subset_levels_ne h)
    refine ⟨h1, fun i hi => ?_⟩
    obtain ⟨x, hx, hm⟩ := h2 i hi
    exact ⟨.lvl x, by simp [Kind.ofDraw, hx], hm⟩

private theorem group_get {G : Type*} {rng : Rng G} (hrng : rng.Valid) (g : G) (τ : VType) (ks : List Kind)
    (hτ : ∀ k ∈ ks, k.vtype = τ) (hp : ∀ k ∈ ks, Proper k) (hr : ∀ k ∈ ks, Regular k) (N c : ℕ) (k : Kind)
    (h : ks[c]? = some k) :
    ∃ col, (sampleGroup rng g τ ks N).1[c]? = some col ∧ ∀ i, ∃ v, col i = some v ∧ k.contains v := by
  unfold sampleGroup
  split_ifs with hreal
  · refine realCols_get rng (fun k => k.vtype = .real ∧ Proper k ∧ Regular k) hrng ?_ ks
      (fun k hk => ⟨hreal ▸ hτ k hk, hp k hk, hr k hk⟩) g N c k h
    rintro k ⟨h1, h2, h3⟩
    cases k with
    | real v => exact real_ok h2 h3
    | _ => simp [Kind.vtype] at h1
  · exact discCols_get rng hrng (fun k => k.vtype ≠ .real ∧ Proper k ∧ Regular k)
      (fun k hk => (disc_ok hk.1 hk.2.1 hk.2.2).2) (fun k hk => (disc_ok hk.1 hk.2.1 hk.2.2).1) ks
      (fun k hk => ⟨hτ k hk ▸ hreal, hp k hk, hr k hk⟩) g N c k h

/-- A row is a point of the space: one value per variable, each accepted by its variable. -/
def IsPoint (ks : List Kind) (row : List (Option Val)) : Prop :=
  row.length = ks.length ∧
    ∀ (j : ℕ) (k : Kind), ks[j]? = some k → ∃ v, row[j]? = some (some v) ∧ k.contains v

private theorem isPoint_toRows {ks : List Kind} {N : ℕ} {X : Cells}
    (h : ∀ (j : ℕ) (k : Kind), ks[j]? = some k → ∀ i, ∃ v, X i j = some v ∧ k.contains v) :
    (toRows N ks.length X).length = N ∧ ∀ row ∈ toRows N ks.length X, IsPoint ks row := by
  refine ⟨by simp [toRows], ?_⟩
  intro row hrow
  unfold toRows at hrow
  rw [List.mem_map] at hrow
  obtain ⟨i, _, rfl⟩ := hrow
  refine ⟨by simp, fun j k hk => ?_⟩
  obtain ⟨v, hv, hc⟩ := h j k hk i
  have hj := (List.getElem?_eq_some_iff.1 hk).1
  exact ⟨v, by simp [hj, hv], hc⟩

/-- C17, partial: `sample(N)` with `N >= 1` returns exactly `N` rows, each a point of the space, for every mix
of variables, every seed and every state of the random generator.  Missing: variables that are not
`Regular`, where it is false (`c17_logit_upper_bound_one`, `c17_fractional_bounds`). -/
theorem c17_sample_in_space_partial {G : Type*} (rng : Rng G) (hrng : rng.Valid) (fresh : VType → G)
    (seed : Option ℕ) (ks : List Kind) (hp : ∀ k ∈ ks, Proper k) (hr : ∀ k ∈ ks, Regular k)
    (hne : ks ≠ []) (N : ℕ) (hN : 0 < N) (g : G) :
    ∃ rows g', sampleFree rng fresh seed ks N g = some (rows, g') ∧ rows.length = N ∧
      ∀ row ∈ rows, IsPoint ks row := by
  have hemp : ks.isEmpty = false := by
    cases ks with
    | nil => exact absurd rfl hne
    | cons a as => rfl
  have hfree : sampleFree rng fresh seed ks N g = some (sampleRaw rng fresh seed ks N g) := by
    unfold sampleFree
    rw [if_neg]
    simp [hemp, hN.ne']
  refine ⟨(sampleRaw rng fresh seed ks N g).1, (sampleRaw rng fresh seed ks N g).2, hfree, ?_⟩
  unfold sampleRaw
  cases hpt : pureType ks with
  | some τ =>
    simp only []
    apply isPoint_toRows
    intro j k hk i
    obtain ⟨col, hcol, hall⟩ := group_get hrng g τ ks (pureType_spec hpt).2 hp hr N j k hk
    obtain ⟨v, hv, hc⟩ := hall i
    exact ⟨v, by simp [hcol, hv], hc⟩
  | none =>
    simp only [hemp, Bool.false_eq_true, if_false]
    have hmax : max N 1 = N := max_eq_left hN
    rw [hmax]
    apply isPoint_toRows
    intro j k hk
    -- every type step fills the columns of its type and leaves the others alone
    have hstep : ∀ (st : Cells × G) (τ : VType),
        (k.vtype = τ → ∀ i, ∃ v, (groupStep rng fresh seed ks N st τ).1 i j = some v ∧ k.contains v) ∧
        (k.vtype ≠ τ → ∀ i, (groupStep rng fresh seed ks N st τ).1 i j = st.1 i j) := by
      intro st τ
      constructor
      · intro hτ i
        have hmem : j ∈ typeIds ks τ := mem_typeIds.2 ⟨k, hk, hτ⟩
        have hie : (typeIds ks τ).isEmpty = false := by
          cases hids : typeIds ks τ with
          | nil => rw [hids] at hmem; simp at hmem
          | cons a as => rfl
        unfold groupStep
        simp only [hie, Bool.false_eq_true, if_false, assignCols, hmem, if_true]
        have hval : ∀ j ∈ typeIds ks τ, j < ks.length := by
          intro j hj
          obtain ⟨k', hk', _⟩ := mem_typeIds.1 hj
          exact (List.getElem?_eq_some_iff.1 hk').1
        have hget : ((typeIds ks τ).filterMap (fun j => ks[j]?))[(typeIds ks τ).idxOf j]? = some k := by
          rw [filterMap_get ks _ hval, List.getElem?_idxOf hmem]
          exact hk
        obtain ⟨col, hcol, hall⟩ := group_get hrng (reseed rng (fresh τ) seed) τ
          ((typeIds ks τ).filterMap (fun j => ks[j]?))
          (by
            intro k' hk'
            rw [List.mem_filterMap] at hk'
            obtain ⟨j', hj', hk'⟩ := hk'
            obtain ⟨k'', h1, h2⟩ := mem_typeIds.1 hj'
            rw [h1] at hk'
            cases hk'
            exact h2)
          (by
            intro k' hk'
            rw [List.mem_filterMap] at hk'
            obtain ⟨j', _, hk'⟩ := hk'
            exact hp k' (List.mem_of_getElem? hk'))
          (by
            intro k' hk'
            rw [List.mem_filterMap] at hk'
            obtain ⟨j', _, hk'⟩ := hk'
            exact hr k' (List.mem_of_getElem? hk')) N _ k hget
        obtain ⟨v, hv, hc⟩ := hall i
        exact ⟨v, by rw [hcol]; simpa using hv, hc⟩
      · intro hτ i
        have hmem : j ∉ typeIds ks τ := by
          intro h
          obtain ⟨k', h1, h2⟩ := mem_typeIds.1 h
          rw [hk] at h1
          cases h1
          exact hτ h2
        unfold groupStep
        dsimp only
        split_ifs
        · rfl
        · simp [assignCols, hmem]
    have hfold : ∀ (ts : List VType) (st : Cells × G),
        (k.vtype ∈ ts ∨ ∀ i, ∃ v, st.1 i j = some v ∧ k.contains v) →
        ∀ i, ∃ v, (ts.foldl (groupStep rng fresh seed ks N) st).1 i j = some v ∧ k.contains v := by
      intro ts
      induction ts with
      | nil =>
        rintro st (h | h) i
        · simp at h
        · exact h i
      | cons τ ts ih =>
        intro st h
        rw [List.foldl_cons]
        apply ih
        by_cases hτ : k.vtype = τ
        · right
          exact (hstep st τ).1 hτ
        · rcases h with h | h
          · left
            rw [List.mem_cons] at h
            exact h.resolve_left hτ
          · right
            intro i
            rw [(hstep st τ).2 hτ i]
            exact h i
    exact hfold supportedTypes (fun _ _ => none, g) (Or.inl (by cases k <;> simp [Kind.vtype, supportedTypes]))

/-- C17: sampled integers lie on the grid `lo, lo + step, ...` when bounds and step are integers. -/
theorem c17_integer_grid (v : IntVar) (lo hi st : ℤ) (hlo : v.lo = lo) (hhi : v.hi = hi) (hst : v.step = st)
    (hlt : v.lo < v.hi) (hs : 0 < v.step) (i : ℕ) (hi' : i < v.size.toNat) :
    v.sample i = some (lo + i * st) ∧ lo ≤ lo + i * st ∧ lo + i * st ≤ hi := by
  obtain ⟨z, hz, hc, he⟩ := intSample_spec v hlo hhi hlt hs hi'
  have : v.lo + i * v.step = ((lo + i * st : ℤ) : ℝ) := by rw [hlo, hst]; push_cast; ring
  rw [this, trunc_intCast] at he
  subst he
  unfold IntVar.contains at hc
  rw [hlo, hhi] at hc
  exact ⟨hz, by exact_mod_cast hc.1, by exact_mod_cast hc.2⟩

/-- C17 fails for a logit scale with upper bound 1: every sample is the bound 1 itself, or NaN. -/
theorem c17_logit_upper_bound_one (lo : ℝ) (h0 : 0 < lo) (h1 : lo < 1) (u : ℝ) :
    let v : RealVar := { lo := lo, hi := 1, scale := .logit }
    (u = 0 → v.sample u = none) ∧ (0 < u → v.sample u = some 1) := by
  intro v
  have hl : scaleTrans v.scale v.lo = some (Real.log (lo / (1 - lo))) := by
    show scaleTrans .logit lo = _
    simp only [scaleTrans]
    rw [if_neg h1.ne]
  have hh : scaleTrans v.scale v.hi = none := by
    show scaleTrans .logit 1 = _
    simp [scaleTrans]
  constructor
  · intro hu
    unfold RealVar.sample affine
    rw [hl, hh]
    simp [hu]
  · intro hu
    unfold RealVar.sample affine
    rw [hl, hh]
    simp [hu.ne', RealVar.round, RealVar.toLinear, scaleInv, v]

/-- C17 fails for fractional bounds: `Integer([0.5, 3])` can be sampled to 0, which is not in the variable. -/
theorem c17_fractional_bounds :
    let v : IntVar := { lo := 1 / 2, hi := 3, step := 1 }
    v.sample 0 = some 0 ∧ ¬ v.contains 0 := by
  intro v
  have hf : ⌊((3 : ℝ) - 1 / 2) / 1⌋ = 2 := by rw [Int.floor_eq_iff]; norm_num
  have hs : v.size = 3 := by
    unfold IntVar.size
    show ⌊((3 : ℝ) - 1 / 2) / 1⌋ + 1 = 3
    rw [hf]; norm_num
  constructor
  · unfold IntVar.sample
    rw [hs]
    have : trunc (v.lo + ((0 : ℤ) : ℝ) * v.step) = 0 := by
      show trunc (1 / 2 + ((0 : ℤ) : ℝ) * 1) = 0
      unfold trunc
      have : ⌊(1 / 2 : ℝ) + ((0 : ℤ) : ℝ) * 1⌋ = 0 := by rw [Int.floor_eq_iff]; norm_num
      rw [if_pos (by norm_num), this]
    rw [this]
    simp
  · unfold IntVar.contains
    show ¬ ((1 / 2 : ℝ) ≤ 0 ∧ (0 : ℝ) ≤ 3)
    norm_num

/-- C17, edge cases: asking for no points, or sampling an empty space, raises. -/
theorem c17_zero_points_or_empty_space_raise {G : Type*} (rng : Rng G) (fresh : VType → G) (seed : Option ℕ)
    (ks : List Kind) (N : ℕ) (g : G) (h : N = 0 ∨ ks = []) : sampleFree rng fresh seed ks N g = none := by
  unfold sampleFree
  rw [if_pos]
  rcases h with h | h <;> simp [h]

/-- A mixed space used for non-vacuity. -/
noncomputable def sampleKinds : List Kind :=
  [.real { lo := 1, hi := 100, precision := some 2, scale := .log }, .integer { lo := 0, hi := 10, step := 5 },
   .discrete [.one (.str "a"), .one (.str "b")], .bool, .subset [.str "u", .str "v"]]

theorem sampleKinds_ok : ∀ k ∈ sampleKinds, Proper k ∧ Regular k := by
  intro k hk
  simp only [sampleKinds, List.mem_cons, List.not_mem_nil, or_false] at hk
  rcases hk with rfl | rfl | rfl | rfl | rfl
  · refine ⟨⟨by norm_num, ?_, ?_⟩, by simp [Regular]⟩
    · show (1 : ℝ) ∈ Set.Ioi 0; norm_num
    · show (100 : ℝ) ∈ Set.Ioi 0; norm_num
  · exact ⟨⟨by norm_num, by norm_num⟩, ⟨0, by norm_num⟩, ⟨10, by norm_num⟩⟩
  · exact ⟨by simp [Proper], trivial⟩
  · exact ⟨trivial, trivial⟩
  · exact ⟨by simp [Proper], trivial⟩

/-- A generator that always draws the middle of the interval and level 0. -/
noncomputable def midRng : Rng Unit where
  uniform := fun _ _ _ => (fun _ _ => 1 / 2, ())
  randint := fun _ _ _ => (fun _ => 0, ())
  seed := fun _ => ()

example : midRng.Valid ∧ sampleKinds ≠ [] ∧ ∀ k ∈ sampleKinds, Proper k ∧ Regular k :=
  ⟨⟨fun _ _ _ _ _ => ⟨by simp [midRng], by simp [midRng]; norm_num⟩, fun _ _ _ _ h => h⟩,
   by simp [sampleKinds], sampleKinds_ok⟩

/-! ## C55: seeding -/

/-- C55 is false: for a space with variables of more than one type, the result of `sample` does not depend on
the state of the random generator.  With a seed, repeated calls return the same points; without one, the
points come from OS entropy, so seeding numpy (or the optimiser) does not make them reproducible. -/
theorem c55_mixed_space_ignores_generator {G : Type*} (rng : Rng G) (fresh : VType → G) (seed : Option ℕ)
    (ks : List Kind) (hne : ks ≠ []) (hmix : pureType ks = none) (N : ℕ) (g g' : G) :
    sampleRaw rng fresh seed ks N g = sampleRaw rng fresh seed ks N g' := by
  have hemp : ks.isEmpty = false := by
    cases ks with
    | nil => exact absurd rfl hne
    | cons a as => rfl
  unfold sampleRaw
  rw [hmix]
  simp only [hemp, Bool.false_eq_true, if_false]
  have hstep : ∀ (X : Cells) (τ : VType) (g g' : G), ¬ (typeIds ks τ).isEmpty = true →
      groupStep rng fresh seed ks (max N 1) (X, g) τ = groupStep rng fresh seed ks (max N 1) (X, g') τ := by
    intro X τ g g' h
    unfold groupStep
    simp only [h, if_false]
    rfl
  have hfold : ∀ (ts : List VType) (X : Cells), (∃ τ ∈ ts, ¬ (typeIds ks τ).isEmpty = true) →
      ts.foldl (groupStep rng fresh seed ks (max N 1)) (X, g) =
        ts.foldl (groupStep rng fresh seed ks (max N 1)) (X, g') := by
    intro ts
    induction ts with
    | nil => rintro X ⟨τ, h, _⟩; simp at h
    | cons τ ts ih =>
      intro X h
      rw [List.foldl_cons, List.foldl_cons]
      by_cases he : (typeIds ks τ).isEmpty = true
      · have : ∀ g, groupStep rng fresh seed ks (max N 1) (X, g) τ = (X, g) := by
          intro g
          unfold groupStep
          simp [he]
        rw [this, this]
        apply ih
        obtain ⟨τ', h1, h2⟩ := h
        rw [List.mem_cons] at h1
        rcases h1 with rfl | h1
        · exact absurd he h2
        · exact ⟨τ', h1, h2⟩
      · rw [hstep X τ g g' he]
  rw [hfold supportedTypes (fun _ _ => none)]
  cases ks with
  | nil => exact absurd rfl hne
  | cons k as =>
    refine ⟨k.vtype, by cases k <;> simp [Kind.vtype, supportedTypes], ?_⟩
    have : (0 : ℕ) ∈ typeIds (k :: as) k.vtype := mem_typeIds.2 ⟨k, by simp, rfl⟩
    intro h
    rw [List.isEmpty_iff] at h
    rw [h] at this
    simp at this

/-- C55, consequence: two successive samples of a seeded mixed space are equal. -/
theorem c55_seeded_samples_repeat {G : Type*} (rng : Rng G) (fresh : VType → G) (s : ℕ) (ks : List Kind)
    (hne : ks ≠ []) (hmix : pureType ks = none) (N : ℕ) (g : G) :
    let first := sampleRaw rng fresh (some s) ks N g
    (sampleRaw rng fresh (some s) ks N first.2).1 = first.1 := by
  intro first
  rw [c55_mixed_space_ignores_generator rng fresh (some s) ks hne hmix N first.2 g]

/-- C55: a seeded mixed space is a function of the seed: neither the generator state nor OS entropy matters. -/
theorem c55_seeded_reproducible {G : Type*} (rng : Rng G) (fresh fresh' : VType → G) (s : ℕ) (ks : List Kind)
    (hne : ks ≠ []) (hmix : pureType ks = none) (N : ℕ) (g g' : G) :
    sampleRaw rng fresh (some s) ks N g = sampleRaw rng fresh' (some s) ks N g' := by
  rw [c55_mixed_space_ignores_generator rng fresh (some s) ks hne hmix N g g']
  unfold sampleRaw
  rw [hmix]
  rfl

/-- C55, partial: a space with one type of variables draws from the current generator: the sample is a
function of the generator state alone, so seeding numpy beforehand makes it reproducible. -/
theorem c55_pure_space_reproducible_partial {G : Type*} (rng : Rng G) (fresh fresh' : VType → G)
    (seed seed' : Option ℕ) (ks : List Kind) (hpure : pureType ks ≠ none) (N : ℕ) (g : G) :
    sampleRaw rng fresh seed ks N g = sampleRaw rng fresh' seed' ks N g := by
  unfold sampleRaw
  cases h : pureType ks with
  | none => exact absurd h hpure
  | some τ => rfl

/-- The generator after successive `randint(0, size, N)` calls, one per size. -/
def afterDraws {G : Type*} (rng : Rng G) (g : G) (N : ℕ) (sizes : List ℕ) : G :=
  sizes.foldl (fun g s => (rng.randint g s N).2) g

private theorem discCols_eq {G : Type*} (rng : Rng G) (N : ℕ) : ∀ (ks : List Kind) (g : G),
    (discCols rng g ks N).2 = afterDraws rng g N (ks.map Kind.size) ∧
    ∀ (j : ℕ) (k : Kind), ks[j]? = some k → (discCols rng g ks N).1[j]? =
      some (fun i => k.ofDraw ((rng.randint (afterDraws rng g N ((ks.take j).map Kind.size)) k.size N).1 i))
  | [], g => ⟨rfl, by simp⟩
  | k :: ks, g => by
    obtain ⟨h1, h2⟩ := discCols_eq rng N ks (rng.randint g k.size N).2
    refine ⟨h1, ?_⟩
    intro j k' hk
    cases j with
    | zero =>
      rw [List.getElem?_cons_zero] at hk
      cases hk
      rfl
    | succ j =>
      rw [List.getElem?_cons_succ] at hk
      exact h2 j k' hk

/-- C55, partial: in a space of one categorical or integer type, variable `j` uses the `j`-th successive draw from
the generator, and the generator is left after all draws, so the next sample uses new draws. -/
theorem c55_discrete_draws_partial {G : Type*} (rng : Rng G) (fresh : VType → G) (seed : Option ℕ) (ks : List Kind)
    (τ : VType) (hpure : pureType ks = some τ) (hτ : τ ≠ .real) (N : ℕ) (g : G) :
    (sampleRaw rng fresh seed ks N g).2 = afterDraws rng g N (ks.map Kind.size) ∧
    ∀ (i j : ℕ) (k : Kind), i < N → ks[j]? = some k →
      ((sampleRaw rng fresh seed ks N g).1[i]?).bind (fun row => row[j]?) = some (k.ofDraw
        ((rng.randint (afterDraws rng g N ((ks.take j).map Kind.size)) k.size N).1 i)) := by
  obtain ⟨h1, h2⟩ := discCols_eq rng N ks g
  unfold sampleRaw
  rw [hpure]
  simp only [sampleGroup, hτ, if_false]
  refine ⟨h1, ?_⟩
  intro i j k hi hk
  have hj : j < ks.length := (List.getElem?_eq_some_iff.1 hk).1
  simp [toRows, hi, hj, h2 j k hk]

/-- C55, partial: in a space of real variables all coordinates come from one uniform design, and the generator is
left after that call. -/
theorem c55_real_draws_partial {G : Type*} (rng : Rng G) (fresh : VType → G) (seed : Option ℕ) (ks : List Kind)
    (hpure : pureType ks = some .real) (N : ℕ) (g : G) :
    (sampleRaw rng fresh seed ks N g).2 = (rng.uniform g N ks.length).2 ∧
    ∀ (i j : ℕ) (k : Kind), i < N → ks[j]? = some k →
      ((sampleRaw rng fresh seed ks N g).1[i]?).bind (fun row => row[j]?) =
        some (k.ofUniform ((rng.uniform g N ks.length).1 i j)) := by
  unfold sampleRaw
  rw [hpure]
  simp only [sampleGroup, if_true, realCols]
  refine ⟨trivial, ?_⟩
  intro i j k hi hk
  have hj : j < ks.length := (List.getElem?_eq_some_iff.1 hk).1
  have hk' : ks[j] = k := (List.getElem?_eq_some_iff.1 hk).2
  simp [toRows, hi, hj, hk']

example : sampleKinds ≠ [] ∧ pureType sampleKinds = none ∧
    pureType [.real { lo := 0, hi := 1 }, .real { lo := 2, hi := 3 }] = some .real ∧
    pureType [.bool, .bool] = some .bool := by
  refine ⟨by simp [sampleKinds], by simp [sampleKinds, pureType, Kind.vtype], by simp [pureType, Kind.vtype],
    by simp [pureType, Kind.vtype]⟩

/-! ## C29: the constrained random walk -/

/-- A full row inside the space. -/
def InSpace (ks : List Kind) (row : List Val) : Prop :=
  row.length = ks.length ∧ ∀ (j : ℕ) (k : Kind) (v : Val), ks[j]? = some k → row[j]? = some v → k.contains v

/-- The level lists on which `np.array` keeps the values: no strings, or only strings. -/
def UniformLevels (k : Kind) : Prop :=
  k.levels.any Lvl.isStr = false ∨ k.levels.all Lvl.isStr = true

private theorem npArray_eq {k : Kind} (h : UniformLevels k) : npArray k.levels = k.levels := by
  unfold npArray
  rcases h with h | h
  · simp [h]
  · split_ifs
    · conv_rhs => rw [← List.map_id k.levels]
      apply List.map_congr_left
      intro l hl
      have := List.all_eq_true.1 h l hl
      cases l with
      | one b =>
        cases b <;> simp [Lvl.isStr] at this
        rfl
      | tup _ => rfl
    · rfl

private theorem propose_contains {k : Kind} (hp : Proper k) (hr : Regular k) (hu : UniformLevels k) (n : Noise)
    (x : Val) (h : k.contains x) : k.contains (propose k n x) := by
  have hcat : ∀ l : Lvl, (∀ y ∈ k.levels, k.contains (.lvl y)) → k.contains (.lvl l) →
      k.contains (match n.level with
        | none => .lvl l
        | some i => ((npArray k.levels)[i]?).elim (.lvl l) .lvl) := by
    intro l hlv hl
    rw [npArray_eq hu]
    cases n.level with
    | none => exact hl
    | some i =>
      simp only []
      cases hi : k.levels[i]? with
      | none => simpa using hl
      | some y => simpa using hlv y (List.mem_of_getElem? hi)
  cases k with
  | real v =>
    cases x with
    | real x => exact clip_mem hp.1.le _
    | _ => exact absurd h (by simp [Kind.contains])
  | integer v =>
    cases x with
    | int z =>
      obtain ⟨⟨lo, hlo⟩, hi, hhi⟩ := hr
      have hm := clip_mem (x := (((z + n.ishift : ℤ)) : ℝ)) hp.1.le
      show v.contains _
      unfold IntVar.contains
      have t1 := le_trunc (lo := lo) (x := clip v.lo v.hi (((z + n.ishift : ℤ)) : ℝ)) (hlo ▸ hm.1)
      have t2 := trunc_le (hi := hi) (x := clip v.lo v.hi (((z + n.ishift : ℤ)) : ℝ)) (hhi ▸ hm.2)
      exact ⟨le_trans hlo.le (by exact_mod_cast t1), le_trans (by exact_mod_cast t2) hhi.ge⟩
    | _ => exact absurd h (by simp [Kind.contains])
  | ordinal l =>
    cases x with
    | lvl y => exact hcat y (fun y hy => hy) h
    | _ => exact absurd h (by simp [Kind.contains])
  | discrete l =>
    cases x with
    | lvl y => exact hcat y (fun y hy => hy) h
    | _ => exact absurd h (by simp [Kind.contains])
  | bool =>
    cases x with
    | lvl y => exact hcat y (fun y hy => hy) h
    | _ => exact absurd h (by simp [Kind.contains])
  | subset b =>
    cases x with
    | lvl y => exact hcat y (fun y hy => hy) h
    | _ => exact absurd h (by simp [Kind.contains])

private theorem mhRow_inSpace {ks : List Kind} (hp : ∀ k ∈ ks, Proper k) (hr : ∀ k ∈ ks, Regular k)
    (hu : ∀ k ∈ ks, UniformLevels k) (noise : ℕ → Noise) (accept : ℕ → Bool) (row : List Val)
    (h : InSpace ks row) : InSpace ks (mhRow ks noise accept row) := by
  unfold mhRow
  simp only []
  have hprop : ∀ (j : ℕ) (k : Kind) (v : Val), ks[j]? = some k →
      ((ks.zip row).zipIdx.map (fun kv => propose kv.1.1 (noise kv.2) kv.1.2))[j]? = some v → k.contains v := by
    intro j k v hk hv
    simp only [List.getElem?_map, List.getElem?_zipIdx, Option.map_eq_some_iff] at hv
    obtain ⟨⟨⟨k', x⟩, c⟩, ⟨⟨k'', x'⟩, hz, heq⟩, rfl⟩ := hv
    rw [List.getElem?_zip_eq_some] at hz
    simp only [Prod.mk.injEq] at heq
    obtain ⟨⟨rfl, rfl⟩, _⟩ := heq
    have hkk : k = k'' := by
      have := hz.1
      rw [hk] at this
      exact Option.some.inj this
    subst hkk
    have hkm := List.mem_of_getElem? hk
    exact propose_contains (hp _ hkm) (hr _ hkm) (hu _ hkm) _ _ (h.2 j _ _ hk hz.2)
  generalize (ks.zip row).zipIdx.map (fun kv => propose kv.1.1 (noise kv.2) kv.1.2) = prop at hprop
  generalize List.range ks.length = idx
  induction idx generalizing row with
  | nil => exact h
  | cons a as ih =>
    rw [List.foldl_cons]
    apply ih
    by_cases ha : accept a = true
    · rw [if_pos ha]
      cases hpa : prop[a]? with
      | none => simpa using h
      | some v =>
        simp only [Option.elim_some]
        refine ⟨by simpa using h.1, fun j k w hk hw => ?_⟩
        rw [List.getElem?_set] at hw
        split_ifs at hw with hja hlt
        · subst hja
          cases hw
          exact hprop _ _ _ hk hpa
        · exact h.2 j k w hk hw
    · rw [if_neg ha]
      exact h

/-- C29, partial: started in the space, the random walk stays in the space after any number of iterations,
for every noise and every acceptance pattern.  Missing: level lists mixing strings with other values
(`c29_mixed_levels_leave_space`), `Subset` variables (`c29_subset_raises`), irregular variables. -/
theorem c29_walk_in_space_partial (ks : List Kind) (hs : ∀ k ∈ ks, ∀ b, k ≠ .subset b)
    (hp : ∀ k ∈ ks, Proper k) (hr : ∀ k ∈ ks, Regular k)
    (hu : ∀ k ∈ ks, UniformLevels k) (noise : ℕ → ℕ → Noise) (accept : ℕ → ℕ → Bool) (t : ℕ)
    (row : List Val) (h : InSpace ks row) :
    ∃ out, scmcRun ks noise accept t row = some out ∧ InSpace ks out := by
  have hs' : scmcSupports ks := hs
  refine ⟨scmcRow ks noise accept t row, by unfold scmcRun; rw [if_pos (Or.inr hs')], ?_⟩
  induction t with
  | zero => exact h
  | succ t ih => exact mhRow_inSpace hp hr hu _ _ _ ih

/-- C29: constrained sampling of a space with a `Subset` variable raises. -/
theorem c29_subset_raises (ks : List Kind) (b : List Base) (hb : Kind.subset b ∈ ks)
    (noise : ℕ → ℕ → Noise) (accept : ℕ → ℕ → Bool) (t : ℕ) (ht : 0 < t) (row : List Val) :
    scmcRun ks noise accept t row = none := by
  unfold scmcRun
  rw [if_neg]
  rintro (h | h)
  · exact ht.ne' h
  · exact h _ hb b rfl

/-- C29 is false for a categorical variable with levels `"a"` and `1`: the walk produces the string `"1"`,
which is not a level. -/
theorem c29_mixed_levels_leave_space :
    let k : Kind := .discrete [.one (.str "a"), .one (.int 1)]
    scmcRun [k] (fun _ _ => { level := some 1 }) (fun _ _ => true) 1 [.lvl (.one (.str "a"))] =
      some [.lvl (.one (.str "1"))] ∧ ¬ k.contains (.lvl (.one (.str "1"))) := by
  constructor
  · have hn : npArray [.one (.str "a"), .one (.int 1)] = [Lvl.one (.str "a"), .one (.str "1")] := by decide
    simp [scmcRun, scmcSupports, scmcRow, mhRow, propose, Kind.levels, hn]
  · simp [Kind.contains]

/-- C29, remark: the step of an integer variable is not respected by the walk. -/
theorem c29_step_ignored :
    scmcRun [.integer { lo := 0, hi := 10, step := 5 }] (fun _ _ => { ishift := 3 }) (fun _ _ => true) 1
      [.int 0] = some [.int 3] := by
  have : trunc (clip 0 10 (((0 + 3 : ℤ)) : ℝ)) = 3 := by
    rw [clip_of_mem (by norm_num) (by norm_num)]
    exact trunc_intCast _
  simp only [scmcRun, scmcSupports, scmcRow, mhRow, propose]
  simp
  simpa using this

/-- Non-vacuity of `c29_walk_in_space_partial`. -/
example : let ks : List Kind := [.real { lo := 0, hi := 1 }, .discrete [.one (.str "a"), .one (.str "b")]]
    (∀ k ∈ ks, Proper k ∧ Regular k ∧ UniformLevels k ∧ ∀ b, k ≠ .subset b) ∧ InSpace ks [.real (1 / 2), .lvl (.one (.str "b"))] := by
  intro ks
  constructor
  · intro k hk
    simp only [ks, List.mem_cons, List.not_mem_nil, or_false] at hk
    rcases hk with rfl | rfl
    · exact ⟨⟨by norm_num, trivial, trivial⟩, by simp [Regular], Or.inl (by simp [Kind.levels]), by simp⟩
    · exact ⟨by simp [Proper], trivial, Or.inr (by simp [Kind.levels, Lvl.isStr]), by simp⟩
  · refine ⟨rfl, ?_⟩
    intro j k v hk hv
    match j with
    | 0 =>
      simp only [ks, List.getElem?_cons_zero, Option.some.injEq] at hk hv
      subst hk hv
      exact ⟨by norm_num, by norm_num⟩
    | 1 =>
      simp only [ks, List.getElem?_cons_succ, List.getElem?_cons_zero, Option.some.injEq] at hk hv
      subst hk hv
      show _ ∈ _
      simp
    | j + 2 => simp [ks] at hk

/-! ## C18: constrained samples -/

/-- A point is feasible. -/
def Feasible {R : Type*} (h g : R → List ℝ) (tol : ℝ) (x : R) : Prop :=
  (∀ c ∈ h x, |c| ≤ tol) ∧ ∀ c ∈ g x, c ≤ 0

/-- What `np.random.choice(n, N, replace=False)` returns. -/
def IsChoice (N n : ℕ) (l : List ℕ) : Prop := l.length = N ∧ l.Nodup ∧ ∀ i ∈ l, i < n

/-- C18: `sample(N, h, g)` returns at most `N` points, all feasible and all from the random walk (so in the
space by C29); exactly `N` when the walk produced that many feasible points, all of them otherwise. -/
theorem c18_feasible {R : Type*} (h g : R → List ℝ) (tol : ℝ) (N : ℕ) (S : List R) (pick : ℕ → List ℕ)
    (hpick : ∀ n, N ≤ n → IsChoice N n (pick n)) :
    let out := sampleConstrained h g tol N S pick
    (∀ x ∈ out, x ∈ S ∧ Feasible h g tol x) ∧ out.length ≤ N ∧
    (out.length < N → ∀ x ∈ S, Feasible h g tol x → x ∈ out) ∧ (S.Nodup → out.Nodup) := by
  classical
  unfold sampleConstrained
  simp only []
  set F := S.filter (fun x => decide ((∀ c ∈ h x, |c| ≤ tol) ∧ ∀ c ∈ g x, c ≤ 0)) with hF
  have hmem : ∀ x, x ∈ F ↔ x ∈ S ∧ Feasible h g tol x := by
    intro x
    rw [hF, List.mem_filter]
    simp [Feasible]
  split_ifs with hN
  · obtain ⟨h1, h2, h3⟩ := hpick F.length hN.le
    have hlen : ((pick F.length).filterMap (fun i => F[i]?)).length = N := by
      rw [← h1]
      have : ∀ l : List ℕ, (∀ i ∈ l, i < F.length) → (l.filterMap (fun i => F[i]?)).length = l.length := by
        intro l hl
        induction l with
        | nil => rfl
        | cons a as ih =>
          rw [List.filterMap_cons, List.getElem?_eq_getElem (hl a (by simp))]
          simp only [List.length_cons]
          rw [ih (fun i hi => hl i (by simp [hi]))]
      exact this _ h3
    refine ⟨?_, hlen.le, fun hlt => absurd hlt (by rw [hlen]; exact lt_irrefl _), ?_⟩
    · intro x hx
      rw [List.mem_filterMap] at hx
      obtain ⟨i, _, hi⟩ := hx
      exact (hmem x).1 (List.mem_of_getElem? hi)
    · intro hS
      have hFn : F.Nodup := hS.filter _
      apply List.Nodup.filterMap _ h2
      intro a a' b hb hb'
      rw [Option.mem_def, List.getElem?_eq_some_iff] at hb hb'
      obtain ⟨ha, e1⟩ := hb
      obtain ⟨ha', e2⟩ := hb'
      exact (List.Nodup.getElem_inj_iff hFn).1 (e1.trans e2.symm)
  · refine ⟨fun x hx => (hmem x).1 hx, not_lt.1 hN, fun _ x hx hf => (hmem x).2 ⟨hx, hf⟩, fun hS => ?_⟩
    exact hS.filter _

/-- Non-vacuity: three of four candidates are feasible, one is chosen. -/
example : IsChoice 1 3 [2] ∧ Feasible (fun x : ℝ => [x - 1]) (fun x => [x - 2]) (1 / 100) 1 := by
  refine ⟨⟨rfl, by simp, by simp⟩, ?_, ?_⟩ <;> simp <;> norm_num

end Verif.Props
