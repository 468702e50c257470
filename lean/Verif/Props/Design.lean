import Verif.Props.Distribution
import Verif.Spec.Design

/-!
# Property C195: the initial design is spread evenly
-/
namespace Verif.Props
open Verif.Model Verif.Spec Verif.Proofs

private theorem real_cell {G : Type*} (rng : Rng G) (fresh : VType → G) (seed : Option ℕ) (ks : List Kind) (N : ℕ) (hN : 0 < N) (g : G)
    (rows : List (List (Option Val))) (g' : G) (h : sampleFree rng fresh seed ks N g = some (rows, g')) (j : ℕ) (v : RealVar) (hj : ks[j]? = some (.real v)) :
    rows.length = N ∧ ∃ g1 d c, c < d ∧ ∀ i < N, entry rows i j = (v.sample ((rng.uniform g1 N d).1 i c)).map Val.real := by
  have hjl : j < ks.length := (List.getElem?_eq_some_iff.1 hj).1
  have hemp : ks.isEmpty = false := by
    cases ks with
    | nil => simp at hjl
    | cons a as => rfl
  unfold sampleFree at h
  rw [if_neg (by simp [hemp, hN.ne'])] at h
  have hrows : rows = (sampleRaw rng fresh seed ks N g).1 := by rw [Option.some.inj h]
  have entry_toRows : ∀ X : Cells, ∀ i < N, entry (toRows N ks.length X) i j = X i j := by
    intro X i hi
    simp [entry, toRows, hi, hjl]
  subst hrows
  unfold sampleRaw
  cases hpt : pureType ks with
  | some τ =>
    have hτ : VType.real = τ := (pureType_spec hpt).2 _ (List.mem_of_getElem? hj)
    subst hτ
    simp only
    refine ⟨by simp [toRows], g, ks.length, j, hjl, fun i hi => ?_⟩
    rw [entry_toRows _ i hi]
    simp only [sampleGroup, if_true, realCols]
    simp [hj, Kind.ofUniform]
  | none =>
    simp only [hemp, Bool.false_eq_true, if_false]
    rw [max_eq_left (by omega : 1 ≤ N)]
    have hmem : j ∈ typeIds ks .real := mem_typeIds.2 ⟨_, hj, rfl⟩
    have hie : (typeIds ks .real).isEmpty = false := by
      cases hids : typeIds ks .real with
      | nil => rw [hids] at hmem; simp at hmem
      | cons a as => rfl
    have hval : ∀ j ∈ typeIds ks .real, j < ks.length := by
      intro j hj
      obtain ⟨k', hk', _⟩ := mem_typeIds.1 hj
      exact (List.getElem?_eq_some_iff.1 hk').1
    have hget : ((typeIds ks .real).filterMap (fun j => ks[j]?))[(typeIds ks .real).idxOf j]? = some (.real v) := by
      rw [filterMap_get ks _ hval, List.getElem?_idxOf hmem]
      exact hj
    refine ⟨by simp [toRows], reseed rng (fresh .real) seed, ((typeIds ks .real).filterMap (fun j => ks[j]?)).length, (typeIds ks .real).idxOf j,
      (List.getElem?_eq_some_iff.1 hget).1, fun i hi => ?_⟩
    rw [entry_toRows _ i hi]
    have other : ∀ (ts : List VType) (st : Cells × G), VType.real ∉ ts → (ts.foldl (groupStep rng fresh seed ks N) st).1 i j = st.1 i j := by
      intro ts
      induction ts with
      | nil => intro st _; rfl
      | cons τ ts ih =>
        intro st ht
        rw [List.foldl_cons, ih _ (fun h => ht (by simp [h]))]
        have hn : j ∉ typeIds ks τ := by
          intro hm
          obtain ⟨k', h1, h2⟩ := mem_typeIds.1 hm
          rw [hj] at h1
          cases h1
          exact ht (by rw [← h2]; simp [Kind.vtype])
        unfold groupStep
        dsimp only
        split_ifs
        · rfl
        · simp [assignCols, hn]
    have es : supportedTypes = .real :: [.integer, .ordinal, .discrete, .bool, .subset] := rfl
    rw [es, List.foldl_cons, other _ _ (by simp)]
    unfold groupStep
    simp only [hie, Bool.false_eq_true, if_false, assignCols, hmem, if_true, sampleGroup, realCols]
    simp [hget, Kind.ofUniform]

private theorem axis_range {v : RealVar} (hp : Proper (.real v)) (hr : Regular (.real v)) : axis v.scale v.lo < axis v.scale v.hi :=
  axis_lt hp.2.1 hp.2.2 hr hp.1

private theorem sample_share {v : RealVar} (hp : Proper (.real v)) (hr : Regular (.real v)) (hprec : v.precision = none) {u : ℝ} (h0 : 0 ≤ u) (h1 : u ≤ 1) :
    ∃ x, v.sample u = some x ∧ (v.lo ≤ x ∧ x ≤ v.hi) ∧ share v.scale v.lo v.hi v.lo x = u := by
  obtain ⟨x, hx, hs, ha⟩ := sample_point hp hr h0 h1
  have hax := axis_range hp hr
  refine ⟨x, by rw [hs, RealVar.round, hprec], hx, ?_⟩
  unfold share
  rw [ha, add_sub_cancel_left, mul_div_assoc, div_self (by linarith), mul_one]

/-- **C195.**  A design of `N ≥ 2` points without constraints has, for each real variable without a precision, exactly one point in each of the `N` equal parts of its
range, measured on its scale; whatever other variables the space has. -/
theorem c195_one_per_part_partial {G : Type*} (rng : Rng G) (hrng : rng.Valid) (hl : LatinDesigns rng) (fresh : VType → G) (seed : Option ℕ) (ks : List Kind) (N : ℕ)
    (hN : 2 ≤ N) (g : G) (rows : List (List (Option Val))) (g' : G) (h : sampleFree rng fresh seed ks N g = some (rows, g')) (j : ℕ) (v : RealVar)
    (hj : ks[j]? = some (.real v)) (hp : Proper (.real v)) (hr : Regular (.real v)) (hprec : v.precision = none) :
    rows.length = N ∧ ∀ k < N, ∃! i, i < N ∧ ∃ x, entry rows i j = some (.real x) ∧ InPart v N k x := by
  obtain ⟨hlen, g1, d, c, hc, hcell⟩ := real_cell rng fresh seed ks N (by omega) g rows g' h j v hj
  refine ⟨hlen, fun k hk => ?_⟩
  have key : ∀ i < N, (∃ x, entry rows i j = some (.real x) ∧ InPart v N k x) ↔
      (k / N : ℝ) ≤ (rng.uniform g1 N d).1 i c ∧ (rng.uniform g1 N d).1 i c < (k + 1) / N := by
    intro i hi
    obtain ⟨h0, h1⟩ := hrng.1 g1 N d i c
    obtain ⟨x, hx, -, hs⟩ := sample_share hp hr hprec h0 h1
    rw [hcell i hi, hx]
    constructor
    · rintro ⟨x', e, hin⟩
      cases e
      unfold InPart at hin
      rwa [hs] at hin
    · intro hin
      exact ⟨x, rfl, by unfold InPart; rwa [hs]⟩
  obtain ⟨i, ⟨hi, hin⟩, huniq⟩ := hl g1 N d c hN hc k hk
  refine ⟨i, ⟨hi, (key i hi).2 hin⟩, ?_⟩
  rintro i' ⟨hi', hx'⟩
  exact huniq i' ⟨hi', (key i' hi').1 hx'⟩

/-- **C195.**  So no large gap remains: every interval whose share of the range is `2 / N` or more contains a point of the design. -/
theorem c195_no_gap_partial {G : Type*} (rng : Rng G) (hrng : rng.Valid) (hl : LatinDesigns rng) (fresh : VType → G) (seed : Option ℕ) (ks : List Kind) (N : ℕ)
    (hN : 2 ≤ N) (g : G) (rows : List (List (Option Val))) (g' : G) (h : sampleFree rng fresh seed ks N g = some (rows, g')) (j : ℕ) (v : RealVar)
    (hj : ks[j]? = some (.real v)) (hp : Proper (.real v)) (hr : Regular (.real v)) (hprec : v.precision = none)
    (a b : ℝ) (ha : v.lo ≤ a) (hab : a ≤ b) (hb : b ≤ v.hi) (hshare : 2 / N ≤ share v.scale v.lo v.hi a b) :
    ∃ i < N, ∃ x, entry rows i j = some (.real x) ∧ a ≤ x ∧ x ≤ b := by
  obtain ⟨hlen, g1, d, c, hc, hcell⟩ := real_cell rng fresh seed ks N (by omega) g rows g' h j v hj
  have hax := axis_range hp hr
  have hN0 : (0 : ℝ) < N := by exact_mod_cast (by omega : 0 < N)
  have dom : ∀ x, v.lo ≤ x → x ≤ v.hi → x ∈ scaleDomain v.scale ∧ (v.scale = .logit → x < 1) := by
    intro x h1 h2
    obtain ⟨_, hlo, hhi⟩ := hp
    refine ⟨?_, fun hs => lt_of_le_of_lt h2 (hr hs)⟩
    revert hlo hhi
    cases v.scale <;> intro hlo hhi
    · trivial
    · exact lt_of_lt_of_le hlo h1
    · exact lt_of_lt_of_le hlo h1
    · exact ⟨lt_of_lt_of_le hlo.1 h1, h2.trans hhi.2⟩
    · trivial
  have mono : ∀ x y, v.lo ≤ x → x ≤ v.hi → v.lo ≤ y → y ≤ v.hi → axis v.scale x ≤ axis v.scale y → x ≤ y := by
    intro x y hx1 hx2 hy1 hy2 hle
    by_contra hlt
    exact absurd (axis_lt (dom y hy1 hy2).1 (dom x hx1 hx2).1 (dom x hx1 hx2).2 (not_le.1 hlt)) (not_lt.2 hle)
  have mono' : ∀ x y, v.lo ≤ x → x ≤ v.hi → v.lo ≤ y → y ≤ v.hi → x ≤ y → axis v.scale x ≤ axis v.scale y := by
    intro x y hx1 hx2 hy1 hy2 hle
    rcases eq_or_lt_of_le hle with rfl | hlt
    · exact le_rfl
    · exact (axis_lt (dom x hx1 hx2).1 (dom y hy1 hy2).1 (dom y hy1 hy2).2 hlt).le
  set sa := share v.scale v.lo v.hi v.lo a with hsa
  set sb := share v.scale v.lo v.hi v.lo b with hsb
  have hsum : sb - sa = share v.scale v.lo v.hi a b := by rw [hsa, hsb]; unfold share; ring
  have hsa0 : 0 ≤ sa := div_nonneg (by linarith [mono' v.lo a le_rfl hp.1.le ha (hab.trans hb) ha]) (by linarith)
  have hsb1 : sb ≤ 1 := by
    rw [hsb]; unfold share
    rw [div_le_one (by linarith)]
    linarith [mono' b v.hi (ha.trans hab) hb hp.1.le le_rfl hb]
  set k := ⌈sa * N⌉₊ with hk
  have hk1 : sa ≤ k / N := by rw [le_div_iff₀ hN0]; exact Nat.le_ceil _
  have hk2 : (k + 1 : ℝ) / N ≤ sb := by
    have := Nat.ceil_lt_add_one (mul_nonneg hsa0 hN0.le)
    rw [← hk] at this
    have h2 : (k + 1 : ℝ) ≤ sa * N + 2 := by linarith
    calc (k + 1 : ℝ) / N ≤ (sa * N + 2) / N := div_le_div_of_nonneg_right h2 hN0.le
      _ = sa + 2 / N := by field_simp
      _ ≤ sb := by linarith
  have hkN : k < N := by
    have : (k + 1 : ℝ) ≤ N := by
      have := hk2.trans hsb1
      rwa [div_le_one hN0] at this
    exact_mod_cast this
  obtain ⟨i, ⟨hi, hin1, hin2⟩, -⟩ := hl g1 N d c hN hc k hkN
  obtain ⟨h0, h1⟩ := hrng.1 g1 N d i c
  obtain ⟨x, hx, ⟨hx1, hx2⟩, hs⟩ := sample_share hp hr hprec h0 h1
  refine ⟨i, hi, x, by rw [hcell i hi, hx]; rfl, ?_, ?_⟩
  · refine mono a x ha (hab.trans hb) hx1 hx2 ?_
    have : sa ≤ share v.scale v.lo v.hi v.lo x := by rw [hs]; linarith
    rw [hsa] at this
    unfold share at this
    rw [div_le_div_iff_of_pos_right (by linarith)] at this
    linarith
  · refine mono x b hx1 hx2 (ha.trans hab) hb ?_
    have : share v.scale v.lo v.hi v.lo x ≤ sb := by rw [hs]; linarith
    rw [hsb] at this
    unfold share at this
    rw [div_le_div_iff_of_pos_right (by linarith)] at this
    linarith

/-- **C195.**  The points of such a design differ, so none is dropped as a duplicate. -/
theorem c195_distinct_partial {G : Type*} (rng : Rng G) (hrng : rng.Valid) (hl : LatinDesigns rng) (fresh : VType → G) (seed : Option ℕ) (ks : List Kind) (N : ℕ)
    (hN : 2 ≤ N) (g : G) (rows : List (List (Option Val))) (g' : G) (h : sampleFree rng fresh seed ks N g = some (rows, g')) (j : ℕ) (v : RealVar)
    (hj : ks[j]? = some (.real v)) (hp : Proper (.real v)) (hr : Regular (.real v)) (hprec : v.precision = none) : rows.Nodup := by
  obtain ⟨hlen, hpart⟩ := c195_one_per_part_partial rng hrng hl fresh seed ks N hN g rows g' h j v hj hp hr hprec
  -- the map from parts to rows is injective, hence onto
  choose f hf _ using fun k : Fin N => hpart k k.2
  have hinj : Function.Injective fun k : Fin N => (⟨f k, (hf k).1⟩ : Fin N) := by
    intro k k' e
    have e' : f k = f k' := congrArg Fin.val e
    obtain ⟨-, x, hx, h1, h2⟩ := hf k
    obtain ⟨-, x', hx', h3, h4⟩ := hf k'
    rw [e', hx'] at hx
    cases hx
    have hN0 : (0 : ℝ) < N := by exact_mod_cast (by omega : 0 < N)
    have g1 : (k : ℝ) < k' + 1 := by have := h1.trans_lt h4; rwa [div_lt_div_iff_of_pos_right hN0] at this
    have g2 : (k' : ℝ) < k + 1 := by have := h3.trans_lt h2; rwa [div_lt_div_iff_of_pos_right hN0] at this
    have g1' : (k : ℕ) < k' + 1 := by exact_mod_cast g1
    have g2' : (k' : ℕ) < k + 1 := by exact_mod_cast g2
    exact Fin.ext (by omega)
  have hsurj := Finite.surjective_of_injective hinj
  rw [List.nodup_iff_injective_getElem]
  rintro ⟨i, hi⟩ ⟨i', hi'⟩ e
  rw [hlen] at hi hi'
  obtain ⟨k, hk⟩ := hsurj ⟨i, hi⟩
  have hki : f k = i := congrArg Fin.val hk
  obtain ⟨i0, -, huniq⟩ := hpart k k.2
  have a1 : i = i0 := huniq i ⟨hi, by rw [← hki]; exact (hf k).2⟩
  have a2 : i' = i0 := huniq i' ⟨hi', by
    have e2 : entry rows i' j = entry rows i j := by
      unfold entry
      rw [List.getElem?_eq_getElem (by omega), List.getElem?_eq_getElem (by omega)]
      simp only at e
      rw [e]
    rw [e2, ← hki]
    exact (hf k).2⟩
  exact Fin.ext (a1.trans a2.symm)

/-- **C195, refuted with a precision.**  Of a variable on `[0, 1]` rounded to integers, four points never fall into the second quarter. -/
theorem c195_precision_refuted {G : Type*} (rng : Rng G) (fresh : VType → G) (seed : Option ℕ) (g : G) (rows : List (List (Option Val))) (g' : G)
    (h : sampleFree rng fresh seed [.real { lo := 0, hi := 1, precision := some 0 }] 4 g = some (rows, g')) :
    ¬ ∃ i < 4, ∃ x, entry rows i 0 = some (.real x) ∧ InPart { lo := 0, hi := 1, precision := some 0 } 4 1 x := by
  obtain ⟨-, g1, d, c, hc, hcell⟩ := real_cell rng fresh seed _ 4 (by omega) g rows g' h 0 { lo := 0, hi := 1, precision := some 0 } rfl
  rintro ⟨i, hi, x, hx, h1, h2⟩
  rw [hcell i hi] at hx
  simp only [RealVar.sample, scaleTrans, affine, Option.map_some, RealVar.round, RealVar.toLinear, scaleInv, npRound, zpow_zero, mul_one, div_one] at hx
  have hx := Option.some.inj hx
  simp only [Val.real.injEq] at hx
  simp only [share, axis] at h1 h2
  norm_num at h1 h2
  rw [← hx] at h1 h2
  unfold clip at h1 h2
  generalize rint _ = z at h1 h2
  rcases lt_trichotomy z 0 with hz | hz | hz
  · have : (z : ℝ) < 0 := by exact_mod_cast hz
    rw [max_eq_right this.le, min_eq_left (by norm_num)] at h1
    norm_num at h1
  · rw [hz] at h1
    norm_num at h1
  · have : (1 : ℝ) ≤ z := by exact_mod_cast hz
    rw [max_eq_left (by linarith), min_eq_right this] at h2
    norm_num at h2

/-- A generator whose designs are Latin hypercubes and whose integer draws are all zero. -/
noncomputable def latinRng : Rng Unit where
  uniform := fun _ N _ => (fun i _ => if i < N then (i / N : ℝ) else 0, ())
  randint := fun _ _ _ => (fun _ => 0, ())
  seed := fun _ => ()

theorem latinRng_ok : latinRng.Valid ∧ LatinDesigns latinRng := by
  refine ⟨⟨fun g N d i j => ?_, fun g s N i hs => hs⟩, fun g N d j hN hj k hk => ?_⟩
  · simp only [latinRng]
    split_ifs with hi
    · have h0 : (0 : ℝ) < N := by exact_mod_cast (by omega : 0 < N)
      refine ⟨by positivity, ?_⟩
      rw [div_le_one h0]
      exact_mod_cast hi.le
    · norm_num
  · have h0 : (0 : ℝ) < N := by exact_mod_cast (by omega : 0 < N)
    refine ⟨k, ⟨hk, ?_, ?_⟩, ?_⟩
    · simp [latinRng, hk]
    · simp only [latinRng, hk, if_true]
      exact div_lt_div_of_pos_right (by linarith) h0
    · rintro i ⟨hi, h1, h2⟩
      simp only [latinRng, hi, if_true] at h1 h2
      rw [div_le_div_iff_of_pos_right h0] at h1
      rw [div_lt_div_iff_of_pos_right h0] at h2
      have a1 : k ≤ i := by exact_mod_cast h1
      have a2 : i < k + 1 := by exact_mod_cast h2
      omega

/-- **C195, refuted for the other variables.**  Integer variables are drawn independently even in a Latin hypercube design: all four points may agree. -/
theorem c195_integer_refuted : latinRng.Valid ∧ LatinDesigns latinRng ∧ ∃ rows, sampleFree latinRng (fun _ => ()) none [.integer { lo := 0, hi := 3 }] 4 () = some (rows, ()) ∧
    ∀ i < 4, entry rows i 0 = some (.int 0) := by
  refine ⟨latinRng_ok.1, latinRng_ok.2, _, rfl, fun i hi => ?_⟩
  have hz : ({ lo := 0, hi := 3 } : IntVar).sample 0 = some 0 := by
    norm_num [IntVar.sample, IntVar.size, trunc]
  have : i = 0 ∨ i = 1 ∨ i = 2 ∨ i = 3 := by omega
  rcases this with rfl | rfl | rfl | rfl <;> simp [entry, sampleGroup, discCols, latinRng, toRows, Kind.ofDraw, Kind.vtype, hz]

/-- A mixed space with a logarithmic variable. -/
example : ∃ rows, sampleFree latinRng (fun _ => ()) none [.bool, .real { lo := 1, hi := 100, scale := .log10 }] 5 () = some (rows, ()) ∧
    ∀ k < 5, ∃! i, i < 5 ∧ ∃ x, entry rows i 1 = some (.real x) ∧ InPart { lo := 1, hi := 100, scale := .log10 } 5 k x := by
  refine ⟨(sampleRaw latinRng (fun _ => ()) none [.bool, .real { lo := 1, hi := 100, scale := .log10 }] 5 ()).1, rfl, ?_⟩
  exact (c195_one_per_part_partial latinRng latinRng_ok.1 latinRng_ok.2 (fun _ => ()) none [.bool, .real { lo := 1, hi := 100, scale := .log10 }] 5 (by norm_num) () _ () rfl 1 _ rfl
    ⟨by norm_num, by simp [scaleDomain], by simp [scaleDomain]⟩ (fun h => by cases h) rfl).2

end Verif.Props
