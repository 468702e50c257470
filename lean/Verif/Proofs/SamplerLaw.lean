import Verif.Spec.SamplerLaw
import Verif.Proofs.Metropolis
import Mathlib.Probability.Independence.Basic

namespace Verif.Proofs
open Verif.Model Verif.Spec MeasureTheory ProbabilityTheory

/-! ### The table as rows on their own -/

/-- One update of the cell of variable `k` at position `i`. -/
noncomputable def catMove (prob : ℝ) (ℓ : List Val → ℝ) (k : Kind) (i : ℕ) (d : ℝ × ℕ × ℝ) (x : List Val) : List Val :=
  let y := if d.1 < prob then (k.levels[d.2.1]?).elim x (fun l => x.set i (.lvl l)) else x
  if d.2.2 ≤ min 1 (Real.exp (ℓ y - ℓ x)) then y else x

/-- A row after `m` updates. -/
noncomputable def catChain (prob : ℝ) (ℓ : List Val → ℝ) (ks : List Kind) (d : ℕ → ℝ × ℕ × ℝ) (x : List Val) : ℕ → List Val
  | 0 => x
  | m + 1 => (ks[m % ks.length]?).elim (catChain prob ℓ ks d x m) fun k => catMove prob ℓ k (m % ks.length) (d m) (catChain prob ℓ ks d x m)

theorem contains_iff {k : Kind} (h : k.vtype = .ordinal ∨ k.vtype = .discrete ∨ k.vtype = .bool) (v : Val) : k.contains v ↔ ∃ l ∈ k.levels, v = .lvl l := by
  cases k <;> cases v <;> simp [Kind.vtype] at h <;> simp [Kind.contains, Kind.levels]

theorem rowOf_length {ks : List Kind} {x : List Val} (h : RowOf ks x) : x.length = ks.length := h.length_eq.symm

theorem rowOf_set {ks : List Kind} {x : List Val} (h : RowOf ks x) {i : ℕ} {k : Kind} (hk : ks[i]? = some k) {v : Val} (hv : k.contains v) : RowOf ks (x.set i v) := by
  unfold RowOf at *
  rw [List.forall₂_iff_get] at h ⊢
  obtain ⟨h1, h2⟩ := h
  refine ⟨by simp [h1], fun j hj1 hj2 => ?_⟩
  simp only [List.get_eq_getElem, List.getElem_set]
  by_cases hij : i = j
  · subst hij
    rw [if_pos rfl]
    rw [List.getElem?_eq_getElem hj1] at hk
    cases hk
    exact hv
  · rw [if_neg hij]
    exact h2 j hj1 (by simpa using hj2)

theorem rowOf_cell {ks : List Kind} {x : List Val} (h : RowOf ks x) {i : ℕ} {k : Kind} (hk : ks[i]? = some k) : ∃ v, x[i]? = some v ∧ k.contains v := by
  unfold RowOf at h
  rw [List.forall₂_iff_get] at h
  obtain ⟨h1, h2⟩ := h
  obtain ⟨hi, rfl⟩ := List.getElem?_eq_some_iff.1 hk
  exact ⟨x[i]'(h1 ▸ hi), List.getElem?_eq_getElem _, h2 i hi (h1 ▸ hi)⟩

theorem catMove_row {ks : List Kind} (hc : Categorical ks) (prob : ℝ) (ℓ : List Val → ℝ) {i : ℕ} {k : Kind} (hk : ks[i]? = some k) (d : ℝ × ℕ × ℝ) {x : List Val}
    (h : RowOf ks x) : RowOf ks (catMove prob ℓ k i d x) := by
  unfold catMove
  dsimp only
  split
  · split
    · cases hl : k.levels[d.2.1]? with
      | none => exact h
      | some l => exact rowOf_set h hk ((contains_iff (hc.kind k (List.mem_of_getElem? hk)) _).2 ⟨l, List.mem_of_getElem? hl, rfl⟩)
    · exact h
  · split <;> exact h

theorem catChain_row {ks : List Kind} (hc : Categorical ks) (prob : ℝ) (ℓ : List Val → ℝ) (d : ℕ → ℝ × ℕ × ℝ) {x : List Val} (h : RowOf ks x) (m : ℕ) :
    RowOf ks (catChain prob ℓ ks d x m) := by
  induction m with
  | zero => exact h
  | succ m ih =>
    rw [catChain]
    cases hk : ks[m % ks.length]? with
    | none => exact ih
    | some k => exact catMove_row hc prob ℓ hk _ ih

theorem catMove_other (prob : ℝ) (ℓ : List Val → ℝ) (k : Kind) (i j : ℕ) (hij : i ≠ j) (d : ℝ × ℕ × ℝ) (x : List Val) : (catMove prob ℓ k i d x)[j]? = x[j]? := by
  unfold catMove
  dsimp only
  split
  · split
    · cases hl : k.levels[d.2.1]? with
      | none => rfl
      | some l => simp [hij]
    · rfl
  · split <;> rfl

theorem propose_level {k : Kind} (h : k.vtype = .ordinal ∨ k.vtype = .discrete ∨ k.vtype = .bool) (hn : npArray k.levels = k.levels) (prob r : ℝ) (l : ℕ) (v : Val) :
    propose k (levelNoise prob r l) v = if r < prob then (k.levels[l]?).elim v .lvl else v := by
  cases k <;> simp [Kind.vtype] at h <;> simp only [propose, levelNoise] <;> split <;> simp_all

theorem proposeRow_get (ks : List Kind) (noise : ℕ → Noise) (x : List Val) (i : ℕ) (k : Kind) (v : Val) (hk : ks[i]? = some k) (hv : x[i]? = some v) :
    (proposeRow ks noise x)[i]? = some (propose k (noise i) v) := by
  unfold proposeRow
  rw [List.getElem?_map, List.getElem?_zipIdx, (List.getElem?_zip_eq_some (z := (k, v))).2 ⟨hk, hv⟩]
  simp

theorem set_self {x : List Val} {i : ℕ} {v : Val} (h : x[i]? = some v) : x.set i v = x := by
  obtain ⟨hi, rfl⟩ := List.getElem?_eq_some_iff.1 h
  exact List.set_getElem_self hi

/-- The whole table after `i` of the updates of a step, as rows on their own. -/
theorem coordinate_rows {ks : List Kind} (hc : Categorical ks) (limit prob : ℝ) (ℓ : List Val → ℝ) (logp : List Val → Option ℝ) (hl : ∀ x, RowOf ks x → logp x = some (ℓ x))
    (hlim : ∀ x y, RowOf ks x → RowOf ks y → ℓ y - ℓ x ≤ limit) {i : ℕ} {k : Kind} (hk : ks[i]? = some k) (X0 X : List (List Val)) (hX : ∀ x ∈ X, RowOf ks x)
    (hlen : X0.length = X.length) (hsame : ∀ (a : ℕ) (x0 x : List Val), X0[a]? = some x0 → X[a]? = some x → x0[i]? = x[i]?)
    (d : ℕ → ℝ × ℕ × ℝ) (noise : ℕ → ℕ → Noise) (hnoise : ∀ a, noise a i = levelNoise prob (d a).1 (d a).2.1) :
    mhCoordinate limit logp (X0.zipIdx.map fun ra => proposeRow ks (noise ra.2) ra.1) ((List.range X.length).map fun a => (d a).2.2) i (X, X.map ℓ) =
      some (X.zipIdx.map (fun ra => catMove prob ℓ k i (d ra.2) ra.1), (X.zipIdx.map fun ra => catMove prob ℓ k i (d ra.2) ra.1).map ℓ) := by
  set PR := X0.zipIdx.map fun ra => proposeRow ks (noise ra.2) ra.1 with hPR
  have hPl : PR.length = X.length := by simp [hPR, hlen]
  have hT := takeColumn_length i X PR hPl
  have hkc := hc.kind k (List.mem_of_getElem? hk)
  -- the proposal of a row
  have hmv : ∀ (a : ℕ) (x : List Val), X[a]? = some x → ∃ p, PR[a]? = some p ∧
      moved i x p = (if (d a).1 < prob then (k.levels[(d a).2.1]?).elim x (fun l => x.set i (.lvl l)) else x) ∧ RowOf ks (moved i x p) := by
    intro a x hx
    have hxm := hX x (List.mem_of_getElem? hx)
    obtain ⟨v, hv, hcv⟩ := rowOf_cell hxm hk
    have ha : a < X.length := (List.getElem?_eq_some_iff.1 hx).1
    have hx0 := List.getElem?_eq_getElem (l := X0) (i := a) (by omega)
    have hv0 : (X0[a]'(by omega))[i]? = some v := by rw [hsame a _ _ hx0 hx]; exact hv
    refine ⟨proposeRow ks (noise a) (X0[a]'(by omega)), ?_, ?_⟩
    · rw [hPR, List.getElem?_map, List.getElem?_zipIdx, hx0]
      simp
    · have hmoved : moved i x (proposeRow ks (noise a) (X0[a]'(by omega))) = x.set i (propose k (noise a i) v) := by
        unfold moved
        rw [proposeRow_get ks _ _ i k v hk hv0]
        rfl
      have he : moved i x (proposeRow ks (noise a) (X0[a]'(by omega))) = (if (d a).1 < prob then (k.levels[(d a).2.1]?).elim x (fun l => x.set i (.lvl l)) else x) := by
        rw [hmoved, hnoise, propose_level hkc (hc.kept k (List.mem_of_getElem? hk))]
        split
        · cases k.levels[(d a).2.1]? with
          | none => exact set_self hv
          | some l => rfl
        · exact set_self hv
      refine ⟨he, ?_⟩
      rw [he]
      split
      · cases hlv : k.levels[(d a).2.1]? with
        | none => exact hxm
        | some l => exact rowOf_set hxm hk ((contains_iff hkc _).2 ⟨l, List.mem_of_getElem? hlv, rfl⟩)
      · exact hxm
  have hcache : X.mapM logp = some (X.map ℓ) := by
    rw [mapM_some_iff]
    refine ⟨by simp, fun j a b ha hb => ?_⟩
    rw [List.getElem?_map, ha] at hb
    cases hb
    exact hl a (hX a (List.mem_of_getElem? ha))
  have htake : ∀ (a : ℕ) (z : List Val), (takeColumn i X PR)[a]? = some z → RowOf ks z := by
    intro a z hz
    have ha : a < X.length := by rw [← hT]; exact (List.getElem?_eq_some_iff.1 hz).1
    have hx := List.getElem?_eq_getElem ha
    obtain ⟨p, hp, -, hr⟩ := hmv a _ hx
    rw [takeColumn_get i a X PR _ p hx hp] at hz
    cases hz
    exact hr
  have hm2 : (takeColumn i X PR).mapM logp = some ((takeColumn i X PR).map ℓ) := by
    rw [mapM_some_iff]
    refine ⟨by simp, fun j a b ha hb => ?_⟩
    rw [List.getElem?_map, ha] at hb
    cases hb
    exact hl a (htake j a ha)
  unfold mhCoordinate
  dsimp only
  rw [hm2, Option.map_some]
  set u := (List.range X.length).map fun a => (d a).2.2 with hudef
  have hul : u.length = X.length := by simp [hudef]
  set mask := acceptMask limit (X.map ℓ) ((takeColumn i X PR).map ℓ) u with hmask
  have hlist : whereMask mask X (takeColumn i X PR) = X.zipIdx.map (fun ra => catMove prob ℓ k i (d ra.2) ra.1) := by
    have hml : mask.length = X.length := by
      rw [hmask, acceptMask_length] <;> simp [hT, hul]
    apply List.ext_getElem?
    intro a
    by_cases ha : a < X.length
    · have hx := List.getElem?_eq_getElem ha
      obtain ⟨p, hp, he, hr⟩ := hmv a _ hx
      have ht := takeColumn_get i a X PR _ p hx hp
      have hnolim : ¬ ∃ e ∈ List.zipWith (fun a b => b - a) (X.map ℓ) ((takeColumn i X PR).map ℓ), limit < e := by
        rintro ⟨e, hem, hlt⟩
        obtain ⟨j, hj⟩ := List.getElem?_of_mem hem
        rw [List.getElem?_zipWith, List.getElem?_map, List.getElem?_map] at hj
        cases h1 : X[j]? with
        | none => rw [h1] at hj; simp at hj
        | some x1 =>
          cases h2 : (takeColumn i X PR)[j]? with
          | none => rw [h1, h2] at hj; simp at hj
          | some x2 =>
            rw [h1, h2] at hj
            simp only [Option.map_some, Option.some.injEq] at hj
            have := hlim x1 x2 (hX x1 (List.mem_of_getElem? h1)) (htake j x2 h2)
            linarith
      have hmk : mask[a]? = some (decide ((d a).2.2 ≤ min 1 (Real.exp (ℓ (moved i X[a] p) - ℓ X[a])))) := by
        rw [hmask]
        unfold acceptMask acceptProbs
        dsimp only
        rw [if_neg hnolim, hudef]
        simp only [List.getElem?_zipWith, List.getElem?_map, hx, ht, List.getElem?_range ha, Option.map_some, Option.some.injEq, decide_eq_decide]
        rw [max_eq_right (Real.exp_pos _).le]
      rw [whereMask_get mask X _ a _ _ _ hmk hx ht, List.getElem?_map, List.getElem?_zipIdx, hx]
      simp only [Option.map_some, Nat.zero_add, Option.some.injEq, decide_eq_true_eq]
      unfold catMove
      dsimp only
      rw [he]
    · rw [List.getElem?_eq_none (by rw [whereMask_length _ _ _ hml hT]; omega), List.getElem?_eq_none (by simp; omega)]
  rw [hlist]
  congr 2
  have hml : mask.length = X.length := by
    rw [hmask, acceptMask_length] <;> simp [hT, hul]
  rw [← hlist]
  unfold whereMask
  apply List.ext_getElem?
  intro a
  simp only [List.getElem?_zipWith, List.getElem?_map]
  cases hm : mask[a]? with
  | none => simp
  | some b =>
    simp only [List.zip_map, List.getElem?_map]
    cases (X.zip (takeColumn i X PR))[a]? with
    | none => rfl
    | some q => cases b <;> rfl

theorem catChain_later (prob : ℝ) (ℓ : List Val → ℝ) (ks : List Kind) (d : ℕ → ℝ × ℕ × ℝ) (x : List Val) (k i j : ℕ) (hi : i ≤ j) (hj : j < ks.length) :
    (catChain prob ℓ ks d x (k * ks.length + i))[j]? = (catChain prob ℓ ks d x (k * ks.length))[j]? := by
  induction i with
  | zero => rfl
  | succ i ih =>
    have hm : (k * ks.length + i) % ks.length = i := by
      rw [Nat.mul_add_mod_self_right, Nat.mod_eq_of_lt (by omega)]
    rw [← add_assoc, catChain, hm, List.getElem?_eq_getElem (by omega : i < ks.length)]
    show (catMove _ _ _ _ _ _)[j]? = _
    rw [catMove_other _ _ _ i j (by omega)]
    exact ih (by omega)

/-- The table after `m` cell updates. -/
noncomputable def catTable (prob : ℝ) (ℓ : List Val → ℝ) (ks : List Kind) (D : ℕ → ℕ → ℝ × ℕ × ℝ) (X : List (List Val)) (m : ℕ) : List (List Val) :=
  X.zipIdx.map fun ra => catChain prob ℓ ks (fun m => D m ra.2) ra.1 m

theorem catTable_length (prob : ℝ) (ℓ : List Val → ℝ) (ks : List Kind) (D : ℕ → ℕ → ℝ × ℕ × ℝ) (X : List (List Val)) (m : ℕ) : (catTable prob ℓ ks D X m).length = X.length := by
  simp [catTable]

theorem catTable_get (prob : ℝ) (ℓ : List Val → ℝ) (ks : List Kind) (D : ℕ → ℕ → ℝ × ℕ × ℝ) (X : List (List Val)) (m a : ℕ) :
    (catTable prob ℓ ks D X m)[a]? = (X[a]?).map fun x => catChain prob ℓ ks (fun m => D m a) x m := by
  unfold catTable
  rw [List.getElem?_map, List.getElem?_zipIdx]
  cases X[a]? <;> simp

theorem catTable_row {ks : List Kind} (hc : Categorical ks) (prob : ℝ) (ℓ : List Val → ℝ) (D : ℕ → ℕ → ℝ × ℕ × ℝ) {X : List (List Val)} (hX : ∀ x ∈ X, RowOf ks x) (m : ℕ) :
    ∀ x ∈ catTable prob ℓ ks D X m, RowOf ks x := by
  intro x hx
  obtain ⟨a, ha⟩ := List.getElem?_of_mem hx
  rw [catTable_get] at ha
  obtain ⟨x0, h0, rfl⟩ := Option.map_eq_some_iff.1 ha
  exact catChain_row hc prob ℓ _ (hX x0 (List.mem_of_getElem? h0)) m

theorem sweep_rows {ks : List Kind} (hc : Categorical ks) (limit prob : ℝ) (ℓ : List Val → ℝ) (logp : List Val → Option ℝ) (hl : ∀ x, RowOf ks x → logp x = some (ℓ x))
    (hlim : ∀ x y, RowOf ks x → RowOf ks y → ℓ y - ℓ x ≤ limit) (X : List (List Val)) (hX : ∀ x ∈ X, RowOf ks x) (D : ℕ → ℕ → ℝ × ℕ × ℝ)
    (k i : ℕ) (hi : i ≤ ks.length) :
    (List.range i).foldlM (fun s i => mhCoordinate limit logp ((catTable prob ℓ ks D X (k * ks.length)).zipIdx.map fun ra =>
        proposeRow ks (fun j => levelNoise prob (D (k * ks.length + j) ra.2).1 (D (k * ks.length + j) ra.2).2.1) ra.1)
        ((List.range X.length).map fun a => (D (k * ks.length + i) a).2.2) i s)
      (catTable prob ℓ ks D X (k * ks.length), (catTable prob ℓ ks D X (k * ks.length)).map ℓ) =
    some (catTable prob ℓ ks D X (k * ks.length + i), (catTable prob ℓ ks D X (k * ks.length + i)).map ℓ) := by
  induction i with
  | zero => rfl
  | succ i ih =>
    rw [List.range_succ, List.foldlM_append, ih (by omega)]
    have hk := List.getElem?_eq_getElem (show i < ks.length by omega)
    have h := coordinate_rows hc limit prob ℓ logp hl hlim hk (catTable prob ℓ ks D X (k * ks.length)) (catTable prob ℓ ks D X (k * ks.length + i))
      (catTable_row hc prob ℓ D hX _) (by simp [catTable_length]) (by
        intro a x0 x h0 h1
        rw [catTable_get] at h0 h1
        obtain ⟨z, hz, rfl⟩ := Option.map_eq_some_iff.1 h0
        rw [hz] at h1
        cases h1
        exact (catChain_later prob ℓ ks _ z k i i le_rfl (by omega)).symm)
      (D (k * ks.length + i)) (fun a j => levelNoise prob (D (k * ks.length + j) a).1 (D (k * ks.length + j) a).2.1) (fun a => rfl)
    rw [catTable_length] at h
    rw [Option.bind_eq_bind, Option.bind_some, List.foldlM_cons]
    have hstep : (catTable prob ℓ ks D X (k * ks.length + i)).zipIdx.map (fun ra => catMove prob ℓ ks[i] i (D (k * ks.length + i) ra.2) ra.1) =
        catTable prob ℓ ks D X (k * ks.length + (i + 1)) := by
      have hm : (k * ks.length + i) % ks.length = i := by
        rw [Nat.mul_add_mod_self_right, Nat.mod_eq_of_lt (by omega)]
      apply List.ext_getElem?
      intro a
      rw [List.getElem?_map, List.getElem?_zipIdx, catTable_get, catTable_get, ← add_assoc]
      cases X[a]? with
      | none => rfl
      | some x =>
        simp only [Option.map_some, catChain, hm, hk, Option.elim_some, Nat.zero_add]
    rw [h, hstep]
    rfl

/-- One pass of the sampler updates every row on its own. -/
theorem pass_rows {ks : List Kind} (hc : Categorical ks) (limit prob : ℝ) (ℓ : List Val → ℝ) (logp : List Val → Option ℝ) (hl : ∀ x, RowOf ks x → logp x = some (ℓ x))
    (hlim : ∀ x y, RowOf ks x → RowOf ks y → ℓ y - ℓ x ≤ limit) (X : List (List Val)) (hX : ∀ x ∈ X, RowOf ks x) (D : ℕ → ℕ → ℝ × ℕ × ℝ)
    (steps : ℕ) :
    scmcPass limit logp ks steps (fun k a j => levelNoise prob (D (k * ks.length + j) a).1 (D (k * ks.length + j) a).2.1) (fun k a j => (D (k * ks.length + j) a).2.2) X =
      some (catTable prob ℓ ks D X (steps * ks.length)) := by
  have hcache : X.mapM logp = some (X.map ℓ) := by
    rw [mapM_some_iff]
    refine ⟨by simp, fun j a b ha hb => ?_⟩
    rw [List.getElem?_map, ha] at hb
    cases hb
    exact hl a (hX a (List.mem_of_getElem? ha))
  have h0 : catTable prob ℓ ks D X 0 = X := by
    apply List.ext_getElem?
    intro a
    rw [catTable_get]
    cases X[a]? <;> rfl
  unfold scmcPass metropolisHastings
  rw [hcache, Option.bind_some]
  unfold mhLoop
  suffices h : (List.range steps).foldlM (fun s k => mhSweep limit logp ks.length (s.1.zipIdx.map fun ra =>
      proposeRow ks (fun j => levelNoise prob (D (k * ks.length + j) ra.2).1 (D (k * ks.length + j) ra.2).2.1) ra.1)
      (fun j => (List.range X.length).map fun a => (D (k * ks.length + j) a).2.2) s) (X, X.map ℓ) =
      some (catTable prob ℓ ks D X (steps * ks.length), (catTable prob ℓ ks D X (steps * ks.length)).map ℓ) by
    rw [h]
    rfl
  induction steps with
  | zero => rw [Nat.zero_mul, h0]; rfl
  | succ n ih =>
    rw [List.range_succ, List.foldlM_append, ih]
    rw [Option.bind_eq_bind, Option.bind_some, List.foldlM_cons]
    have := sweep_rows hc limit prob ℓ logp hl hlim X hX D n ks.length le_rfl
    unfold mhSweep
    dsimp only at this ⊢
    rw [this, show (n + 1) * ks.length = n * ks.length + ks.length by ring]
    rfl

/-! ### The law of one update -/

instance drawLaw_prob (L : ℕ) [NeZero L] : IsProbabilityMeasure (drawLaw L) := by
  have h1 : IsProbabilityMeasure (volume.restrict (Set.Ico (0 : ℝ) 1)) := ⟨by simp⟩
  have h2 : IsProbabilityMeasure (uniformOn (Set.Iio L)) := isProbabilityMeasure_uniformOn (Set.finite_Iio L) ⟨0, NeZero.pos L⟩
  unfold drawLaw
  infer_instance

/-- The probability of the step from `x` to `y`. -/
noncomputable def stepProb (prob : ℝ) (ℓ : List Val → ℝ) (k : Kind) (i : ℕ) (x y : List Val) : ℝ :=
  (drawLaw k.levels.length).real {d | catMove prob ℓ k i d x = y}

theorem catMove_measurable (prob : ℝ) (ℓ : List Val → ℝ) (k : Kind) (i : ℕ) (x y : List Val) : MeasurableSet {d : ℝ × ℕ × ℝ | catMove prob ℓ k i d x = y} := by
  have h : ∀ z : List Val, MeasurableSet {d : ℝ × ℕ × ℝ | (if d.2.2 ≤ min 1 (Real.exp (ℓ z - ℓ x)) then z else x) = y} := by
    intro z
    have hle : MeasurableSet {d : ℝ × ℕ × ℝ | d.2.2 ≤ min 1 (Real.exp (ℓ z - ℓ x))} := measurableSet_le measurable_snd.snd measurable_const
    have e : {d : ℝ × ℕ × ℝ | (if d.2.2 ≤ min 1 (Real.exp (ℓ z - ℓ x)) then z else x) = y} =
        ({d : ℝ × ℕ × ℝ | d.2.2 ≤ min 1 (Real.exp (ℓ z - ℓ x))} ∩ {_d | z = y}) ∪ ({d : ℝ × ℕ × ℝ | d.2.2 ≤ min 1 (Real.exp (ℓ z - ℓ x))}ᶜ ∩ {_d | x = y}) := by
      ext d
      simp only [Set.mem_ofPred_eq, Set.mem_union, Set.mem_inter_iff, Set.mem_compl_iff]
      by_cases hd : d.2.2 ≤ min 1 (Real.exp (ℓ z - ℓ x)) <;> simp [hd]
    rw [e]
    exact (hle.inter (MeasurableSet.const _)).union (hle.compl.inter (MeasurableSet.const _))
  have e : {d : ℝ × ℕ × ℝ | catMove prob ℓ k i d x = y} =
      ({d : ℝ × ℕ × ℝ | d.1 < prob} ∩ ⋃ n : ℕ, {d : ℝ × ℕ × ℝ | d.2.1 = n} ∩
        {d | (if d.2.2 ≤ min 1 (Real.exp (ℓ ((k.levels[n]?).elim x (fun l => x.set i (.lvl l))) - ℓ x)) then (k.levels[n]?).elim x (fun l => x.set i (.lvl l)) else x) = y}) ∪
      ({d : ℝ × ℕ × ℝ | d.1 < prob}ᶜ ∩ {d | (if d.2.2 ≤ min 1 (Real.exp (ℓ x - ℓ x)) then x else x) = y}) := by
    ext d
    unfold catMove
    simp only [Set.mem_ofPred_eq, Set.mem_union, Set.mem_inter_iff, Set.mem_compl_iff, Set.mem_iUnion]
    by_cases hd : d.1 < prob <;> simp [hd]
  rw [e]
  have hr : MeasurableSet {d : ℝ × ℕ × ℝ | d.1 < prob} := measurableSet_lt measurable_fst measurable_const
  refine (hr.inter (MeasurableSet.iUnion fun n => ?_)).union (hr.compl.inter (h x))
  exact (measurableSet_eq_fun measurable_snd.fst measurable_const).inter (h _)

/-- The probability that a new level is drawn. -/
noncomputable def redrawn (prob : ℝ) : ℝ := (volume.restrict (Set.Ico (0 : ℝ) 1)).real (Set.Iio prob)

theorem redrawn_pos {prob : ℝ} (h : 0 < prob) : 0 < redrawn prob := by
  unfold redrawn
  rw [measureReal_restrict_apply measurableSet_Iio]
  have : Set.Ico 0 (min prob 1) ⊆ Set.Iio prob ∩ Set.Ico (0 : ℝ) 1 := fun z hz => ⟨hz.2.trans_le (min_le_left _ _), hz.1, hz.2.trans_le (min_le_right _ _)⟩
  refine lt_of_lt_of_le ?_ (measureReal_mono this (measure_ne_top_of_subset Set.inter_subset_right (by simp)))
  rw [Real.volume_real_Ico_of_le (le_min h.le zero_le_one), sub_zero]
  exact lt_min h one_pos

theorem box_prob (prob e : ℝ) (he : 0 ≤ e) (L n : ℕ) (hn : n < L) :
    (drawLaw L).real (Set.Iio prob ×ˢ ({n} ×ˢ Set.Iic e)) = redrawn prob * ((L : ℝ)⁻¹ * min 1 e) := by
  have hL : NeZero L := ⟨by omega⟩
  have h1 : IsProbabilityMeasure (volume.restrict (Set.Ico (0 : ℝ) 1)) := ⟨by simp⟩
  have h2 : IsProbabilityMeasure (uniformOn (Set.Iio L)) := isProbabilityMeasure_uniformOn (Set.finite_Iio L) ⟨0, NeZero.pos L⟩
  unfold drawLaw
  rw [measureReal_prod_prod, measureReal_prod_prod]
  congr 2
  · have hs : (Set.Iio L : Set ℕ) = ((Finset.range L : Finset ℕ) : Set ℕ) := by ext z; simp
    have ht : ({n} : Set ℕ) = (({n} : Finset ℕ) : Set ℕ) := by simp
    rw [measureReal_def, hs, ht, uniformOn_apply_finset, Finset.inter_singleton_of_mem (by simpa using hn)]
    simp
  · rw [measureReal_restrict_apply measurableSet_Iic]
    rcases lt_or_ge e 1 with h | h
    · have : Set.Iic e ∩ Set.Ico (0 : ℝ) 1 = Set.Icc 0 e := by
        ext z
        simp only [Set.mem_inter_iff, Set.mem_Iic, Set.mem_Ico, Set.mem_Icc]
        exact ⟨fun h => ⟨h.2.1, h.1⟩, fun g => ⟨g.2, g.1, g.2.trans_lt h⟩⟩
      rw [this, Real.volume_real_Icc_of_le he, sub_zero, min_eq_right h.le]
    · have : Set.Iic e ∩ Set.Ico (0 : ℝ) 1 = Set.Ico 0 1 := by
        ext z
        simp only [Set.mem_inter_iff, Set.mem_Iic, Set.mem_Ico]
        exact ⟨fun h => h.2, fun g => ⟨g.2.le.trans h, g⟩⟩
      rw [this, Real.volume_real_Ico_of_le zero_le_one, sub_zero, min_eq_left h]

theorem box_subset (prob : ℝ) (ℓ : List Val → ℝ) (k : Kind) (i : ℕ) (x : List Val) (n : ℕ) (l : Lvl) (hl : k.levels[n]? = some l) :
    Set.Iio prob ×ˢ ({n} ×ˢ Set.Iic (min 1 (Real.exp (ℓ (x.set i (.lvl l)) - ℓ x)))) ⊆ {d : ℝ × ℕ × ℝ | catMove prob ℓ k i d x = x.set i (.lvl l)} := by
  rintro ⟨r, m, u⟩ ⟨h1, h2, h3⟩
  simp only [Set.mem_Iio, Set.mem_singleton_iff, Set.mem_Iic] at h1 h2 h3
  subst h2
  unfold catMove
  simp only [Set.mem_ofPred_eq, if_pos h1, hl, Option.elim_some, if_pos h3]

theorem stepProb_lower (prob : ℝ) (ℓ : List Val → ℝ) (k : Kind) (i : ℕ) (x : List Val) (n : ℕ) (l : Lvl) (hl : k.levels[n]? = some l) :
    redrawn prob * ((k.levels.length : ℝ)⁻¹ * min 1 (Real.exp (ℓ (x.set i (.lvl l)) - ℓ x))) ≤ stepProb prob ℓ k i x (x.set i (.lvl l)) := by
  have hn : n < k.levels.length := (List.getElem?_eq_some_iff.1 hl).1
  have hL : NeZero k.levels.length := ⟨by omega⟩
  rw [← min_eq_right (min_le_left 1 (Real.exp (ℓ (x.set i (.lvl l)) - ℓ x))), ← box_prob prob _ (le_min zero_le_one (Real.exp_pos _).le) _ n hn]
  exact measureReal_mono (box_subset prob ℓ k i x n l hl)

theorem catMove_stay (prob : ℝ) (ℓ : List Val → ℝ) (k : Kind) (i : ℕ) (x : List Val) (r : ℝ) (m : ℕ) (u : ℝ) (h : ¬ r < prob ∨ k.levels[m]? = none) :
    catMove prob ℓ k i (r, m, u) x = x := by
  have : (if r < prob then (k.levels[m]?).elim x (fun l => x.set i (.lvl l)) else x) = x := by
    rcases h with h | h
    · rw [if_neg h]
    · rw [h]; simp
  unfold catMove
  dsimp only
  rw [this]
  simp

theorem catMove_draw (prob : ℝ) (ℓ : List Val → ℝ) (k : Kind) (i : ℕ) (x : List Val) (r : ℝ) (m : ℕ) (u : ℝ) (h : r < prob) (l : Lvl) (hl : k.levels[m]? = some l) :
    catMove prob ℓ k i (r, m, u) x = if u ≤ min 1 (Real.exp (ℓ (x.set i (.lvl l)) - ℓ x)) then x.set i (.lvl l) else x := by
  have : (if r < prob then (k.levels[m]?).elim x (fun l => x.set i (.lvl l)) else x) = x.set i (.lvl l) := by
    rw [if_pos h, hl]; rfl
  unfold catMove
  dsimp only
  rw [this]

theorem stepProb_move (prob : ℝ) (ℓ : List Val → ℝ) (k : Kind) (hnd : k.levels.Nodup) (i : ℕ) (x : List Val) (hi : i < x.length) (n : ℕ) (l : Lvl) (hl : k.levels[n]? = some l)
    (hne : x ≠ x.set i (.lvl l)) :
    stepProb prob ℓ k i x (x.set i (.lvl l)) = redrawn prob * ((k.levels.length : ℝ)⁻¹ * min 1 (Real.exp (ℓ (x.set i (.lvl l)) - ℓ x))) := by
  have hn : n < k.levels.length := (List.getElem?_eq_some_iff.1 hl).1
  rw [← min_eq_right (min_le_left 1 (Real.exp (ℓ (x.set i (.lvl l)) - ℓ x))), ← box_prob prob _ (le_min zero_le_one (Real.exp_pos _).le) _ n hn]
  unfold stepProb
  congr 1
  refine Set.Subset.antisymm ?_ (box_subset prob ℓ k i x n l hl)
  rintro ⟨r, m, u⟩ h
  simp only [Set.mem_ofPred_eq] at h
  by_cases hr : r < prob
  · cases hm : k.levels[m]? with
    | none => rw [catMove_stay _ _ _ _ _ _ _ _ (.inr hm)] at h; exact absurd h hne
    | some l' =>
      rw [catMove_draw _ _ _ _ _ _ _ _ hr l' hm] at h
      by_cases hu : u ≤ min 1 (Real.exp (ℓ (x.set i (.lvl l')) - ℓ x))
      · rw [if_pos hu] at h
        have hll : l' = l := by
          have := congrArg (fun z => z[i]?) h
          simp only [List.getElem?_set_self hi, Option.some.injEq, Val.lvl.injEq] at this
          exact this
        subst hll
        have hmn : m = n := by
          obtain ⟨g1, g2⟩ := List.getElem?_eq_some_iff.1 hm
          obtain ⟨g3, g4⟩ := List.getElem?_eq_some_iff.1 hl
          exact (hnd.getElem_inj_iff).1 (g2.trans g4.symm)
        exact ⟨hr, hmn, hu⟩
      · rw [if_neg hu] at h
        exact absurd h hne
  · rw [catMove_stay _ _ _ _ _ _ _ _ (.inl hr)] at h; exact absurd h hne

theorem stepProb_none (prob : ℝ) (ℓ : List Val → ℝ) (k : Kind) (i : ℕ) (x y : List Val) (hne : x ≠ y) (h : ¬ ∃ l ∈ k.levels, y = x.set i (.lvl l)) : stepProb prob ℓ k i x y = 0 := by
  unfold stepProb
  have : {d : ℝ × ℕ × ℝ | catMove prob ℓ k i d x = y} = ∅ := by
    rw [Set.eq_empty_iff_forall_notMem]
    rintro ⟨r, m, u⟩ hd
    simp only [Set.mem_ofPred_eq] at hd
    by_cases hr : r < prob
    · cases hm : k.levels[m]? with
      | none => rw [catMove_stay _ _ _ _ _ _ _ _ (.inr hm)] at hd; exact hne hd
      | some l' =>
        rw [catMove_draw _ _ _ _ _ _ _ _ hr l' hm] at hd
        split at hd
        · exact h ⟨l', List.mem_of_getElem? hm, hd.symm⟩
        · exact hne hd
    · rw [catMove_stay _ _ _ _ _ _ _ _ (.inl hr)] at hd; exact hne hd
  rw [this, measureReal_empty]

/-- Detailed balance of one update. -/
theorem balance {ks : List Kind} (hc : Categorical ks) (prob : ℝ) (ℓ : List Val → ℝ) {i : ℕ} {k : Kind} (hk : ks[i]? = some k) {x y : List Val} (hx : RowOf ks x) (hy : RowOf ks y) :
    Real.exp (ℓ x) * stepProb prob ℓ k i x y = Real.exp (ℓ y) * stepProb prob ℓ k i y x := by
  by_cases hxy : x = y
  · rw [hxy]
  have hkm := List.mem_of_getElem? hk
  have hil : i < ks.length := (List.getElem?_eq_some_iff.1 hk).1
  have key : ∀ x y : List Val, RowOf ks x → (∃ l ∈ k.levels, y = x.set i (.lvl l)) → ∃ l ∈ k.levels, x = y.set i (.lvl l) := by
    rintro x y hx ⟨l, -, rfl⟩
    obtain ⟨v, hv, hcv⟩ := rowOf_cell hx hk
    obtain ⟨l', hl', rfl⟩ := (contains_iff (hc.kind k hkm) _).1 hcv
    exact ⟨l', hl', by rw [List.set_set, set_self hv]⟩
  by_cases h : ∃ l ∈ k.levels, y = x.set i (.lvl l)
  · obtain ⟨l', hl', e'⟩ := key x y hx h
    obtain ⟨l, hl, e⟩ := h
    obtain ⟨n, hn⟩ := List.getElem?_of_mem hl
    obtain ⟨n', hn'⟩ := List.getElem?_of_mem hl'
    have s1 := stepProb_move prob ℓ k (hc.nodup k hkm) i x (by rw [rowOf_length hx]; exact hil) n l hn (by rw [← e]; exact hxy)
    have s2 := stepProb_move prob ℓ k (hc.nodup k hkm) i y (by rw [rowOf_length hy]; exact hil) n' l' hn' (by rw [← e']; exact fun h => hxy h.symm)
    rw [← e] at s1
    rw [← e'] at s2
    rw [s1, s2]
    have : Real.exp (ℓ x) * min 1 (Real.exp (ℓ y - ℓ x)) = Real.exp (ℓ y) * min 1 (Real.exp (ℓ x - ℓ y)) := by
      rcases le_total (ℓ x) (ℓ y) with hle | hle
      · rw [min_eq_left (Real.one_le_exp (by linarith)), min_eq_right (Real.exp_le_one_iff.2 (by linarith)), mul_one, ← Real.exp_add]
        congr 1; ring
      · rw [min_eq_right (Real.exp_le_one_iff.2 (by linarith : ℓ y - ℓ x ≤ 0)), min_eq_left (Real.one_le_exp (by linarith : 0 ≤ ℓ x - ℓ y)), mul_one, ← Real.exp_add]
        congr 1; ring
    linear_combination (redrawn prob * (k.levels.length : ℝ)⁻¹) * this
  · rw [stepProb_none prob ℓ k i x y hxy h, stepProb_none prob ℓ k i y x (fun h => hxy h.symm) (fun h' => h (key y x hy h')), mul_zero, mul_zero]

theorem stepProb_sum {ks : List Kind} (hc : Categorical ks) (S : Finset (List Val)) (hS : ∀ x, x ∈ S ↔ RowOf ks x) (prob : ℝ) (ℓ : List Val → ℝ) {i : ℕ} {k : Kind}
    (hk : ks[i]? = some k) {x : List Val} (hx : x ∈ S) : ∑ y ∈ S, stepProb prob ℓ k i x y = 1 := by
  have hL : NeZero k.levels.length := ⟨by simpa using hc.nonempty k (List.mem_of_getElem? hk)⟩
  have h := sum_measureReal_preimage_singleton (μ := drawLaw k.levels.length) S (f := fun d => catMove prob ℓ k i d x) (fun y _ => catMove_measurable prob ℓ k i x y)
  have hu : (fun d => catMove prob ℓ k i d x) ⁻¹' (S : Set (List Val)) = Set.univ := by
    rw [Set.eq_univ_iff_forall]
    intro d
    exact (hS _).2 (catMove_row hc prob ℓ hk d ((hS x).1 hx))
  rw [hu, probReal_univ] at h
  exact h

theorem invariant {ks : List Kind} (hc : Categorical ks) (S : Finset (List Val)) (hS : ∀ x, x ∈ S ↔ RowOf ks x) (prob : ℝ) (ℓ : List Val → ℝ) {i : ℕ} {k : Kind}
    (hk : ks[i]? = some k) {y : List Val} (hy : y ∈ S) : ∑ x ∈ S, targetProb S ℓ x * stepProb prob ℓ k i x y = targetProb S ℓ y := by
  have : ∀ x ∈ S, targetProb S ℓ x * stepProb prob ℓ k i x y = targetProb S ℓ y * stepProb prob ℓ k i y x := by
    intro x hx
    unfold targetProb
    rw [div_mul_eq_mul_div, div_mul_eq_mul_div, balance hc prob ℓ hk ((hS x).1 hx) ((hS y).1 hy)]
  rw [Finset.sum_congr rfl this, ← Finset.mul_sum, stepProb_sum hc S hS prob ℓ hk hy, mul_one]

/-! ### The law of a chain -/

section law
variable {Ω : Type*} {mΩ : MeasurableSpace Ω} {P : Measure Ω} [IsProbabilityMeasure P] {ks : List Kind} {row : Ω → List Val} {D : ℕ → Ω → ℝ × ℕ × ℝ} {n : ℕ}

omit [IsProbabilityMeasure P] in
theorem chain_past (hc : Categorical ks) (S : Finset (List Val)) (hS : ∀ x, x ∈ S ↔ RowOf ks x) (prob : ℝ) (ℓ : List Val → ℝ) (F : FreshDraws P ks row D n) (hrow : ∀ ω, RowOf ks (row ω))
    (m : ℕ) (hm : m ≤ n) (x : List Val) : MeasurableSet[F.past m] {ω | catChain prob ℓ ks (fun m => D m ω) (row ω) m = x} := by
  induction m generalizing x with
  | zero => exact F.row_past x
  | succ m ih =>
    have mono := F.past.mono (Nat.le_succ m)
    cases hk : ks[m % ks.length]? with
    | none =>
      simp only [catChain, hk, Option.elim_none]
      exact mono _ (ih (by omega) x)
    | some k =>
      have e : {ω | catChain prob ℓ ks (fun m => D m ω) (row ω) (m + 1) = x} =
          ⋃ z ∈ S, {ω | catChain prob ℓ ks (fun m => D m ω) (row ω) m = z} ∩ D m ⁻¹' {d | catMove prob ℓ k (m % ks.length) d z = x} := by
        ext ω
        simp only [catChain, hk, Option.elim_some, Set.mem_ofPred_eq, Set.mem_iUnion, Set.mem_inter_iff, Set.mem_preimage]
        constructor
        · intro h
          exact ⟨_, (hS _).2 (catChain_row hc prob ℓ _ (hrow ω) m), rfl, h⟩
        · rintro ⟨z, -, rfl, h⟩
          exact h
      rw [e]
      refine MeasurableSet.biUnion (Finset.countable_toSet S) fun z _ => ?_
      exact MeasurableSet.inter (mono _ (ih (by omega) z)) (F.draw_past m (by omega) (catMove_measurable prob ℓ k _ z x))

theorem chain_step (hc : Categorical ks) (S : Finset (List Val)) (hS : ∀ x, x ∈ S ↔ RowOf ks x) (prob : ℝ) (ℓ : List Val → ℝ) (F : FreshDraws P ks row D n) (hrow : ∀ ω, RowOf ks (row ω))
    (m : ℕ) (hm : m < n) {k : Kind} (hk : ks[m % ks.length]? = some k) (y : List Val) :
    P.real {ω | catChain prob ℓ ks (fun m => D m ω) (row ω) (m + 1) = y} =
      ∑ x ∈ S, P.real {ω | catChain prob ℓ ks (fun m => D m ω) (row ω) m = x} * stepProb prob ℓ k (m % ks.length) x y := by
  have e : {ω | catChain prob ℓ ks (fun m => D m ω) (row ω) (m + 1) = y} =
      ⋃ z ∈ S, {ω | catChain prob ℓ ks (fun m => D m ω) (row ω) m = z} ∩ D m ⁻¹' {d | catMove prob ℓ k (m % ks.length) d z = y} := by
    ext ω
    simp only [catChain, hk, Option.elim_some, Set.mem_ofPred_eq, Set.mem_iUnion, Set.mem_inter_iff, Set.mem_preimage]
    constructor
    · intro h
      exact ⟨_, (hS _).2 (catChain_row hc prob ℓ _ (hrow ω) m), rfl, h⟩
    · rintro ⟨z, -, rfl, h⟩
      exact h
  have hDm : Measurable (D m) := (F.draw_past m hm).mono (F.past.le _) le_rfl
  have hA : ∀ z, MeasurableSet[F.past m] {ω | catChain prob ℓ ks (fun m => D m ω) (row ω) m = z} := chain_past hc S hS prob ℓ F hrow m hm.le
  rw [e, measureReal_biUnion_finset]
  · refine Finset.sum_congr rfl fun z _ => ?_
    have hind := (Indep_iff _ _ _).1 (F.fresh m hm) _ _ (hA z) ⟨_, catMove_measurable prob ℓ k (m % ks.length) z y, rfl⟩
    rw [measureReal_def, hind, ENNReal.toReal_mul]
    congr 1
    unfold stepProb
    rw [← F.law m hm k hk, measureReal_def, Measure.map_apply hDm (catMove_measurable prob ℓ k _ z y)]
  · intro z _ z' _ hzz
    refine Set.disjoint_left.2 fun ω h1 h2 => hzz (h1.1.symm.trans h2.1)
  · intro z _
    exact ((F.past.le m) _ (hA z)).inter (hDm (catMove_measurable prob ℓ k _ z y))

/-- The target law is kept. -/
theorem chain_law (hc : Categorical ks) (S : Finset (List Val)) (hS : ∀ x, x ∈ S ↔ RowOf ks x) (prob : ℝ) (ℓ : List Val → ℝ) (F : FreshDraws P ks row D n) (hrow : ∀ ω, RowOf ks (row ω))
    (h0 : ∀ x ∈ S, P.real {ω | row ω = x} = targetProb S ℓ x) (m : ℕ) (hm : m ≤ n) (y : List Val) (hy : y ∈ S) :
    P.real {ω | catChain prob ℓ ks (fun m => D m ω) (row ω) m = y} = targetProb S ℓ y := by
  induction m generalizing y with
  | zero => exact h0 y hy
  | succ m ih =>
    cases hk : ks[m % ks.length]? with
    | none =>
      simp only [catChain, hk, Option.elim_none]
      exact ih (by omega) y hy
    | some k =>
      rw [chain_step hc S hS prob ℓ F hrow m hm hk, Finset.sum_congr rfl fun x hx => by rw [ih (by omega) x hx]]
      exact invariant hc S hS prob ℓ hk hy

end law

/-! ### Convergence -/

/-- The probability that the first `j` updates of a step lead from `x` to `y`. -/
noncomputable def sweepProb (S : Finset (List Val)) (prob : ℝ) (ℓ : List Val → ℝ) (ks : List Kind) : ℕ → List Val → List Val → ℝ
  | 0, x, y => open Classical in if x = y then 1 else 0
  | j + 1, x, y => (ks[j]?).elim 0 fun k => ∑ z ∈ S, sweepProb S prob ℓ ks j x z * stepProb prob ℓ k j z y

theorem stepProb_nonneg (prob : ℝ) (ℓ : List Val → ℝ) (k : Kind) (i : ℕ) (x y : List Val) : 0 ≤ stepProb prob ℓ k i x y := measureReal_nonneg

theorem sweepProb_nonneg (S : Finset (List Val)) (prob : ℝ) (ℓ : List Val → ℝ) (ks : List Kind) (j : ℕ) (x y : List Val) : 0 ≤ sweepProb S prob ℓ ks j x y := by
  induction j generalizing y with
  | zero => rw [sweepProb]; split <;> norm_num
  | succ j ih =>
    rw [sweepProb]
    cases ks[j]? with
    | none => exact le_rfl
    | some k => exact Finset.sum_nonneg fun z _ => mul_nonneg (ih z) (stepProb_nonneg _ _ _ _ _ _)

theorem sweepProb_sum {ks : List Kind} (hc : Categorical ks) (S : Finset (List Val)) (hS : ∀ x, x ∈ S ↔ RowOf ks x) (prob : ℝ) (ℓ : List Val → ℝ) (j : ℕ) (hj : j ≤ ks.length)
    {x : List Val} (hx : x ∈ S) : ∑ y ∈ S, sweepProb S prob ℓ ks j x y = 1 := by
  classical
  induction j with
  | zero => simp only [sweepProb]; rw [Finset.sum_eq_single x] <;> simp_all [eq_comm]
  | succ j ih =>
    have hk := List.getElem?_eq_getElem (show j < ks.length by omega)
    simp only [sweepProb, hk, Option.elim_some]
    rw [Finset.sum_comm]
    rw [← ih (by omega)]
    refine Finset.sum_congr rfl fun z hz => ?_
    rw [← Finset.mul_sum, stepProb_sum hc S hS prob ℓ hk hz, mul_one]

theorem sweepProb_invariant {ks : List Kind} (hc : Categorical ks) (S : Finset (List Val)) (hS : ∀ x, x ∈ S ↔ RowOf ks x) (prob : ℝ) (ℓ : List Val → ℝ) (j : ℕ) (hj : j ≤ ks.length)
    {y : List Val} (hy : y ∈ S) : ∑ x ∈ S, targetProb S ℓ x * sweepProb S prob ℓ ks j x y = targetProb S ℓ y := by
  classical
  induction j generalizing y with
  | zero => simp only [sweepProb]; rw [Finset.sum_eq_single y] <;> simp_all
  | succ j ih =>
    have hk := List.getElem?_eq_getElem (show j < ks.length by omega)
    simp only [sweepProb, hk, Option.elim_some, Finset.mul_sum]
    rw [Finset.sum_comm]
    rw [← invariant hc S hS prob ℓ hk hy]
    refine Finset.sum_congr rfl fun z hz => ?_
    rw [← ih (by omega) hz, Finset.sum_mul]
    exact Finset.sum_congr rfl fun x _ => by ring

/-- Every row is reached from every other. -/
theorem sweepProb_lower {ks : List Kind} (hc : Categorical ks) (S : Finset (List Val)) (hS : ∀ x, x ∈ S ↔ RowOf ks x) (prob : ℝ) (ℓ : List Val → ℝ) (c : ℝ) (hc0 : 0 ≤ c)
    (hstep : ∀ (i : ℕ) (k : Kind), ks[i]? = some k → ∀ x, RowOf ks x → ∀ l ∈ k.levels, c ≤ stepProb prob ℓ k i x (x.set i (.lvl l)))
    {x y : List Val} (hx : x ∈ S) (hy : y ∈ S) : c ^ ks.length ≤ sweepProb S prob ℓ ks ks.length x y := by
  have hxr := (hS x).1 hx
  have hyr := (hS y).1 hy
  have key : ∀ j ≤ ks.length, RowOf ks (y.take j ++ x.drop j) ∧ c ^ j ≤ sweepProb S prob ℓ ks j x (y.take j ++ x.drop j) := by
    intro j
    induction j with
    | zero =>
      intro _
      simp only [List.take_zero, List.drop_zero, List.nil_append, pow_zero]
      exact ⟨hxr, by simp [sweepProb]⟩
    | succ j ih =>
      intro hj
      obtain ⟨h1, h2⟩ := ih (by omega)
      have hk := List.getElem?_eq_getElem (show j < ks.length by omega)
      obtain ⟨v, hv, hcv⟩ := rowOf_cell hyr hk
      obtain ⟨l, hl, rfl⟩ := (contains_iff (hc.kind _ (List.mem_of_getElem? hk)) _).1 hcv
      have hyj : j < y.length := by rw [rowOf_length hyr]; omega
      have hxj : j < x.length := by rw [rowOf_length hxr]; omega
      have he : y.take (j + 1) ++ x.drop (j + 1) = (y.take j ++ x.drop j).set j (.lvl l) := by
        rw [List.set_append_right (h := by simp), List.length_take, min_eq_left hyj.le, Nat.sub_self, List.drop_eq_getElem_cons hxj, List.set_cons_zero,
          List.take_add_one, hv]
        simp
      rw [he]
      refine ⟨rowOf_set h1 hk hcv, ?_⟩
      rw [sweepProb, hk, Option.elim_some, pow_succ]
      refine le_trans (mul_le_mul h2 (hstep j _ hk _ h1 l hl) hc0 (sweepProb_nonneg _ _ _ _ _ _ _)) ?_
      exact Finset.single_le_sum (f := fun z => sweepProb S prob ℓ ks j x z * stepProb prob ℓ ks[j] j z ((y.take j ++ x.drop j).set j (.lvl l)))
        (fun z _ => mul_nonneg (sweepProb_nonneg _ _ _ _ _ _ _) (stepProb_nonneg _ _ _ _ _ _)) ((hS _).2 h1)
  have := (key ks.length le_rfl).2
  rwa [List.take_of_length_le (by rw [rowOf_length hyr]), List.drop_eq_nil_of_le (by rw [rowOf_length hxr]), List.append_nil] at this

theorem contraction {α : Type*} (S : Finset α) (M : α → α → ℝ) (δ : ℝ) (hδ : ∀ x ∈ S, ∀ y ∈ S, δ ≤ M x y) (hsum : ∀ x ∈ S, ∑ y ∈ S, M x y = 1) (v : α → ℝ)
    (hv : ∑ x ∈ S, v x = 0) : ∑ y ∈ S, |∑ x ∈ S, v x * M x y| ≤ (1 - S.card * δ) * ∑ x ∈ S, |v x| := by
  have h1 : ∀ y ∈ S, |∑ x ∈ S, v x * M x y| ≤ ∑ x ∈ S, |v x| * (M x y - δ) := by
    intro y hy
    have : ∑ x ∈ S, v x * M x y = ∑ x ∈ S, v x * (M x y - δ) := by
      simp only [mul_sub, Finset.sum_sub_distrib, ← Finset.sum_mul, hv, zero_mul, sub_zero]
    rw [this]
    refine (Finset.abs_sum_le_sum_abs _ _).trans (Finset.sum_le_sum fun x hx => ?_)
    rw [abs_mul, abs_of_nonneg (sub_nonneg.2 (hδ x hx y hy))]
  refine (Finset.sum_le_sum h1).trans ?_
  rw [Finset.sum_comm, Finset.mul_sum]
  refine Finset.sum_le_sum fun x hx => ?_
  rw [← Finset.mul_sum, Finset.sum_sub_distrib, hsum x hx, Finset.sum_const, nsmul_eq_mul, mul_comm]

section converge
variable {Ω : Type*} {mΩ : MeasurableSpace Ω} {P : Measure Ω} [IsProbabilityMeasure P] {ks : List Kind} {row : Ω → List Val} {D : ℕ → Ω → ℝ × ℕ × ℝ} {n : ℕ}

theorem chain_sweep (hc : Categorical ks) (S : Finset (List Val)) (hS : ∀ x, x ∈ S ↔ RowOf ks x) (prob : ℝ) (ℓ : List Val → ℝ) (F : FreshDraws P ks row D n) (hrow : ∀ ω, RowOf ks (row ω))
    (t j : ℕ) (hj : j ≤ ks.length) (hn : t * ks.length + j ≤ n) (y : List Val) (hy : y ∈ S) :
    P.real {ω | catChain prob ℓ ks (fun m => D m ω) (row ω) (t * ks.length + j) = y} =
      ∑ x ∈ S, P.real {ω | catChain prob ℓ ks (fun m => D m ω) (row ω) (t * ks.length) = x} * sweepProb S prob ℓ ks j x y := by
  classical
  induction j generalizing y with
  | zero => simp only [sweepProb, add_zero]; rw [Finset.sum_eq_single y] <;> simp_all
  | succ j ih =>
    have hk := List.getElem?_eq_getElem (show j < ks.length by omega)
    have hm : (t * ks.length + j) % ks.length = j := by
      rw [Nat.mul_add_mod_self_right, Nat.mod_eq_of_lt (by omega)]
    rw [← add_assoc, chain_step hc S hS prob ℓ F hrow (t * ks.length + j) (by omega) (by rw [hm]; exact hk) y, hm]
    simp only [sweepProb, hk, Option.elim_some, Finset.mul_sum]
    rw [Finset.sum_comm]
    refine Finset.sum_congr rfl fun z hz => ?_
    rw [ih (by omega) (by omega) z hz, Finset.sum_mul]
    exact Finset.sum_congr rfl fun x _ => by ring

theorem chain_total (hc : Categorical ks) (S : Finset (List Val)) (hS : ∀ x, x ∈ S ↔ RowOf ks x) (prob : ℝ) (ℓ : List Val → ℝ) (F : FreshDraws P ks row D n) (hrow : ∀ ω, RowOf ks (row ω))
    (m : ℕ) (hm : m ≤ n) : ∑ x ∈ S, P.real {ω | catChain prob ℓ ks (fun m => D m ω) (row ω) m = x} = 1 := by
  have h := sum_measureReal_preimage_singleton (μ := P) S (f := fun ω => catChain prob ℓ ks (fun m => D m ω) (row ω) m)
    (fun y _ => (F.past.le m) _ (chain_past hc S hS prob ℓ F hrow m hm y))
  have hu : (fun ω => catChain prob ℓ ks (fun m => D m ω) (row ω) m) ⁻¹' (S : Set (List Val)) = Set.univ := by
    rw [Set.eq_univ_iff_forall]
    intro ω
    exact (hS _).2 (catChain_row hc prob ℓ _ (hrow ω) m)
  rw [hu, probReal_univ] at h
  exact h

theorem targetProb_sum (S : Finset (List Val)) (hne : S.Nonempty) (ℓ : List Val → ℝ) : ∑ x ∈ S, targetProb S ℓ x = 1 := by
  unfold targetProb
  rw [← Finset.sum_div, div_self]
  exact (Finset.sum_pos (fun x _ => Real.exp_pos _) hne).ne'

theorem chain_converges (hc : Categorical ks) (S : Finset (List Val)) (hS : ∀ x, x ∈ S ↔ RowOf ks x) (hne : S.Nonempty) (prob : ℝ) (ℓ : List Val → ℝ) (δ : ℝ)
    (hδ : ∀ x ∈ S, ∀ y ∈ S, δ ≤ sweepProb S prob ℓ ks ks.length x y) (F : FreshDraws P ks row D n) (hrow : ∀ ω, RowOf ks (row ω)) (t : ℕ) (ht : t * ks.length ≤ n) :
    ∑ y ∈ S, |P.real {ω | catChain prob ℓ ks (fun m => D m ω) (row ω) (t * ks.length) = y} - targetProb S ℓ y| ≤ 2 * (1 - S.card * δ) ^ t := by
  have hpos : 0 ≤ 1 - S.card * δ := by
    obtain ⟨x, hx⟩ := hne
    have := Finset.card_nsmul_le_sum S (fun y => sweepProb S prob ℓ ks ks.length x y) δ (fun y hy => hδ x hx y hy)
    rw [sweepProb_sum hc S hS prob ℓ ks.length le_rfl hx, nsmul_eq_mul] at this
    linarith
  induction t with
  | zero =>
    rw [pow_zero, mul_one]
    refine (Finset.sum_le_sum fun y _ => abs_sub _ _).trans ?_
    rw [Finset.sum_add_distrib]
    have h1 := chain_total hc S hS prob ℓ F hrow (0 * ks.length) ht
    have h2 := targetProb_sum S hne ℓ
    rw [Finset.sum_congr rfl fun y _ => abs_of_nonneg measureReal_nonneg, h1, Finset.sum_congr rfl fun y _ => abs_of_nonneg (?_ : 0 ≤ targetProb S ℓ y), h2]
    · norm_num
    · exact div_nonneg (Real.exp_pos _).le (Finset.sum_nonneg fun x _ => (Real.exp_pos _).le)
  | succ t ih =>
    have ht' : t * ks.length + ks.length ≤ n := by rw [← Nat.succ_mul]; exact ht
    have ih' := ih (by omega)
    set v := fun x => P.real {ω | catChain prob ℓ ks (fun m => D m ω) (row ω) (t * ks.length) = x} - targetProb S ℓ x with hv
    have hv0 : ∑ x ∈ S, v x = 0 := by
      rw [hv, Finset.sum_sub_distrib, chain_total hc S hS prob ℓ F hrow _ (by omega), targetProb_sum S hne, sub_self]
    have hstep : ∀ y ∈ S, P.real {ω | catChain prob ℓ ks (fun m => D m ω) (row ω) ((t + 1) * ks.length) = y} - targetProb S ℓ y =
        ∑ x ∈ S, v x * sweepProb S prob ℓ ks ks.length x y := by
      intro y hy
      rw [Nat.succ_mul, chain_sweep hc S hS prob ℓ F hrow t ks.length le_rfl ht' y hy]
      conv_lhs => rw [← sweepProb_invariant hc S hS prob ℓ ks.length le_rfl hy]
      rw [← Finset.sum_sub_distrib]
      exact Finset.sum_congr rfl fun x _ => by rw [hv]; ring
    rw [Finset.sum_congr rfl fun y hy => by rw [hstep y hy]]
    refine (contraction S _ δ hδ (fun x hx => sweepProb_sum hc S hS prob ℓ ks.length le_rfl hx) v hv0).trans ?_
    rw [pow_succ, ← mul_assoc, mul_comm _ (1 - S.card * δ)]
    exact mul_le_mul_of_nonneg_left ih' hpos

end converge

end Verif.Proofs
