import Verif.Proofs.SolutionView

/-!
# C119, C120: indexing solutions, and attributes shared between slices
-/
namespace Verif.Props

open Verif.Model Verif.Spec Verif.Proofs

/-! ### C119: rows keep their attributes -/

/-- `x[i]`, with `i` not `-1`, is row `i` with its own fitness, evaluation count and label. -/
theorem c119_item_partial {α F : Type*} (st : MetaStore F) (v : SolView α) (h : ViewOk st v) (k : ℕ) (r : List α × SolMeta F)
    (hk : (viewRecords st v)[k]? = some r) (i : ℤ) (hi : i = k ∨ i = (k : ℤ) - (viewRecords st v).length) (h1 : i ≠ -1) :
    ∃ w, v.item i = some w ∧ viewRecords st w = [r] ∧ w.oneDim = true ∧ w.varName = v.varName ∧ ViewOk st w := by
  have hl : (viewRecords st v).length = v.rows.length := by
    unfold viewRecords; rw [List.length_zip, metas_length h, min_self]
  rw [hl] at hi
  obtain ⟨hkl, hr⟩ := List.getElem?_eq_some_iff.1 hk
  rw [hl] at hkl
  have hpy : pyIndex v.rows.length i = some k := by
    unfold pyIndex
    rcases hi with rfl | rfl
    · rw [if_pos (by omega), if_pos (by omega)]; simp
    · rw [if_neg (by omega), if_pos (by omega)]; congr 1; omega
  have e : v.item i = some { v with rows := [v.rows[k]], oneDim := true, pos := pySlice v.pos (some i) (some (i + 1)) 1 } := by
    unfold SolView.item
    rw [hpy, Option.bind_some, List.getElem?_eq_getElem hkl]; rfl
  have hpos : pySlice v.pos (some i) (some (i + 1)) 1 = takeAt v.pos [k] := by
    unfold pySlice
    rw [h.lengths, slicePos_one hkl hi h1]
  have ht : takeAt v.rows [k] = [v.rows[k]] := by unfold takeAt; simp [List.getElem?_eq_getElem hkl]
  obtain ⟨ok, rec⟩ := view_takeAt h [k] (by simpa using hkl) (by simp)
    { v with rows := [v.rows[k]], oneDim := true, pos := pySlice v.pos (some i) (some (i + 1)) 1 } ht.symm rfl hpos
  refine ⟨_, e, ?_, rfl, rfl, ok⟩
  rw [rec]
  unfold takeAt
  simp [hk]

/-- `x[a:b:c]` is the slice of the rows with their attributes, for every chain of slices; `x[a:b]` is what Python users expect. -/
theorem c119_slices {α F : Type*} (st : MetaStore F) (v : SolView α) (h : ViewOk st v) (slices : List (Option ℤ × Option ℤ × ℕ)) :
    ViewOk st (sliceChain v slices) ∧
    viewRecords st (sliceChain v slices) = slices.foldl (fun l s => pySlice l s.1 s.2.1 s.2.2) (viewRecords st v) ∧
    ∀ a b : ℕ, a ≤ b → b ≤ (viewRecords st v).length →
      viewRecords st (v.sliceRows (some a) (some b) 1) = ((viewRecords st v).drop a).take (b - a) := by
  refine ⟨?_, ?_, ?_⟩
  · induction slices generalizing v with
    | nil => exact h
    | cons s rest ih => exact ih _ (sliceRows_ok h s.1 s.2.1 s.2.2).1
  · induction slices generalizing v with
    | nil => rfl
    | cons s rest ih =>
      obtain ⟨h1, h2⟩ := sliceRows_ok h s.1 s.2.1 s.2.2
      show viewRecords st (sliceChain (v.sliceRows s.1 s.2.1 s.2.2) rest) = _
      rw [ih _ h1, h2, List.foldl_cons]
  · intro a b hab hb
    rw [(sliceRows_ok h _ _ _).2]
    generalize viewRecords st v = l at *
    unfold pySlice
    apply List.ext_getElem?
    intro j
    have hpos : slicePos l.length (some (a : ℤ)) (some (b : ℤ)) 1 = (List.range (b - a)).map (a + ·) := by
      have h1 : sliceBound l.length 0 (some (a : ℤ)) = a := by unfold sliceBound; simp only []; rw [if_neg (by omega)]; simp; omega
      have h2 : sliceBound l.length l.length (some (b : ℤ)) = b := by unfold sliceBound; simp only []; rw [if_neg (by omega)]; simp; omega
      unfold slicePos
      rw [h1, h2]
      refine List.Perm.eq_of_pairwise (le := (· < ·)) (fun x y _ _ h1 h2 => absurd h1 (by omega)) ?_ ?_ ?_
      · exact List.pairwise_lt_range.filter _
      · exact List.pairwise_lt_range.map _ (fun x y h => by omega)
      · refine (List.perm_ext_iff_of_nodup (List.nodup_range.filter _) (List.nodup_range.map fun x y h => by simpa using h)).2 fun x => ?_
        simp only [List.mem_filter, List.mem_range, decide_eq_true_eq, List.mem_map]
        constructor
        · rintro ⟨_, h3, h4, _⟩
          exact ⟨x - a, by omega, by omega⟩
        · rintro ⟨y, hy, rfl⟩
          exact ⟨by omega, by omega, by omega, Nat.mod_one _⟩
    rw [takeAt_get _ _ slicePos_lt, hpos, List.getElem?_map]
    by_cases hj : j < b - a
    · rw [List.getElem?_range hj, List.getElem?_take_of_lt hj, List.getElem?_drop]; rfl
    · rw [List.getElem?_eq_none (by simpa using hj), List.getElem?_eq_none (by simp; omega)]; rfl

/-- `x[list]` is the selected rows with their attributes. -/
theorem c119_selection {α F : Type*} (st : MetaStore F) (v : SolView α) (h : ViewOk st v) (ks : List ℕ) (hk : ∀ k ∈ ks, k < v.rows.length) :
    ∃ st' w, v.select st (ks.map Int.ofNat) = some (st', w) ∧ ViewOk st' w ∧ viewRecords st' w = takeAt (viewRecords st v) ks ∧
      viewRecords st' v = viewRecords st v := by
  obtain ⟨b, hb, hp⟩ := h.alive
  have hm : (ks.map Int.ofNat).mapM (pyIndex v.rows.length) = some ks := by
    induction ks with
    | nil => rfl
    | cons k ks ih =>
      have : pyIndex v.rows.length (Int.ofNat k) = some k := by
        unfold pyIndex
        have := hk k (List.mem_cons_self ..)
        rw [Int.ofNat_eq_natCast, if_pos (by omega), if_pos (by omega)]; simp
      rw [List.map_cons, List.mapM_cons, this, ih fun k hk' => hk k (List.mem_cons_of_mem _ hk')]
      rfl
  have hk' : ∀ k ∈ ks, k < v.pos.length := by rw [h.lengths]; exact hk
  set metas := (takeAt v.pos ks).filterMap fun p => (st[v.buf]?).bind fun b => b[p]? with hmetas
  have e1 : metas = takeAt (v.metas st) ks := by
    rw [hmetas, hb, metas_get hb hp, ← takeAt_takeAt _ _ _ hp hk']
    rfl
  have hml : metas.length = (takeAt v.rows ks).length := by
    rw [e1, takeAt_length _ _ (by rw [metas_length h]; exact hk), takeAt_length _ _ hk]
  obtain ⟨ok, rec⟩ := newView_ok st (takeAt v.rows ks) v.oneDim v.varName metas hml
  refine ⟨st ++ [metas], { v with rows := takeAt v.rows ks, buf := st.length, pos := List.range metas.length }, ?_, ok, ?_, ?_⟩
  · unfold SolView.select
    rw [hm]; rfl
  · refine rec.trans ?_
    rw [e1, takeAt_zip _ _ (metas_length h).symm _ hk]
    rfl
  · have : (st ++ [metas])[v.buf]? = some b := by
      rw [List.getElem?_append_left]
      · exact hb
      · exact (List.getElem?_eq_some_iff.1 hb).1
    unfold viewRecords
    rw [metas_get hb hp, metas_get this hp]

/-- A solution just made meets the hypothesis of these theorems. -/
theorem c119_new {α F : Type*} (st : MetaStore F) (rows : List (List α)) (o : Bool) (names : List String) (metas : List (SolMeta F))
    (h : metas.length = rows.length) :
    ViewOk (newView st rows o names metas).1 (newView st rows o names metas).2 ∧
    viewRecords (newView st rows o names metas).1 (newView st rows o names metas).2 = rows.zip metas := newView_ok st rows o names metas h

private def m0 : SolMeta ℤ := ⟨10, 1, "0"⟩
private def m1 : SolMeta ℤ := ⟨20, 1, "1"⟩
private def twoRows : MetaStore ℤ × SolView ℤ := newView [] [[1, 2], [3, 4]] false ["a", "b"] [m0, m1]

/-- `x[-1]` has the last row, but no fitness, evaluation count and label; setting its fitness has no effect. -/
theorem c119_last_refuted : ∃ w, twoRows.2.item (-1) = some w ∧ w.rows = [[3, 4]] ∧ fitnesses twoRows.1 w = [] ∧
    ∃ st', w.setFitness twoRows.1 [7] = some st' ∧ fitnesses st' twoRows.2 = [10, 20] :=
  ⟨_, rfl, rfl, rfl, _, rfl, rfl⟩

/-- `x[:, -1]` has no columns, while `x[:, 1]` has the last one. -/
theorem c119_last_column_refuted : (twoRows.2.column (-1)).rows = [[], []] ∧ (twoRows.2.column (-1)).varName = [] ∧
    (twoRows.2.column 1).rows = [[2], [4]] ∧ (twoRows.2.column 1).varName = ["b"] := by decide

private theorem sliceOne {β : Type*} (l : List β) {k : ℕ} {i : ℤ} (hk : k < l.length) (hi : i = k ∨ i = (k : ℤ) - l.length) (h1 : i ≠ -1) :
    (pySlice l (some i) (some (i + 1)) 1).map some = [l[k]?] := by
  unfold pySlice
  rw [slicePos_one hk hi h1]
  unfold takeAt
  simp [List.getElem?_eq_getElem hk]

/-- Every other column is the one asked for. -/
theorem c119_column_partial {α : Type*} (v : SolView α) (hv : ∀ r ∈ v.rows, r.length = v.varName.length) (k : ℕ) (hk : k < v.varName.length) (i : ℤ)
    (hi : i = k ∨ i = (k : ℤ) - v.varName.length) (h1 : i ≠ -1) :
    (v.column i).rows.map (fun r => r.map some) = v.rows.map (fun r => [r[k]?]) ∧ (v.column i).varName.map some = [v.varName[k]?] ∧
      (v.column i).buf = v.buf ∧ (v.column i).pos = v.pos := by
  refine ⟨?_, sliceOne v.varName hk hi h1, rfl, rfl⟩
  show (v.rows.map _).map _ = _
  rw [List.map_map]
  exact List.map_congr_left fun r hr => by
    have hl := hv r hr
    exact sliceOne r (by omega) (by rw [hl]; exact hi) h1

/-! ### C120: slices share their attributes, selections and copies should not -/

private theorem takeAt_self {β : Type*} (l : List β) : takeAt l (List.range l.length) = l := by
  apply List.ext_getElem?
  intro j
  rw [takeAt_get _ _ fun i hi => List.mem_range.1 hi]
  by_cases hj : j < l.length
  · rw [List.getElem?_range hj]; rfl
  · rw [List.getElem?_eq_none (by simpa using hj), List.getElem?_eq_none (by omega)]; rfl

/-- Setting the fitness of a slice of a slice … of `x` sets the fitness of exactly these rows of `x`, and nothing else of `x`. -/
theorem c120_write_through {α F : Type*} (st : MetaStore F) (x : SolView α) (h : ViewOk st x) (slices : List (Option ℤ × Option ℤ × ℕ)) :
    ∃ ps : List ℕ, ps.Nodup ∧ (∀ p ∈ ps, p < (viewRecords st x).length) ∧
      viewRecords st (sliceChain x slices) = takeAt (viewRecords st x) ps ∧
      ∀ vals : List F, vals.length = ps.length → ∃ st', (sliceChain x slices).setFitness st vals = some st' ∧
        fitnesses st' (sliceChain x slices) = vals ∧
        (viewRecords st' x).length = (viewRecords st x).length ∧
        ∀ (k : ℕ) (r r' : List α × SolMeta F), (viewRecords st x)[k]? = some r → (viewRecords st' x)[k]? = some r' →
          r'.1 = r.1 ∧ r'.2.nEval = r.2.nEval ∧ r'.2.index = r.2.index ∧
          (∀ (j : ℕ) (f : F), ps[j]? = some k → vals[j]? = some f → r'.2.fitness = f) ∧ (k ∉ ps → r'.2.fitness = r.2.fitness) := by
  have hlen : ∀ (st : MetaStore F), ViewOk st x → (viewRecords st x).length = x.rows.length := by
    intro st h
    unfold viewRecords; rw [List.length_zip, metas_length h, min_self]
  -- the positions that the chain keeps
  have chain : ∀ (slices : List (Option ℤ × Option ℤ × ℕ)) (v : SolView α), ViewOk st v → ∃ ps : List ℕ, ps.Nodup ∧ (∀ p ∈ ps, p < v.rows.length) ∧
      (sliceChain v slices).rows = takeAt v.rows ps ∧ (sliceChain v slices).pos = takeAt v.pos ps ∧ (sliceChain v slices).buf = v.buf := by
    intro slices
    induction slices with
    | nil =>
      intro v hv
      refine ⟨List.range v.rows.length, List.nodup_range, fun p hp => List.mem_range.1 hp, (takeAt_self v.rows).symm, ?_, rfl⟩
      rw [← hv.lengths]
      exact (takeAt_self v.pos).symm
    | cons s rest ih =>
      intro v hv
      obtain ⟨ok, _⟩ := sliceRows_ok hv s.1 s.2.1 s.2.2
      obtain ⟨ps, h1, h2, h3, h4, h5⟩ := ih _ ok
      set q := slicePos v.rows.length s.1 s.2.1 s.2.2 with hq
      have hqr : (v.sliceRows s.1 s.2.1 s.2.2).rows = takeAt v.rows q := rfl
      have hqp : (v.sliceRows s.1 s.2.1 s.2.2).pos = takeAt v.pos q := by
        show takeAt v.pos (slicePos v.pos.length s.1 s.2.1 s.2.2) = _
        rw [hv.lengths]
      have hps : ∀ p ∈ ps, p < q.length := by
        intro p hp
        have := h2 p hp
        rwa [hqr, takeAt_length _ _ slicePos_lt] at this
      refine ⟨takeAt q ps, takeAt_nodup (slicePos_nodup ..) hps h1, fun p hp => slicePos_lt p (takeAt_mem hp), ?_, ?_, h5⟩
      · show (sliceChain (v.sliceRows s.1 s.2.1 s.2.2) rest).rows = _
        rw [h3, hqr, takeAt_takeAt _ _ _ slicePos_lt hps]
      · show (sliceChain (v.sliceRows s.1 s.2.1 s.2.2) rest).pos = _
        rw [h4, hqp, takeAt_takeAt _ _ _ (by rw [hv.lengths]; exact slicePos_lt) hps]
  obtain ⟨ps, hnd, hlt, hrows, hpos, hbuf⟩ := chain slices x h
  obtain ⟨hok, hrec⟩ := view_takeAt h ps hlt hnd (sliceChain x slices) hrows hbuf hpos
  have hlt' : ∀ p ∈ ps, p < x.pos.length := by rw [h.lengths]; exact hlt
  refine ⟨ps, hnd, by rw [hlen st h]; exact hlt, hrec, fun vals hv => ?_⟩
  have hvl : vals.length = (sliceChain x slices).pos.length := by rw [hpos, takeAt_length _ _ hlt', hv]
  obtain ⟨st', hset, _, _, b, b', hb, hb', hbl, hin, hout⟩ := setFitness_get hok vals hvl
  rw [hbuf] at hb hb'
  obtain ⟨b0, hb0, hp0⟩ := h.alive
  rw [hb] at hb0
  cases hb0
  have hp0' : ∀ p ∈ x.pos, p < b'.length := by rw [hbl]; exact hp0
  have hx' : ViewOk st' x := ⟨h.lengths, h.distinct, b', hb', hp0'⟩
  have getrec : ∀ (st : MetaStore F) (c : List (SolMeta F)), st[x.buf]? = some c → (∀ p ∈ x.pos, p < c.length) → ∀ (k : ℕ) r,
      (viewRecords st x)[k]? = some r → ∃ p, x.pos[k]? = some p ∧ x.rows[k]? = some r.1 ∧ c[p]? = some r.2 := by
    intro st c hc hcp k r hr
    unfold viewRecords at hr
    rw [List.getElem?_zip_eq_some, metas_get hc hcp, takeAt_get _ _ hcp, Option.bind_eq_some_iff] at hr
    obtain ⟨h1, p, h2, h3⟩ := hr
    exact ⟨p, h2, h1, h3⟩
  refine ⟨st', hset, ?_, by rw [hlen _ hx', hlen _ h], ?_⟩
  · have hcp : ∀ p ∈ (sliceChain x slices).pos, p < b'.length := by rw [hpos]; exact fun p hp => hp0' p (takeAt_mem hp)
    unfold fitnesses
    rw [metas_get (by rw [hbuf]; exact hb') hcp]
    apply List.ext_getElem?
    intro j
    rw [List.getElem?_map, takeAt_get _ _ hcp]
    cases e : (sliceChain x slices).pos[j]? with
    | none =>
      have := List.getElem?_eq_none_iff.1 e
      rw [List.getElem?_eq_none (by omega)]; rfl
    | some p =>
      have hj := (List.getElem?_eq_some_iff.1 e).1
      have hjv : j < vals.length := by omega
      have hpb : p < b.length := by rw [← hbl]; exact hcp p (List.mem_of_getElem? e)
      rw [Option.bind_some, hin j p _ e (List.getElem?_eq_getElem hjv), List.getElem?_eq_getElem hpb, List.getElem?_eq_getElem hjv]
      rfl
  · intro k r r' hr hr'
    obtain ⟨p, a1, a2, a3⟩ := getrec st b hb hp0 k r hr
    obtain ⟨p', c1, c2, c3⟩ := getrec st' b' hb' hp0' k r' hr'
    rw [a1] at c1
    cases c1
    rw [a2] at c2
    have e1 : r'.1 = r.1 := by
      simp only [Option.some.injEq] at c2
      exact c2.symm
    have hk : k < x.pos.length := (List.getElem?_eq_some_iff.1 a1).1
    by_cases hm : k ∈ ps
    · obtain ⟨j, hj⟩ := List.getElem?_of_mem hm
      have hjp : (sliceChain x slices).pos[j]? = some p := by
        rw [hpos, takeAt_get _ _ hlt', hj]
        exact a1
      have hjv : j < vals.length := by rw [hv]; exact (List.getElem?_eq_some_iff.1 hj).1
      have e := hin j p _ hjp (List.getElem?_eq_getElem hjv)
      rw [c3, a3] at e
      simp only [Option.map_some, Option.some.injEq] at e
      refine ⟨e1, by rw [e], by rw [e], fun i f hi hf => ?_, fun hn => absurd hm hn⟩
      have : i = j := by
        obtain ⟨g1, g2⟩ := List.getElem?_eq_some_iff.1 hi
        obtain ⟨g3, g4⟩ := List.getElem?_eq_some_iff.1 hj
        exact (List.Nodup.getElem_inj_iff hnd).1 (g2.trans g4.symm)
      subst this
      rw [List.getElem?_eq_getElem hjv, Option.some.injEq] at hf
      rw [e, ← hf]
    · have hpn : p ∉ (sliceChain x slices).pos := by
        rw [hpos]
        intro hp
        obtain ⟨i, hi, hie⟩ := List.mem_filterMap.1 hp
        obtain ⟨g1, g2⟩ := List.getElem?_eq_some_iff.1 hie
        obtain ⟨g3, g4⟩ := List.getElem?_eq_some_iff.1 a1
        have : i = k := (List.Nodup.getElem_inj_iff h.distinct).1 (g2.trans g4.symm)
        exact hm (this ▸ hi)
      have e := hout p hpn
      rw [c3, a3] at e
      simp only [Option.some.injEq] at e
      refine ⟨e1, by rw [e], by rw [e], fun i f hi _ => absurd (List.mem_of_getElem? hi) hm, fun _ => by rw [e]⟩

/-- Setting the fitness of a selection by a list leaves the original as it is. -/
theorem c120_selection_detached {α F : Type*} (st st1 st2 : MetaStore F) (x w : SolView α) (h : ViewOk st x) (ks : List ℕ)
    (hk : ∀ k ∈ ks, k < x.rows.length) (hs : x.select st (ks.map Int.ofNat) = some (st1, w)) (vals : List F) (hv : vals.length = ks.length)
    (h2 : w.setFitness st1 vals = some st2) : viewRecords st2 x = viewRecords st x ∧ fitnesses st2 w = vals := by
  obtain ⟨st', w', e, ok, rec, keep⟩ := c119_selection st x h ks hk
  rw [hs] at e
  cases e
  obtain ⟨b, hb, hp⟩ := h.alive
  have hxl : (viewRecords st x).length = x.rows.length := by
    unfold viewRecords; rw [List.length_zip, metas_length h, min_self]
  have hwl : w.pos.length = ks.length := by
    have h1 := congrArg List.length rec
    unfold viewRecords at h1
    rw [List.length_zip, metas_length ok, min_self] at h1
    rw [ok.lengths, h1]
    exact takeAt_length _ _ (by show ∀ k ∈ ks, k < (viewRecords st x).length; rw [hxl]; exact hk)
  obtain ⟨st3, e3, _, other, c, c', hc, hc', hcl, hin, _⟩ := setFitness_get ok vals (by omega)
  rw [h2] at e3
  cases e3
  have hwb : w.buf = st.length ∧ st1 = st ++ [st1.getD st.length []] := by
    unfold SolView.select at hs
    obtain ⟨ks', _, hks⟩ := Option.map_eq_some_iff.1 hs
    simp only [Prod.mk.injEq] at hks
    obtain ⟨rfl, rfl⟩ := hks
    exact ⟨rfl, by simp⟩
  have hbl : x.buf < st.length := (List.getElem?_eq_some_iff.1 hb).1
  have hne : x.buf ≠ w.buf := by rw [hwb.1]; omega
  constructor
  · rw [← keep]
    unfold viewRecords SolView.metas
    rw [other _ hne]
  · obtain ⟨_, _, hcp⟩ := ok.alive
    have hwp : ∀ p ∈ w.pos, p < c'.length := by
      obtain ⟨c0, hc0, hp0⟩ := ok.alive
      rw [hc] at hc0
      cases hc0
      rw [hcl]; exact hp0
    unfold fitnesses
    rw [metas_get hc' hwp]
    apply List.ext_getElem?
    intro j
    rw [List.getElem?_map, takeAt_get _ _ hwp]
    cases e : w.pos[j]? with
    | none =>
      have := List.getElem?_eq_none_iff.1 e
      rw [List.getElem?_eq_none (by omega)]; rfl
    | some p =>
      have hj := (List.getElem?_eq_some_iff.1 e).1
      have hjv : j < vals.length := by omega
      have hpc : p < c.length := by rw [← hcl]; exact hwp p (List.mem_of_getElem? e)
      rw [Option.bind_some, hin j p _ e (List.getElem?_eq_getElem hjv), List.getElem?_eq_getElem hpc, List.getElem?_eq_getElem hjv]
      rfl

/-- Setting the fitness of a copy changes the original. -/
theorem c120_copy_refuted : ∃ st', (twoRows.2.copy).setFitness twoRows.1 [7, 8] = some st' ∧ fitnesses twoRows.1 twoRows.2 = [10, 20] ∧
    fitnesses st' twoRows.2 = [7, 8] := ⟨_, rfl, rfl, rfl⟩

example : ∃ st', (sliceChain twoRows.2 [(some 0, none, 1), (some (-1), none, 2)]).setFitness twoRows.1 [7] = some st' ∧
    fitnesses st' twoRows.2 = [10, 7] := ⟨_, rfl, rfl⟩

example : ViewOk twoRows.1 twoRows.2 := (newView_ok [] [[1, 2], [3, 4]] false ["a", "b"] [m0, m1] rfl).1

end Verif.Props
