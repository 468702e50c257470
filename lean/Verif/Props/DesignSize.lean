import Verif.Spec.DesignSize
import Verif.Proofs.Ask
import Mathlib.Tactic.Linarith
import Mathlib.Tactic.NormNum
import Mathlib.Tactic.IntervalCases

/-!
# C197: the size of the initial design
-/
namespace Verif.Props

open Verif.Model Verif.Spec Verif.Proofs

private theorem fillRow_all : ∀ (names : List String) (r : Row), r.length = names.length → fillRow [] names r = some r
  | [], [], _ => rfl
  | [], _ :: _, h => by simp at h
  | _ :: _, [], h => by simp at h
  | n :: ns, x :: xs, h => by
    have ih := fillRow_all ns xs (by simpa using h)
    simp [fillRow, ih]

theorem fillin_all (names : List String) (X : List Row) (h : ∀ r ∈ X, r.length = names.length) : fillin names (some []) X = some X := by
  have key : ∀ X : List Row, (∀ r ∈ X, r.length = names.length) → X.mapM (fillRow [] names) = some X := by
    intro X
    induction X with
    | nil => intro _; rfl
    | cons r rest ih =>
      intro h
      rw [List.mapM_cons, fillRow_all names r (h r (by simp)), ih (fun x hx => h x (by simp [hx]))]
      rfl
  unfold fillin
  split_ifs
  · rfl
  · exact key X h

/-- One round of the loop, when the sampler delivers. -/
theorem doeLoop_round (vars : Vars) (data : List Row) (sample : ℕ → ℤ → List Row) (hs : FullSampler vars sample) (k : ℕ) (n : ℤ) (hn : 0 < n) (acc : List Row) :
    doeLoop vars [] data sample (k + 1) n acc =
      doeLoop vars [] data sample k (n - (preEvalCheck (vars.map Prod.snd) data ((sample k n).map (roundRow (vars.map Prod.snd)))).length)
        (acc ++ preEvalCheck (vars.map Prod.snd) data ((sample k n).map (roundRow (vars.map Prod.snd)))) := by
  obtain ⟨hl, hp⟩ := hs k n hn
  rw [doeLoop, if_neg (by omega), fillin_all _ _ (fun r hr => by simpa using (hp r hr).1), Option.bind_some]
  have he : (sample k n).isEmpty = false := by
    cases h : sample k n with
    | nil => rw [h] at hl; simp at hl; omega
    | cons => rfl
  rw [he]
  rfl

theorem check_all (ks : List Kind) (data X : List Row) (h : ∀ i, i < X.length → StandsOut ks data X i) : preEvalCheck ks data X = X := by
  have hsub : (preEvalCheck ks data X).length = X.length := by
    unfold preEvalCheck
    rw [List.length_map, List.filter_eq_self.mpr, List.length_range]
    intro i hi
    have hi' := List.mem_range.mp hi
    have hx : X[i]? = some X[i] := List.getElem?_eq_getElem hi'
    obtain ⟨h1, h2⟩ := h i hi' _ hx
    have hget : (X ++ data).getD i [] = X[i] := by
      rw [List.getD_eq_getElem?_getD, List.getElem?_append_left hi', hx, Option.getD_some]
    simp only [Bool.not_eq_true', List.any_eq_false, List.mem_range, decide_eq_true_eq]
    rintro j hj ⟨hji, hm⟩
    rw [hget] at hm
    by_cases hjl : j < X.length
    · rw [List.getD_eq_getElem?_getD, List.getElem?_append_left hjl, List.getElem?_eq_getElem hjl, Option.getD_some] at hm
      exact not_matches_of_differs (h2 j _ (List.getElem?_eq_getElem hjl) hji) hm
    · have hjd : j - X.length < data.length := by rw [List.length_append] at hj; omega
      rw [List.getD_eq_getElem?_getD, List.getElem?_append_right (by omega), List.getElem?_eq_getElem hjd, Option.getD_some] at hm
      exact not_matches_of_differs (h1 _ (List.getElem_mem hjd)) hm
  have hs : (preEvalCheck ks data X).Sublist X := by
    have e : X = (List.range X.length).map (fun i => (X ++ data).getD i []) := by
      apply List.ext_getElem?
      intro i
      rw [List.getElem?_map]
      by_cases hi : i < X.length
      · rw [List.getElem?_range hi, Option.map_some, List.getD_eq_getElem?_getD, List.getElem?_append_left hi, List.getElem?_eq_getElem hi, Option.getD_some]
      · rw [List.getElem?_eq_none (by omega), List.getElem?_eq_none (by simpa using hi)]
        rfl
    conv_rhs => rw [e]
    unfold preEvalCheck
    exact List.filter_sublist.map _
  exact hs.eq_of_length hsub

private theorem ask_design (s : AskState) (hf : s.fitted = false) (n? : Option ℤ) (best : ℕ → Row) (sample : ℕ → ℤ → List Row) (X : List Row)
    (h : doeLoop s.vars [] s.data sample 4 (n?.getD s.doeSize) [] = some X) : ask s n? none best sample = if X.isEmpty then .error .empty else .ok X := by
  have hd : createDoE s.vars none s.data sample (n?.getD s.doeSize) = some X := h
  simp only [ask, askPoints, hf, Bool.false_eq_true, if_false, hd, liftShape]
  rfl

/-- **C197, partial.** Before the surrogate is trained, `ask` proposes exactly the requested number of points whenever the points of the first sample differ from each other and from the recorded ones; they
are these points, rounded to the precision.  Missing: samples with two points that do not count as different (`c197_indistinct_refuted`). -/
theorem c197_full_partial (s : AskState) (hf : s.fitted = false) (n? : Option ℤ) (hn : 0 < n?.getD s.doeSize) (best : ℕ → Row) (sample : ℕ → ℤ → List Row)
    (hs : FullSampler s.vars sample)
    (hd : ∀ i, StandsOut (s.vars.map Prod.snd) s.data ((sample 3 (n?.getD s.doeSize)).map (roundRow (s.vars.map Prod.snd))) i) :
    ∃ X, ask s n? none best sample = .ok X ∧ (X.length : ℤ) = n?.getD s.doeSize ∧ X = (sample 3 (n?.getD s.doeSize)).map (roundRow (s.vars.map Prod.snd)) := by
  obtain ⟨hl, hp⟩ := hs 3 _ hn
  have e := doeLoop_round s.vars s.data sample hs 3 _ hn []
  rw [check_all _ _ _ (fun i _ => hd i), List.length_map, hl, sub_self] at e
  have e0 : ∀ acc, doeLoop s.vars [] s.data sample 3 0 acc = some acc := by
    intro acc
    rw [doeLoop, if_pos rfl]
  rw [e0, List.nil_append] at e
  refine ⟨_, ?_, by rw [List.length_map, hl], rfl⟩
  rw [ask_design s hf n? best sample _ e]
  have hne : (List.map (roundRow (s.vars.map Prod.snd)) (sample 3 (n?.getD s.doeSize))).isEmpty = false := by
    cases h : sample 3 (n?.getD s.doeSize) with
    | nil => rw [h] at hl; simp at hl; omega
    | cons => rfl
  rw [hne]
  rfl

/-- **C197.** A single point is always delivered when nothing is recorded. -/
theorem c197_one (s : AskState) (hf : s.fitted = false) (hdata : s.data = []) (n? : Option ℤ) (hn : n?.getD s.doeSize = 1) (best : ℕ → Row) (sample : ℕ → ℤ → List Row)
    (hs : FullSampler s.vars sample) : ∃ x, ask s n? none best sample = .ok [x] := by
  obtain ⟨X, h1, h2, -⟩ := c197_full_partial s hf n? (by omega) best sample hs (by
    intro i x hx
    rw [hdata]
    refine ⟨by simp, fun j y hy hji => ?_⟩
    have hl := (hs 3 (n?.getD s.doeSize) (by omega)).1
    have hi := (List.getElem?_eq_some_iff.mp hx).1
    have hj := (List.getElem?_eq_some_iff.mp hy).1
    rw [List.length_map] at hi hj
    omega)
  rw [hn] at h2
  obtain ⟨x, rfl⟩ := List.length_eq_one_iff.mp (by exact_mod_cast h2 : X.length = 1)
  exact ⟨x, h1⟩

theorem doeLoop_keeps (vars : Vars) (data : List Row) (sample : ℕ → ℤ → List Row) (hs : FullSampler vars sample) :
    ∀ k n acc, 0 ≤ n → ∃ X, doeLoop vars [] data sample k n acc = some (acc ++ X) := by
  intro k
  induction k with
  | zero => exact fun n acc _ => ⟨[], by simp [doeLoop]⟩
  | succ k ih =>
    intro n acc hn
    by_cases h0 : n = 0
    · exact ⟨[], by rw [doeLoop, if_pos h0, List.append_nil]⟩
    · rw [doeLoop_round vars data sample hs k n (by omega)]
      have hl := preEvalCheck_length (vars.map Prod.snd) data ((sample k n).map (roundRow (vars.map Prod.snd)))
      rw [List.length_map] at hl
      obtain ⟨Z, hZ⟩ := ih (n - (preEvalCheck (vars.map Prod.snd) data ((sample k n).map (roundRow (vars.map Prod.snd)))).length)
        (acc ++ preEvalCheck (vars.map Prod.snd) data ((sample k n).map (roundRow (vars.map Prod.snd)))) (by have := (hs k n (by omega)).1; omega)
      exact ⟨_, by rw [hZ, List.append_assoc]⟩

/-- **C197.** A point of the first sample that differs from all others and from the recorded ones is proposed. -/
theorem c197_kept (s : AskState) (hf : s.fitted = false) (n? : Option ℤ) (hn : 0 < n?.getD s.doeSize) (best : ℕ → Row) (sample : ℕ → ℤ → List Row)
    (hs : FullSampler s.vars sample) (i : ℕ) (x : Row) (hx : ((sample 3 (n?.getD s.doeSize)).map (roundRow (s.vars.map Prod.snd)))[i]? = some x)
    (hd : StandsOut (s.vars.map Prod.snd) s.data ((sample 3 (n?.getD s.doeSize)).map (roundRow (s.vars.map Prod.snd))) i) :
    ∃ X, ask s n? none best sample = .ok X ∧ x ∈ X := by
  obtain ⟨h1, h2⟩ := hd x hx
  have hm : x ∈ preEvalCheck (s.vars.map Prod.snd) s.data ((sample 3 (n?.getD s.doeSize)).map (roundRow (s.vars.map Prod.snd))) :=
    mem_preEvalCheck.mpr ⟨i, hx, fun d hd => not_matches_of_differs (h1 d hd), fun j y hy hji => not_matches_of_differs (h2 j y hy hji)⟩
  have e := doeLoop_round s.vars s.data sample hs 3 _ hn []
  have hl := preEvalCheck_length (s.vars.map Prod.snd) s.data ((sample 3 (n?.getD s.doeSize)).map (roundRow (s.vars.map Prod.snd)))
  rw [List.length_map] at hl
  obtain ⟨Z, hZ⟩ := doeLoop_keeps s.vars s.data sample hs 3 (n?.getD s.doeSize -
      (preEvalCheck (s.vars.map Prod.snd) s.data ((sample 3 (n?.getD s.doeSize)).map (roundRow (s.vars.map Prod.snd)))).length)
    ([] ++ preEvalCheck (s.vars.map Prod.snd) s.data ((sample 3 (n?.getD s.doeSize)).map (roundRow (s.vars.map Prod.snd))))
    (by have := (hs 3 _ hn).1; omega)
  rw [hZ] at e
  rw [ask_design s hf n? best sample _ e]
  have hmem : x ∈ [] ++ preEvalCheck (s.vars.map Prod.snd) s.data ((sample 3 (n?.getD s.doeSize)).map (roundRow (s.vars.map Prod.snd))) ++ Z := by simp [hm]
  have hne : List.isEmpty ([] ++ preEvalCheck (s.vars.map Prod.snd) s.data ((sample 3 (n?.getD s.doeSize)).map (roundRow (s.vars.map Prod.snd))) ++ Z) = false := by
    rw [List.isEmpty_eq_false_iff]
    exact List.ne_nil_of_mem hmem
  rw [hne]
  exact ⟨_, rfl, hmem⟩

/-- **C197 fails.** In a space whose points do not count as different, every request for two or more initial points raises `AskEmptyError`, whatever is sampled. -/
theorem c197_indistinct_refuted (s : AskState) (hf : s.fitted = false) (hb : OrderedBounds s.vars) (hi : NoTwoDiffer (s.vars.map Prod.snd)) (n? : Option ℤ)
    (hn : 2 ≤ n?.getD s.doeSize) (best : ℕ → Row) (sample : ℕ → ℤ → List Row) (hs : FullSampler s.vars sample) :
    ask s n? none best sample = .error .empty := by
  have hround : ∀ r, PointOf (s.vars.map Prod.snd) r → PointOf (s.vars.map Prod.snd) (roundRow (s.vars.map Prod.snd) r) := by
    intro r hr
    have h1 : Honours s.vars [] r := honours_empty (by simpa [freeVars] using hr)
    have h2 := roundRow_honours hb (fun name v w _ h => by simp at h) h1
    refine ⟨by simpa using h2.1, fun j k v hk hv => ?_⟩
    rw [List.getElem?_map, Option.map_eq_some_iff] at hk
    obtain ⟨⟨name, k'⟩, hk1, rfl⟩ := hk
    exact (h2.2 j name k' v hk1 hv).2 rfl
  have hempty : ∀ k, preEvalCheck (s.vars.map Prod.snd) s.data ((sample k (n?.getD s.doeSize)).map (roundRow (s.vars.map Prod.snd))) = [] := by
    intro k
    obtain ⟨hl, hp⟩ := hs k _ (by omega : 0 < n?.getD s.doeSize)
    rw [List.eq_nil_iff_forall_not_mem]
    intro x hx
    obtain ⟨i, h1, -, h3⟩ := mem_preEvalCheck.mp hx
    have hil := (List.getElem?_eq_some_iff.mp h1).1
    rw [List.length_map] at hil
    have hpts : ∀ y ∈ (sample k (n?.getD s.doeSize)).map (roundRow (s.vars.map Prod.snd)), PointOf (s.vars.map Prod.snd) y := by
      intro y hy
      obtain ⟨r, hr, rfl⟩ := List.mem_map.mp hy
      exact hround r (hp r hr)
    obtain ⟨j, hj, hji⟩ : ∃ j, j < (sample k (n?.getD s.doeSize)).length ∧ j ≠ i := by
      by_cases h0 : i = 0
      · exact ⟨1, by omega, by omega⟩
      · exact ⟨0, by omega, by omega⟩
    have hjl : j < ((sample k (n?.getD s.doeSize)).map (roundRow (s.vars.map Prod.snd))).length := by rwa [List.length_map]
    exact hi x _ (hpts x (List.mem_of_getElem? h1)) (hpts _ (List.getElem_mem hjl))
      (differs_of_not_matches (h3 j _ (List.getElem?_eq_getElem hjl) hji))
  have hloop : ∀ k, doeLoop s.vars [] s.data sample k (n?.getD s.doeSize) [] = some [] := by
    intro k
    induction k with
    | zero => rfl
    | succ k ih =>
      rw [doeLoop_round s.vars s.data sample hs k _ (by omega), hempty k]
      simpa using ih
  rw [ask_design s hf n? best sample _ (hloop 4)]
  rfl

/-- **C197 fails.** In such a space, once a point is recorded every `ask` raises `AskEmptyError`, with and without a surrogate, whatever the search finds and the sampler draws. -/
theorem c197_stuck_refuted (s : AskState) (hb : OrderedBounds s.vars) (hi : NoTwoDiffer (s.vars.map Prod.snd)) (d : Row) (hd : d ∈ s.data)
    (hdp : PointOf (s.vars.map Prod.snd) d) (n? : Option ℤ) (hn : 0 < n?.getD (if s.fitted then s.nPoint else s.doeSize))
    (hbatch : s.parallel = true ∨ n?.getD s.nPoint ≤ 1) (best : ℕ → Row) (hbest : ∀ i, PointOf (s.vars.map Prod.snd) (best i)) (sample : ℕ → ℤ → List Row)
    (hs : FullSampler s.vars sample) : ask s n? none best sample = .error .empty := by
  have hround : ∀ r, PointOf (s.vars.map Prod.snd) r → PointOf (s.vars.map Prod.snd) (roundRow (s.vars.map Prod.snd) r) := by
    intro r hr
    have h1 : Honours s.vars [] r := honours_empty (by simpa [freeVars] using hr)
    have h2 := roundRow_honours hb (fun name v w _ h => by simp at h) h1
    refine ⟨by simpa using h2.1, fun j k v hk hv => ?_⟩
    rw [List.getElem?_map, Option.map_eq_some_iff] at hk
    obtain ⟨⟨name, k'⟩, hk1, rfl⟩ := hk
    exact (h2.2 j name k' v hk1 hv).2 rfl
  have hcheck : ∀ X : List Row, (∀ x ∈ X, PointOf (s.vars.map Prod.snd) x) → preEvalCheck (s.vars.map Prod.snd) s.data X = [] := by
    intro X hX
    rw [List.eq_nil_iff_forall_not_mem]
    intro x hx
    obtain ⟨i, h1, h2, -⟩ := mem_preEvalCheck.mp hx
    exact hi x d (hX x (List.mem_of_getElem? h1)) hdp (differs_of_not_matches (h2 d hd))
  have hloop : ∀ k n, 0 < n → doeLoop s.vars [] s.data sample k n [] = some [] := by
    intro k n hn
    induction k with
    | zero => rfl
    | succ k ih =>
      rw [doeLoop_round s.vars s.data sample hs k _ hn, hcheck _ (by
        intro y hy
        obtain ⟨r, hr, rfl⟩ := List.mem_map.mp hy
        exact hround r ((hs k n hn).2 r hr))]
      simpa using ih
  cases hf : s.fitted with
  | false =>
    rw [hf] at hn
    rw [ask_design s hf n? best sample _ (hloop 4 _ hn)]
    rfl
  | true =>
    rw [hf] at hn
    have hn' : 0 < n?.getD s.nPoint := hn
    have hC : ∃ C, argMaxAcquisition s (n?.getD s.nPoint) none best = .ok C ∧ ∀ x ∈ C, PointOf (s.vars.map Prod.snd) x := by
      unfold argMaxAcquisition
      simp only
      by_cases h1 : n?.getD s.nPoint > 1
      · have hp : s.parallel = true := by
          rcases hbatch with h | h
          · exact h
          · omega
        rw [if_pos h1, if_pos hp]
        refine ⟨_, rfl, fun x hx => ?_⟩
        obtain ⟨h2, -⟩ := List.mem_filter.mp hx
        obtain ⟨i, -, rfl⟩ := List.mem_map.mp h2
        exact hbest i
      · rw [if_neg h1]
        refine ⟨_, rfl, fun x hx => ?_⟩
        obtain ⟨h2, -⟩ := List.mem_filter.mp hx
        rw [List.mem_singleton.mp h2]
        exact hbest 0
    obtain ⟨C, hC1, hC2⟩ := hC
    have hdoe : createDoE s.vars none s.data sample (n?.getD s.nPoint) = some [] := hloop 4 _ hn'
    simp only [ask, askPoints, hf, if_true, hC1]
    change Except.bind (if (((preEvalCheck (s.vars.map Prod.snd) s.data C).length : ℕ) : ℤ) < n?.getD s.nPoint then _ else _) _ = _
    rw [hcheck C hC2]
    simp only [List.length_nil, Nat.cast_zero, hn', if_true, sub_zero, hdoe]
    rfl

/-- Such spaces exist: a real variable between 1000 and 1000.001, where the relative tolerance of the duplicate check exceeds the width of the range. -/
theorem c197_narrow : NoTwoDiffer [Kind.real ⟨1000, 1000 + 1 / 1000, none, .linear⟩] := by
  rintro x y hx hy ⟨j, k, hk, -, h⟩
  match j, hk with
  | 0, hk =>
    simp only [List.getElem?_cons_zero, Option.some.injEq] at hk
    subst hk
    obtain ⟨u, rfl⟩ := List.length_eq_one_iff.mp (show x.length = 1 from hx.1)
    obtain ⟨v, rfl⟩ := List.length_eq_one_iff.mp (show y.length = 1 from hy.1)
    have hu := hx.2 0 _ u rfl rfl
    have hv := hy.2 0 _ v rfl rfl
    cases u with
    | real b =>
      cases v with
      | real a =>
        have := h rfl a b rfl rfl
        simp only [Kind.contains, RealVar.contains] at hu hv
        rw [abs_of_nonneg (by linarith : (0 : ℝ) ≤ b)] at this
        have h2 : |a - b| ≤ 1 / 1000 := abs_le.mpr ⟨by linarith, by linarith⟩
        have : (1 : ℝ) / 10 ^ 8 + 1 / 10 ^ 5 * b < 1 / 1000 := lt_of_lt_of_le this h2
        norm_num at this
        linarith
      | int z => simp [Kind.contains] at hv
      | lvl l => simp [Kind.contains] at hv
    | int z => simp [Kind.contains] at hu
    | lvl l => simp [Kind.contains] at hu

/-- **C197 fails.** The first request for two or more points in that space raises `AskEmptyError`, and there are samplers that deliver. -/
theorem c197_narrow_refuted : ∃ s : AskState, s.fitted = false ∧ s.data = [] ∧ (∃ sample, FullSampler s.vars sample) ∧
    ∀ (n? : Option ℤ) (best : ℕ → Row) (sample : ℕ → ℤ → List Row), 2 ≤ n?.getD s.doeSize → FullSampler s.vars sample → ask s n? none best sample = .error .empty := by
  refine ⟨⟨[("x", .real ⟨1000, 1000 + 1 / 1000, none, .linear⟩)], [], false, false, 1, 5⟩, rfl, rfl, ⟨fun _ n => List.replicate n.toNat [.real 1000], ?_⟩, ?_⟩
  · intro k n hn
    refine ⟨by rw [List.length_replicate]; omega, fun r hr => ?_⟩
    rw [(List.mem_replicate.mp hr).2]
    refine ⟨rfl, fun j k v hk hv => ?_⟩
    match j, hk, hv with
    | 0, hk, hv =>
      simp only [List.map_cons, List.map_nil, List.getElem?_cons_zero, Option.some.injEq] at hk hv
      subst hk hv
      simp only [Kind.contains, RealVar.contains]
      norm_num
  · intro n? best sample hn hs
    refine c197_indistinct_refuted ⟨[("x", .real ⟨1000, 1000 + 1 / 1000, none, .linear⟩)], [], false, false, 1, 5⟩ rfl ?_ c197_narrow n? hn best sample hs
    intro name v hv
    simp only [List.mem_cons, Prod.mk.injEq, Kind.real.injEq, List.not_mem_nil, or_false] at hv
    rw [hv.2]
    norm_num

/-- After one evaluation in that space the optimiser is stuck, although the search finds another point. -/
theorem c197_stuck_concrete (sample : ℕ → ℤ → List Row) (hs : FullSampler [("x", .real ⟨1000, 1000 + 1 / 1000, none, .linear⟩)] sample) :
    ask ⟨[("x", .real ⟨1000, 1000 + 1 / 1000, none, .linear⟩)], [[.real 1000]], true, false, 1, 5⟩ none none (fun _ => [.real (1000 + 1 / 2000)]) sample = .error .empty := by
  have hp : ∀ x : ℝ, 1000 ≤ x → x ≤ 1000 + 1 / 1000 → PointOf [Kind.real ⟨1000, 1000 + 1 / 1000, none, .linear⟩] [.real x] := by
    intro x h1 h2
    refine ⟨rfl, fun j k v hk hv => ?_⟩
    match j, hk, hv with
    | 0, hk, hv =>
      simp only [List.getElem?_cons_zero, Option.some.injEq] at hk hv
      subst hk hv
      exact ⟨h1, h2⟩
  refine c197_stuck_refuted ⟨[("x", .real ⟨1000, 1000 + 1 / 1000, none, .linear⟩)], [[.real 1000]], true, false, 1, 5⟩ ?_ c197_narrow [.real 1000] (by simp)
    (hp _ le_rfl (by norm_num)) none (by simp) (Or.inr (by simp)) _ (fun i => hp _ (by norm_num) (by norm_num)) sample hs
  intro name v hv
  simp only [List.mem_cons, Prod.mk.injEq, Kind.real.injEq, List.not_mem_nil, or_false] at hv
  rw [hv.2]
  norm_num

private def tenInts : List (String × Kind) := [("i", .integer { lo := 0, hi := 9 })]

private theorem tenInts_differ (a b : ℤ) : Differs (tenInts.map Prod.snd) [.int a] [.int b] ↔ a ≠ b := by
  constructor
  · rintro ⟨j, k, hk, h, -⟩ rfl
    match j, hk with
    | 0, hk =>
      simp only [tenInts, List.map_cons, List.map_nil, List.getElem?_cons_zero, Option.some.injEq] at hk
      subst hk
      exact h (by simp [Kind.vtype]) rfl
  · intro h
    refine ⟨0, .integer { lo := 0, hi := 9 }, rfl, fun _ e => h ?_, fun e => by simp [Kind.vtype] at e⟩
    simpa using e.symm

private theorem tenInts_round (a : ℤ) : roundRow (tenInts.map Prod.snd) [.int a] = [.int a] := rfl

/-- The hypotheses of `c197_full_partial` are met: three different integers. -/
theorem c197_concrete : ask ⟨tenInts, [], false, false, 1, 3⟩ none none (fun _ => []) (fun _ n => (List.range n.toNat).map (fun i => [.int (i % 10 : ℕ)])) =
    .ok [[.int 0], [.int 1], [.int 2]] := by
  have hs : FullSampler tenInts (fun _ n => (List.range n.toNat).map (fun i => [.int (i % 10 : ℕ)])) := by
    intro k n hn
    refine ⟨by simp; omega, fun r hr => ?_⟩
    obtain ⟨i, -, rfl⟩ := List.mem_map.mp hr
    refine ⟨rfl, fun j k v hk hv => ?_⟩
    match j, hk, hv with
    | 0, hk, hv =>
      simp only [tenInts, List.map_cons, List.map_nil, List.getElem?_cons_zero, Option.some.injEq] at hk hv
      subst hk hv
      have : i % 10 < 10 := Nat.mod_lt _ (by norm_num)
      simp only [Kind.contains, IntVar.contains]
      have h3 : (i % 10 : ℕ) ≤ 9 := by omega
      have h4 : ((i % 10 : ℕ) : ℝ) ≤ 9 := by exact_mod_cast h3
      exact ⟨by positivity, (Int.cast_natCast (R := ℝ) (i % 10)).trans_le h4⟩
  obtain ⟨X, h1, -, h3⟩ := c197_full_partial ⟨tenInts, [], false, false, 1, 3⟩ rfl none (by norm_num) (fun _ => []) _ hs (by
    intro i x hx
    refine ⟨by simp, fun j y hy hji => ?_⟩
    have hi := (List.getElem?_eq_some_iff.mp hx).1
    have hj := (List.getElem?_eq_some_iff.mp hy).1
    have hi3 : i < 3 := by simpa using hi
    have hj3 : j < 3 := by simpa using hj
    have ex : x = [.int (i : ℤ)] := by
      interval_cases i <;> exact (Option.some.inj hx).symm
    have ey : y = [.int (j : ℤ)] := by
      interval_cases j <;> exact (Option.some.inj hy).symm
    rw [ex, ey]
    exact (tenInts_differ _ _).mpr (by exact_mod_cast hji.symm))
  rw [h1, h3]
  rfl

/-- **C197 fails.** Also in a space with ten points: if the draws repeat, all copies of a point are dropped, and a first request for two points can raise `AskEmptyError`. -/
theorem c197_unlucky_refuted : ask ⟨tenInts, [], false, false, 1, 2⟩ none none (fun _ => []) (fun _ n => List.replicate n.toNat [.int 7]) = .error .empty := by
  have hs : FullSampler tenInts (fun _ n => List.replicate n.toNat [.int 7]) := by
    intro k n hn
    refine ⟨by rw [List.length_replicate]; omega, fun r hr => ?_⟩
    rw [(List.mem_replicate.mp hr).2]
    refine ⟨rfl, fun j k v hk hv => ?_⟩
    match j, hk, hv with
    | 0, hk, hv =>
      simp only [tenInts, List.map_cons, List.map_nil, List.getElem?_cons_zero, Option.some.injEq] at hk hv
      subst hk hv
      simp only [Kind.contains, IntVar.contains]
      norm_num
  have hc : preEvalCheck (tenInts.map Prod.snd) [] [[.int 7], [.int 7]] = [] := by
    rw [List.eq_nil_iff_forall_not_mem]
    intro x hx
    obtain ⟨i, h1, -, h3⟩ := mem_preEvalCheck.mp hx
    have key : ∀ j y, ([[Val.int 7], [.int 7]] : List Row)[j]? = some y → j ≠ i → False := by
      intro j y hy hji
      have hd := differs_of_not_matches (h3 j y hy hji)
      have e1 : y = [.int 7] := by have := List.mem_of_getElem? hy; simpa using this
      have e2 : x = [.int 7] := by have := List.mem_of_getElem? h1; simpa using this
      rw [e1, e2] at hd
      exact (tenInts_differ _ _).mp hd rfl
    by_cases h0 : i = 0
    · exact key 1 _ rfl (by omega)
    · exact key 0 _ rfl (by omega)
  have hloop : ∀ k, doeLoop tenInts [] [] (fun _ n => List.replicate n.toNat [.int 7]) k 2 [] = some [] := by
    intro k
    induction k with
    | zero => rfl
    | succ k ih =>
      have e : (List.replicate (Int.toNat 2) [Val.int 7]).map (roundRow (tenInts.map Prod.snd)) = [[.int 7], [.int 7]] := rfl
      rw [doeLoop_round tenInts [] _ hs k 2 (by norm_num), e, hc]
      simpa using ih
  rw [ask_design ⟨tenInts, [], false, false, 1, 2⟩ rfl none _ _ [] (hloop 4)]
  rfl

end Verif.Props
