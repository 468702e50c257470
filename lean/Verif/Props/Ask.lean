import Verif.Proofs.Ask

/-! # C14, C15: what `ask` returns -/
namespace Verif.Props
open Verif.Model Verif.Spec Verif.Proofs

/-- The number of points a call of `ask` is supposed to return. -/
def requested (s : AskState) (n? : Option ℤ) : ℤ := n?.getD (if s.fitted then s.nPoint else s.doeSize)

private theorem argMax_spec (s : AskState) (n : ℤ) (hn : 1 ≤ n) (fixed : Option (List (String × Val)))
    (best : ℕ → Row)
    (hbest : ∀ i, best i = [] ∨ PointOf ((freeVars s.vars (fixed.getD [])).map Prod.snd) (best i)) :
    (argMaxAcquisition s n fixed best = .error .notImplemented ∧ s.parallel = false ∧ 1 < n) ∨
    ∃ C, argMaxAcquisition s n fixed best = .ok C ∧ (C.length : ℤ) ≤ n ∧
      ∀ x ∈ C, Honours s.vars (fixed.getD []) x := by
  have key : ∀ cands : List Row, (cands.length : ℤ) ≤ n → (∀ c ∈ cands, ∃ i, c = best i) →
      ∃ C, fillin (s.vars.map Prod.fst) fixed (cands.filter (fun c => !c.isEmpty)) = some C ∧
        (C.length : ℤ) ≤ n ∧ ∀ x ∈ C, Honours s.vars (fixed.getD []) x := by
    intro cands hl hc
    obtain ⟨Y, h1, h2, h3⟩ := fillin_spec s.vars fixed (cands.filter (fun c => !c.isEmpty)) (by
      intro r hr
      rw [List.mem_filter] at hr
      obtain ⟨i, rfl⟩ := hc r hr.1
      rcases hbest i with h | h
      · rw [h] at hr; simp at hr
      · exact h)
    refine ⟨Y, h1, ?_, h3⟩
    have := List.length_filter_le (fun c : Row => !c.isEmpty) cands
    omega
  unfold argMaxAcquisition
  by_cases h1 : n > 1
  · cases hp : s.parallel with
    | false => left; simp [h1, Except.bind]
    | true =>
      right
      obtain ⟨C, hC, h2, h3⟩ := key ((List.range n.toNat).map best) (by simp; omega) (by
        intro c hc
        obtain ⟨i, _, rfl⟩ := List.mem_map.mp hc
        exact ⟨i, rfl⟩)
      refine ⟨C, ?_, h2, h3⟩
      simp only [h1, if_true, Except.bind, hC]
  · right
    obtain ⟨C, hC, h2, h3⟩ := key [best 0] (by simp; omega) (by simp)
    refine ⟨C, ?_, h2, h3⟩
    simp only [h1, if_false, Except.bind, hC]

private theorem askPoints_spec (s : AskState) (n? : Option ℤ) (fixed : Option (List (String × Val)))
    (best : ℕ → Row) (sample : ℕ → ℤ → List Row) (hn : 1 ≤ requested s n?) (hb : OrderedBounds s.vars)
    (hr : RoundStable s.vars (fixed.getD [])) (hs : SamplerOk s.vars (fixed.getD []) sample)
    (hbest : ∀ i, best i = [] ∨ PointOf ((freeVars s.vars (fixed.getD [])).map Prod.snd) (best i)) :
    (askPoints s n? fixed best sample = .error .notImplemented ∧ s.fitted = true ∧ s.parallel = false ∧
      1 < requested s n?) ∨
    ∃ X, askPoints s n? fixed best sample = .ok X ∧ (X.length : ℤ) ≤ requested s n? ∧
      ∀ x ∈ X, Honours s.vars (fixed.getD []) x := by
  unfold askPoints
  cases hf : s.fitted with
  | false =>
    right
    have hreq : requested s n? = n?.getD s.doeSize := by simp [requested, hf]
    rw [hreq] at hn ⊢
    obtain ⟨X, h1, h2, h3⟩ := doeLoop_spec s.vars (fixed.getD []) s.data sample hb hr hs 4 (n?.getD s.doeSize) []
      (by omega)
    refine ⟨X, ?_, h2, h3⟩
    simp [createDoE, h1, liftShape]
  | true =>
    have hreq : requested s n? = n?.getD s.nPoint := by simp [requested, hf]
    rw [hreq] at hn ⊢
    rcases argMax_spec s _ hn fixed best hbest with ⟨h1, h2, h3⟩ | ⟨C, h1, h2, h3⟩
    · left
      simp only [if_true, h1, Except.bind]
      exact ⟨trivial, trivial, h2, h3⟩
    · right
      simp only [if_true, h1, Except.bind]
      have hl := preEvalCheck_length (s.vars.map Prod.snd) s.data C
      split_ifs with hlt
      · obtain ⟨X, g1, g2, g3⟩ := doeLoop_spec s.vars (fixed.getD []) s.data sample hb hr hs 4
          (n?.getD s.nPoint - (preEvalCheck (s.vars.map Prod.snd) s.data C).length) [] (by omega)
        refine ⟨preEvalCheck (s.vars.map Prod.snd) s.data C ++ X, ?_, ?_, ?_⟩
        · simp [createDoE, g1, liftShape, Except.map]
        · rw [List.length_append]; push_cast; omega
        · intro x hx
          rcases List.mem_append.mp hx with hx | hx
          · exact h3 x (preEvalCheck_subset hx)
          · exact g3 x hx
      · exact ⟨_, rfl, by omega, fun x hx => h3 x (preEvalCheck_subset hx)⟩

/-- C14, partial: for a request of at least one point, `ask` returns between one and the requested number of
points, and each has the full dimension, the fixed values in the fixed coordinates and lies in the space in the
others.  It assumes that the sampler and the acquisition optimiser return points of the free sub-space, and
that the fixed values are unchanged by rounding; without the latter the claim fails
(`c14_fixed_value_rounded`), and for a request of zero points it fails too (`c14_zero_request`). -/
theorem c14_ask_partial (s : AskState) (n? : Option ℤ) (fixed : Option (List (String × Val)))
    (best : ℕ → Row) (sample : ℕ → ℤ → List Row) (X : List Row) (hn : 1 ≤ requested s n?)
    (hb : OrderedBounds s.vars) (hr : RoundStable s.vars (fixed.getD []))
    (hs : SamplerOk s.vars (fixed.getD []) sample)
    (hbest : ∀ i, best i = [] ∨ PointOf ((freeVars s.vars (fixed.getD [])).map Prod.snd) (best i))
    (h : ask s n? fixed best sample = .ok X) :
    1 ≤ X.length ∧ (X.length : ℤ) ≤ requested s n? ∧ ∀ x ∈ X, Honours s.vars (fixed.getD []) x := by
  unfold ask at h
  rcases askPoints_spec s n? fixed best sample hn hb hr hs hbest with ⟨h1, _⟩ | ⟨Y, h1, h2, h3⟩
  · rw [h1] at h; cases h
  · rw [h1] at h
    simp only [Except.bind] at h
    split_ifs at h with he
    cases h
    refine ⟨?_, h2, h3⟩
    cases X with
    | nil => simp at he
    | cons a l => simp

/-- C14: the only exceptions are `AskEmptyError` and, for the sequential class asked for several points with a
fitted model, `NotImplementedError`. -/
theorem c14_errors (s : AskState) (n? : Option ℤ) (fixed : Option (List (String × Val)))
    (best : ℕ → Row) (sample : ℕ → ℤ → List Row) (e : AskErr) (hn : 1 ≤ requested s n?)
    (hb : OrderedBounds s.vars) (hr : RoundStable s.vars (fixed.getD []))
    (hs : SamplerOk s.vars (fixed.getD []) sample)
    (hbest : ∀ i, best i = [] ∨ PointOf ((freeVars s.vars (fixed.getD [])).map Prod.snd) (best i))
    (h : ask s n? fixed best sample = .error e) :
    e = .empty ∨ (e = .notImplemented ∧ s.fitted = true ∧ s.parallel = false ∧ 1 < requested s n?) := by
  unfold ask at h
  rcases askPoints_spec s n? fixed best sample hn hb hr hs hbest with ⟨h1, h2⟩ | ⟨Y, h1, h2, h3⟩
  · rw [h1] at h
    cases h
    exact Or.inr ⟨rfl, h2⟩
  · rw [h1] at h
    simp only [Except.bind] at h
    split_ifs at h with he
    cases h
    exact Or.inl rfl

theorem preEvalCheck_singleton (ks : List Kind) (x : Row) : preEvalCheck ks [] [x] = [x] := by
  simp [preEvalCheck]

/-- C14 refuted: with a precision on a real variable, the initial design moves a fixed value (here 3/10) to the
grid (here 0). -/
theorem c14_fixed_value_rounded :
    let s : AskState := { vars := [("a", .real { lo := 0, hi := 1, precision := some 0 }), ("b", .real { lo := 0, hi := 1 })], data := [], fitted := false, parallel := false, nPoint := 1, doeSize := 1 }
    ask s none (some [("a", .real (3 / 10))]) (fun _ => []) (fun _ _ => [[.real (1 / 2)]]) =
      .ok [[.real 0, .real (1 / 2)]] := by
  intro s
  have hround : (RealVar.round { lo := 0, hi := 1, precision := some 0 } (3 / 10 : ℝ)) = 0 := by
    have : rint (3 / 10 : ℝ) = 0 := by
      unfold rint
      have hfl : ⌊(3 / 10 : ℝ)⌋ = 0 := by
        rw [Int.floor_eq_iff]; norm_num
      rw [hfl]
      norm_num
    simp [RealVar.round, npRound, clip, this]
  have hround2 : (RealVar.round { lo := 0, hi := 1 } (1 / 2 : ℝ)) = 1 / 2 := by simp [RealVar.round]
  have hfill : fillin ["a", "b"] (some [("a", Val.real (3 / 10))]) [[Val.real (1 / 2)]] =
      some [[.real (3 / 10), .real (1 / 2)]] := by
    simp [fillin, fillRow, List.lookup]
  have hdoe : createDoE s.vars (some [("a", .real (3 / 10))]) s.data (fun _ _ => [[.real (1 / 2)]]) 1 =
      some [[.real 0, .real (1 / 2)]] := by
    simp only [createDoE, Option.getD_some]
    unfold doeLoop
    simp only [s, List.map_cons, List.map_nil, hfill, Option.bind_some, one_ne_zero, if_false,
      List.isEmpty_cons, Bool.false_eq_true, roundRow, List.zipWith_cons_cons, List.zipWith_nil_left, roundVal,
      hround, hround2, preEvalCheck_singleton, List.length_singleton, List.nil_append]
    unfold doeLoop
    simp
  simp only [ask, askPoints]
  have hf : s.fitted = false := rfl
  have hd : (none : Option ℤ).getD s.doeSize = 1 := rfl
  rw [hf, hd, hdoe]
  rfl

/-- C14 refuted: with a fitted model a request of zero points returns one. -/
theorem c14_zero_request (vars : Vars) (d : List Row) (x : Row) (p : Bool) (np ds : ℤ) (hx : x ≠ [])
    (hnew : preEvalCheck (vars.map Prod.snd) d [x] = [x]) :
    ask { vars := vars, data := d, fitted := true, parallel := p, nPoint := np, doeSize := ds } (some 0) none
      (fun _ => x) (fun _ _ => []) = .ok [x] := by
  have hx' : x.isEmpty = false := by cases x with | nil => exact absurd rfl hx | cons a l => rfl
  simp [ask, askPoints, argMaxAcquisition, fillin, Except.bind, hnew, hx']

example : preEvalCheck (List.map Prod.snd [("a", Kind.real { lo := 0, hi := 1 })]) [] [[.real 0]] = [[.real 0]] :=
  preEvalCheck_singleton _ _

/-- The hypotheses of `c14_ask_partial` and `c14_errors` hold for a mixed space with one fixed variable. -/
example :
    let vars : Vars := [("a", .real { lo := 0, hi := 1, precision := some 0 }), ("b", .integer { lo := 0, hi := 9 })]
    let fixed : List (String × Val) := [("a", .real 1)]
    OrderedBounds vars ∧ RoundStable vars fixed ∧ SamplerOk vars fixed (fun _ _ => [[.int 3]]) ∧
      PointOf ((freeVars vars fixed).map Prod.snd) [.int 4] := by
  intro vars fixed
  have hfree : (freeVars vars fixed).map Prod.snd = [.integer { lo := 0, hi := 9 }] := by
    simp [freeVars, vars, fixed, List.filter_cons, List.lookup]
  have hp : ∀ z : ℤ, 0 ≤ z → z ≤ 9 → PointOf ((freeVars vars fixed).map Prod.snd) [.int z] := by
    intro z h0 h1
    rw [hfree]
    refine ⟨rfl, ?_⟩
    intro j k v hj hv
    cases j with
    | succ j => simp at hj
    | zero =>
      simp only [List.getElem?_cons_zero, Option.some.injEq] at hj hv
      subst hj; subst hv
      simp only [Kind.contains, IntVar.contains]
      exact ⟨by exact_mod_cast h0, by exact_mod_cast h1⟩
  refine ⟨?_, ?_, ?_, hp 4 (by norm_num) (by norm_num)⟩
  · intro name v h
    simp [vars] at h
    obtain ⟨_, rfl⟩ := h
    norm_num
  · intro name v w h hl
    simp [vars] at h
    obtain ⟨rfl, rfl⟩ := h
    simp [fixed, List.lookup] at hl
    subst hl
    have : rint (1 : ℝ) = 1 := by
      unfold rint
      have hfl : ⌊(1 : ℝ)⌋ = 1 := by simp
      rw [hfl]; norm_num
    simp [RealVar.round, npRound, clip, this]
  · intro k n hn
    refine ⟨by simp; omega, ?_⟩
    intro r hr
    simp only [List.mem_singleton] at hr
    subst hr
    exact hp 3 (by norm_num) (by norm_num)

/-! ## C15 -/

/-- C15, the duplicate check: a candidate survives iff it differs from every recorded point and from every other
candidate of the list. -/
theorem c15_check_exact (ks : List Kind) (data X : List Row) (x : Row) :
    x ∈ preEvalCheck ks data X ↔ ∃ i : ℕ, X[i]? = some x ∧ (∀ d ∈ data, Differs ks x d) ∧
      ∀ (j : ℕ) y, X[j]? = some y → j ≠ i → Differs ks x y := by
  rw [mem_preEvalCheck]
  constructor
  · rintro ⟨i, h1, h2, h3⟩
    exact ⟨i, h1, fun d hd => differs_of_not_matches (h2 d hd),
      fun j y hj hji => differs_of_not_matches (h3 j y hj hji)⟩
  · rintro ⟨i, h1, h2, h3⟩
    exact ⟨i, h1, fun d hd => not_matches_of_differs (h2 d hd),
      fun j y hj hji => not_matches_of_differs (h3 j y hj hji)⟩

private theorem ask_blocks (s : AskState) (n? : Option ℤ) (fixed : Option (List (String × Val)))
    (best : ℕ → Row) (sample : ℕ → ℤ → List Row) (X : List Row) (h : ask s n? fixed best sample = .ok X) :
    ∃ blocks : List (List Row), X = blocks.flatten ∧ blocks.length ≤ 5 ∧
      ∀ b ∈ blocks, ∃ Y, b = preEvalCheck (s.vars.map Prod.snd) s.data Y := by
  have hdoe : ∀ n D, createDoE s.vars fixed s.data sample n = some D →
      ∃ blocks : List (List Row), D = blocks.flatten ∧ blocks.length ≤ 4 ∧
        ∀ b ∈ blocks, ∃ Y, b = preEvalCheck (s.vars.map Prod.snd) s.data Y := by
    intro n D hD
    obtain ⟨bs, h1, h2, h3⟩ := doeLoop_blocks s.vars (fixed.getD []) s.data sample 4 n [] D hD
    exact ⟨bs, by simpa using h1, h2, h3⟩
  unfold ask at h
  cases hp : askPoints s n? fixed best sample with
  | error e => rw [hp] at h; cases h
  | ok X' =>
    rw [hp] at h
    simp only [Except.bind] at h
    split_ifs at h with he
    cases h
    unfold askPoints at hp
    cases hf : s.fitted with
    | false =>
      rw [hf] at hp
      simp only [Bool.false_eq_true, if_false] at hp
      cases hD : createDoE s.vars fixed s.data sample (n?.getD s.doeSize) with
      | none => rw [hD] at hp; cases hp
      | some D =>
        rw [hD] at hp
        cases hp
        obtain ⟨bs, h1, h2, h3⟩ := hdoe _ _ hD
        exact ⟨bs, h1, by omega, h3⟩
    | true =>
      rw [hf] at hp
      simp only [if_true] at hp
      cases hC : argMaxAcquisition s (n?.getD s.nPoint) fixed best with
      | error e => rw [hC] at hp; cases hp
      | ok C =>
        rw [hC] at hp
        simp only [Except.bind] at hp
        split_ifs at hp with hlt
        · cases hD : createDoE s.vars fixed s.data sample
              (n?.getD s.nPoint - (preEvalCheck (s.vars.map Prod.snd) s.data C).length) with
          | none => rw [hD] at hp; cases hp
          | some D =>
            rw [hD] at hp
            cases hp
            obtain ⟨bs, h1, h2, h3⟩ := hdoe _ _ hD
            refine ⟨preEvalCheck (s.vars.map Prod.snd) s.data C :: bs, by simp [h1], by simp; omega, ?_⟩
            intro b hb
            rcases List.mem_cons.mp hb with rfl | hb
            · exact ⟨C, rfl⟩
            · exact h3 b hb
        · cases hp
          exact ⟨[preEvalCheck (s.vars.map Prod.snd) s.data C], by simp, by simp, by
            intro b hb; exact ⟨C, List.mem_singleton.mp hb⟩⟩

/-- C15: no point returned by `ask`, whatever the sampler and the acquisition optimiser deliver, coincides with a
recorded one. -/
theorem c15_differs_from_recorded (s : AskState) (n? : Option ℤ) (fixed : Option (List (String × Val)))
    (best : ℕ → Row) (sample : ℕ → ℤ → List Row) (X : List Row) (h : ask s n? fixed best sample = .ok X) :
    ∀ x ∈ X, ∀ d ∈ s.data, Differs (s.vars.map Prod.snd) x d := by
  obtain ⟨bs, rfl, _, hb⟩ := ask_blocks s n? fixed best sample X h
  intro x hx d hd
  obtain ⟨b, hbm, hxb⟩ := List.mem_flatten.mp hx
  obtain ⟨Y, rfl⟩ := hb b hbm
  obtain ⟨i, _, h2, _⟩ := mem_preEvalCheck.mp hxb
  exact differs_of_not_matches (h2 d hd)

/-- C15: in particular a returned point whose real coordinates are floats is not equal to a recorded one. -/
theorem c15_not_recorded (s : AskState) (n? : Option ℤ) (fixed : Option (List (String × Val)))
    (best : ℕ → Row) (sample : ℕ → ℤ → List Row) (X : List Row) (h : ask s n? fixed best sample = .ok X)
    (x : Row) (hx : x ∈ X)
    (hfloat : ∀ (j : ℕ) k, (s.vars.map Prod.snd)[j]? = some k → k.vtype = .real → ∃ a, x[j]? = some (.real a)) :
    x ∉ s.data := by
  intro hd
  obtain ⟨j, k, hk, h1, h2⟩ := c15_differs_from_recorded s n? fixed best sample X h x hx x hd
  by_cases ht : k.vtype = .real
  · obtain ⟨a, ha⟩ := hfloat j k hk ht
    have := h2 ht a a ha ha
    rw [sub_self, abs_zero] at this
    have h0 := abs_nonneg a
    have : (0:ℝ) ≤ 1 / 10 ^ 8 + 1 / 10 ^ 5 * |a| := by positivity
    linarith
  · exact h1 ht rfl

/-- C15, partial: the batch is made of at most five blocks (the acquisition points and up to four random
samples); inside a block the points are pairwise different.  Across blocks nothing is checked, see
`c15_duplicates_across_samples` and `c15_topup_duplicates`. -/
theorem c15_batch_blocks_partial (s : AskState) (n? : Option ℤ) (fixed : Option (List (String × Val)))
    (best : ℕ → Row) (sample : ℕ → ℤ → List Row) (X : List Row) (h : ask s n? fixed best sample = .ok X) :
    ∃ blocks : List (List Row), X = blocks.flatten ∧ blocks.length ≤ 5 ∧
      ∀ b ∈ blocks, b.Pairwise (fun x y => Differs (s.vars.map Prod.snd) x y ∧ Differs (s.vars.map Prod.snd) y x) := by
  obtain ⟨bs, h1, h2, h3⟩ := ask_blocks s n? fixed best sample X h
  refine ⟨bs, h1, h2, fun b hb => ?_⟩
  obtain ⟨Y, rfl⟩ := h3 b hb
  exact (preEvalCheck_pairwise _ _ _).imp (fun h => ⟨differs_of_not_matches h.1, differs_of_not_matches h.2⟩)

private theorem doeLoop_empty (vars : Vars) (fixed : List (String × Val)) (data : List Row) :
    ∀ k n acc, doeLoop vars fixed data (fun _ _ => []) k n acc = some acc := by
  intro k
  induction k with
  | zero => intro n acc; rfl
  | succ k ih =>
    intro n acc
    unfold doeLoop
    split_ifs with h0
    · rfl
    · simp [fillin, ih]

/-- C15, partial: when the batch does not depend on the random sampler (no top-up was needed), its points are
pairwise different. -/
theorem c15_batch_distinct_without_topup_partial (s : AskState) (n? : Option ℤ)
    (fixed : Option (List (String × Val))) (best : ℕ → Row) (X : List Row)
    (h : ∀ sample, ask s n? fixed best sample = .ok X) :
    X.Pairwise (fun x y => Differs (s.vars.map Prod.snd) x y ∧ Differs (s.vars.map Prod.snd) y x) := by
  have h := h (fun _ _ => [])
  have hcd : ∀ n, createDoE s.vars fixed s.data (fun _ _ => []) n = some [] := by
    intro n; exact doeLoop_empty _ _ _ 4 n []
  have hb : ∃ Y, X = preEvalCheck (s.vars.map Prod.snd) s.data Y := by
    unfold ask at h
    cases hp : askPoints s n? fixed best (fun _ _ => []) with
    | error e => rw [hp] at h; cases h
    | ok X' =>
      rw [hp] at h
      simp only [Except.bind] at h
      split_ifs at h with he
      cases h
      unfold askPoints at hp
      simp only [hcd, liftShape] at hp
      cases hf : s.fitted with
      | false =>
        rw [hf] at hp
        cases hp
        simp at he
      | true =>
        rw [hf] at hp
        simp only [if_true] at hp
        cases hC : argMaxAcquisition s (n?.getD s.nPoint) fixed best with
        | error e => rw [hC] at hp; cases hp
        | ok C =>
          rw [hC] at hp
          simp only [Except.bind, Except.map, List.append_nil, ite_self] at hp
          cases hp
          exact ⟨C, rfl⟩
  obtain ⟨Y, rfl⟩ := hb
  exact (preEvalCheck_pairwise _ _ _).imp (fun h => ⟨differs_of_not_matches h.1, differs_of_not_matches h.2⟩)

private theorem ids_int (v : IntVar) : typeIds [Kind.integer v] .real = [] ∧ typeIds [Kind.integer v] .integer = [0] ∧
    categoricalIds [Kind.integer v] = [] := by
  refine ⟨?_, ?_, ?_⟩ <;> simp [categoricalIds, typeIds, List.range_succ, Kind.vtype]

private theorem matches_int (v : IntVar) (a b : ℤ) : matchesRow [Kind.integer v] [.int a] [.int b] ↔ a = b := by
  obtain ⟨h1, h2, h3⟩ := ids_int v
  simp [matchesRow, h1, h2, h3]

/-- C15 refuted: an initial design of three points can contain the same point twice.  The first sample is
`0, 0, 1`, of which both zeros are dropped; the second sample `1, 2` is not compared with the point already
collected. -/
theorem c15_duplicates_across_samples :
    let s : AskState := { vars := [("i", .integer { lo := 0, hi := 9 })], data := [], fitted := false, parallel := false, nPoint := 1, doeSize := 3 }
    ask s none none (fun _ => []) (fun k _ => if k = 3 then [[.int 0], [.int 0], [.int 1]] else [[.int 1], [.int 2]])
      = .ok [[.int 1], [.int 1], [.int 2]] := by
  intro s
  have c1 : preEvalCheck [Kind.integer { lo := 0, hi := 9 }] [] [[.int 0], [.int 0], [.int 1]] = [[.int 1]] := by
    simp [preEvalCheck, List.range_succ, matches_int]
  have c2 : preEvalCheck [Kind.integer { lo := 0, hi := 9 }] [] [[.int 1], [.int 2]] = [[.int 1], [.int 2]] := by
    simp [preEvalCheck, List.range_succ, matches_int]
  have r : ∀ z, roundRow [Kind.integer { lo := 0, hi := 9 }] [.int z] = [.int z] := by
    intro z; simp [roundRow, roundVal]
  have f1 : fillin ["i"] (some []) [[Val.int 0], [Val.int 0], [Val.int 1]] = some [[.int 0], [.int 0], [.int 1]] := by
    simp [fillin, fillRow]
  have f2 : fillin ["i"] (some []) [[Val.int 1], [Val.int 2]] = some [[.int 1], [.int 2]] := by
    simp [fillin, fillRow]
  let S : ℕ → ℤ → List Row := fun k _ => if k = 3 then [[.int 0], [.int 0], [.int 1]] else [[.int 1], [.int 2]]
  have s3 : ∀ acc, doeLoop s.vars [] [] S 2 0 acc = some acc := by intro acc; unfold doeLoop; simp
  have s2 : ∀ acc, doeLoop s.vars [] [] S 3 2 acc = some (acc ++ [[.int 1], [.int 2]]) := by
    intro acc
    unfold doeLoop
    have hS : S 2 2 = [[.int 1], [.int 2]] := rfl
    have hv : s.vars.map Prod.fst = ["i"] := rfl
    have hk : s.vars.map Prod.snd = [Kind.integer { lo := 0, hi := 9 }] := rfl
    rw [if_neg (by norm_num), hS, hv, f2, Option.bind_some, hk]
    simp only [List.isEmpty_cons, Bool.false_eq_true, if_false, List.map_cons, List.map_nil, r, c2]
    exact s3 _
  have s1 : doeLoop s.vars [] [] S 4 3 [] = some [[.int 1], [.int 1], [.int 2]] := by
    unfold doeLoop
    have hS : S 3 3 = [[.int 0], [.int 0], [.int 1]] := rfl
    have hv : s.vars.map Prod.fst = ["i"] := rfl
    have hk : s.vars.map Prod.snd = [Kind.integer { lo := 0, hi := 9 }] := rfl
    rw [if_neg (by norm_num), hS, hv, f1, Option.bind_some, hk]
    simp only [List.isEmpty_cons, Bool.false_eq_true, if_false, List.map_cons, List.map_nil, r, c1]
    exact s2 _
  change ask s none none (fun _ => []) S = _
  have hf : s.fitted = false := rfl
  have hd : createDoE s.vars none s.data S ((none : Option ℤ).getD s.doeSize) = some [[.int 1], [.int 1], [.int 2]] := s1
  simp only [ask, askPoints, hf, Bool.false_eq_true, if_false, hd]
  rfl

/-- C15 refuted: a batch of two can repeat an acquisition point.  The first maximiser `1` is new, the second `0`
is already recorded; the random point taken instead is `1` again and is only compared with the data. -/
theorem c15_topup_duplicates :
    let s : AskState := { vars := [("i", .integer { lo := 0, hi := 9 })], data := [[.int 0]], fitted := true, parallel := true, nPoint := 2, doeSize := 3 }
    ask s none none (fun i => if i = 0 then [.int 1] else [.int 0]) (fun _ _ => [[.int 1]])
      = .ok [[.int 1], [.int 1]] := by
  intro s
  have c1 : preEvalCheck [Kind.integer { lo := 0, hi := 9 }] [[.int 0]] [[.int 1], [.int 0]] = [[.int 1]] := by
    simp [preEvalCheck, List.range_succ, matches_int]
  have c2 : preEvalCheck [Kind.integer { lo := 0, hi := 9 }] [[.int 0]] [[.int 1]] = [[.int 1]] := by
    simp [preEvalCheck, List.range_succ, matches_int]
  have r : ∀ z, roundRow [Kind.integer { lo := 0, hi := 9 }] [.int z] = [.int z] := by
    intro z; simp [roundRow, roundVal]
  have hd : createDoE s.vars none s.data (fun _ _ => [[.int 1]]) 1 = some [[.int 1]] := by
    simp only [createDoE, Option.getD_none, s]
    unfold doeLoop
    simp only [fillin, List.map_cons, List.map_nil, fillRow, List.lookup, List.mapM_cons, List.mapM_nil,
      Option.map_some, Option.bind_some, Option.pure_def, Option.bind_eq_bind, r, c2, List.isEmpty_cons,
      Bool.false_eq_true, if_false, List.nil_append, List.length_singleton, one_ne_zero]
    unfold doeLoop
    simp
  have ha : argMaxAcquisition s 2 none (fun i => if i = 0 then [.int 1] else [.int 0]) =
      .ok [[.int 1], [.int 0]] := by
    simp [argMaxAcquisition, s, List.range_succ, Except.bind, fillin]
  have hn : (none : Option ℤ).getD s.nPoint = 2 := rfl
  have hf : s.fitted = true := rfl
  have hk : s.vars.map Prod.snd = [Kind.integer { lo := 0, hi := 9 }] := rfl
  have hdt : s.data = [[.int 0]] := rfl
  simp only [ask, askPoints, hf, hn, ha, if_true, Except.bind, hk]
  rw [hdt, c1]
  have : ((([[Val.int 1]] : List Row).length : ℤ) < 2) := by norm_num
  rw [if_pos this]
  have h1 : (2 - (([[Val.int 1]] : List Row).length : ℤ)) = 1 := by norm_num
  rw [h1, ← hdt, hd]
  rfl

/-- The premise of `c15_batch_distinct_without_topup_partial` is met by a batch of two new points. -/
example :
    let s : AskState := { vars := [("i", .integer { lo := 0, hi := 9 })], data := [[.int 0]], fitted := true, parallel := true, nPoint := 2, doeSize := 3 }
    ∀ sample, ask s none none (fun i => if i = 0 then [.int 1] else [.int 2]) sample =
      .ok [[.int 1], [.int 2]] := by
  intro s sample
  have c1 : preEvalCheck [Kind.integer { lo := 0, hi := 9 }] [[.int 0]] [[.int 1], [.int 2]] =
      [[.int 1], [.int 2]] := by
    simp [preEvalCheck, List.range_succ, matches_int]
  simp [ask, askPoints, argMaxAcquisition, s, List.range_succ, Except.bind, fillin, c1]

end Verif.Props
