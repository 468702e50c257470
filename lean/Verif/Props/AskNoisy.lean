import Verif.Model.AskNoisy
import Verif.Props.AskFull

/-!
# Property C149: proposals of the noisy optimiser
-/
namespace Verif.Props
open Verif.Model Verif.Proofs Verif.Spec

/-- The number of searches that one call of `ask` makes. -/
private def searches (n : ℤ) : ℕ := if n > 1 then n.toNat else 1

private theorem doe_never {vars : Vars} {fixed : List (String × Val)} {sample : ℕ → ℤ → List Row} :
    ∀ (k : ℕ) (n : ℤ) (X : List Row), noisyDoeLoop vars fixed sample k n = .ok X → X = []
  | 0, n, X, h => by cases h; rfl
  | k + 1, n, X, h => by
    unfold noisyDoeLoop at h
    split_ifs at h with h0
    · cases h; rfl
    · split at h
      · cases h
      · split_ifs at h with h1
        · exact doe_never k n X h
        · split at h <;> cases h

/-- C149 is false: the noisy optimiser cannot propose an initial design.  Before a model is fitted `ask` raises, whatever
the space, the request and the sampler. -/
theorem c149_first_ask_raises (s : AskState) (hs : s.fitted = false) (n? : Option ℤ)
    (fixed : Option (List (String × Val))) (best : ℕ → Row) (sample : ℕ → ℤ → List Row) (X : List Row) :
    askNoisy s n? fixed best sample ≠ .ok X := by
  unfold askNoisy noisyPoints
  simp only [hs, Bool.false_eq_true, if_false]
  cases h : noisyDoE s.vars fixed sample (n?.getD s.doeSize) with
  | error e => simp
  | ok Y =>
    have : Y = [] := doe_never 4 _ Y h
    subst this
    simp

/-- C149: the error of the first call, for a sampler that returns points of the space and a positive request. -/
theorem c149_first_ask_error (s : AskState) (hs : s.fitted = false) (n? : Option ℤ)
    (fixed : Option (List (String × Val))) (best : ℕ → Row) (sample : ℕ → ℤ → List Row)
    (hn : 1 ≤ requested s n?) (hok : SamplerOk s.vars (fixed.getD []) sample)
    (hne : sample 3 (requested s n?) ≠ []) :
    askNoisy s n? fixed best sample = .error (if 2 ≤ s.vars.length then .broadcast else .assertion) := by
  have hreq : requested s n? = n?.getD s.doeSize := by simp [requested, hs]
  rw [hreq] at hn hne
  unfold askNoisy noisyPoints
  simp only [hs, Bool.false_eq_true, if_false]
  set n := n?.getD s.doeSize with hnd
  obtain ⟨Y, hY, hlen, _⟩ := fillin_spec s.vars (some (fixed.getD [])) (sample 3 n) (hok 3 n (by omega)).2
  have hYne : Y.isEmpty = false := by
    cases Y with
    | nil => exact absurd (List.length_eq_zero_iff.1 hlen.symm) hne
    | cons a as => rfl
  have hdoe : noisyDoE s.vars fixed sample n = .error (emptyPlusArray s.vars.length) := by
    unfold noisyDoE noisyDoeLoop
    rw [if_neg (by omega), hY]
    simp only [hYne, Bool.false_eq_true, if_false]
    have : noisyCheck (Y.map (roundRow (s.vars.map Prod.snd))) = .ok (Y.map (roundRow (s.vars.map Prod.snd))) := by
      unfold noisyCheck
      cases Y with
      | nil => cases hYne
      | cons a as => rfl
    rw [this]
  rw [hdoe]
  rfl

private theorem argMax_eq (s : AskState) (n : ℤ) (fixed : Option (List (String × Val))) (best : ℕ → Row) :
    argMaxAcquisition { s with parallel := true } n fixed best =
      match fillin (s.vars.map Prod.fst) fixed
        (((List.range (searches n)).map best).filter (fun c => !c.isEmpty)) with
      | none => .error .shape
      | some X => .ok X := by
  unfold argMaxAcquisition searches
  by_cases h : n > 1
  · simp only [h, if_true]; rfl
  · simp only [h, if_false]; rfl

/-- C149, exactly when `ask` returns and what, for candidates that are points of the free sub-space or not found (`[]`): a
model has been fitted and every one of the searches found a candidate.  The result is then these candidates in order, with
the fixed values filled in; nothing is compared with the recorded points. -/
theorem c149_ask_iff_partial (s : AskState) (n? : Option ℤ) (fixed : Option (List (String × Val)))
    (best : ℕ → Row) (sample : ℕ → ℤ → List Row)
    (hbest : ∀ i, best i = [] ∨ PointOf ((freeVars s.vars (fixed.getD [])).map Prod.snd) (best i)) (X : List Row) :
    let n := n?.getD s.nPoint
    let count := if n > 1 then n.toNat else 1
    askNoisy s n? fixed best sample = .ok X ↔
      s.fitted = true ∧ (∀ i < count, best i ≠ []) ∧
        fillin (s.vars.map Prod.fst) fixed ((List.range count).map best) = some X := by
  intro n count
  have hcount : count = searches n := rfl
  have hc1 : 1 ≤ count := by
    show 1 ≤ if n > 1 then n.toNat else 1
    split_ifs <;> omega
  have hcn : n ≤ count := by
    show n ≤ ((if n > 1 then n.toNat else 1 : ℕ) : ℤ)
    split_ifs <;> omega
  cases hs : s.fitted with
  | false =>
    constructor
    · intro h; exact absurd h (c149_first_ask_raises s hs n? fixed best sample X)
    · rintro ⟨h, _⟩; cases h
  | true =>
    set found := ((List.range count).map best).filter (fun c => !c.isEmpty) with hf
    obtain ⟨Y, hY, hlen, _⟩ := fillin_spec s.vars fixed found (by
      intro r hr
      obtain ⟨hm, hr2⟩ := List.mem_filter.1 hr
      obtain ⟨i, _, rfl⟩ := List.mem_map.1 hm
      rcases hbest i with h | h
      · rw [h] at hr2; cases hr2
      · exact h)
    have harg : argMaxAcquisition { s with parallel := true } n fixed best = .ok Y := by
      rw [argMax_eq, ← hcount, ← hf, hY]
    have hpts : noisyPoints s n? fixed best sample =
        match noisyCheck Y with
        | .error e => .error e
        | .ok X =>
          if (X.length : ℤ) < n then
            match noisyDoE s.vars fixed sample (n - X.length) with
            | .error e => .error e
            | .ok _ => .error .assertion
          else .ok X := by
      unfold noisyPoints
      rw [if_pos hs]
      show (match argMaxAcquisition { s with parallel := true } n fixed best with
        | .error e => _
        | .ok C => _) = _
      rw [harg]
      rfl
    unfold askNoisy
    rw [hpts]
    have hfl : found.length ≤ count := by
      rw [hf]
      refine (List.length_filter_le _ _).trans ?_
      simp
    by_cases hall : ∀ i < count, best i ≠ []
    · have hfe : found = (List.range count).map best := by
        rw [hf, List.filter_eq_self]
        intro r hr
        obtain ⟨i, hi, rfl⟩ := List.mem_map.1 hr
        have := hall i (List.mem_range.1 hi)
        cases hb : best i with
        | nil => exact absurd hb this
        | cons a as => rfl
      have hYl : Y.length = count := by rw [hlen, hfe]; simp
      have hYne : Y.isEmpty = false := by
        cases Y with
        | nil => simp at hYl; omega
        | cons a as => rfl
      have hnl : ¬ ((Y.length : ℤ) < n) := by rw [hYl]; omega
      simp only [noisyCheck, hYne, Bool.false_eq_true, if_false, hnl]
      rw [hfe] at hY
      constructor
      · intro h
        cases h
        exact ⟨trivial, hall, hY⟩
      · rintro ⟨_, _, h⟩
        rw [hY] at h
        cases h
        rfl
    · have hlt : found.length < count := by
        rcases Nat.lt_or_ge found.length count with h | h
        · exact h
        · exfalso
          apply hall
          have hle : ((List.range count).map best).length ≤ found.length := by simpa using h
          have hsub : found.Sublist ((List.range count).map best) := by rw [hf]; exact List.filter_sublist
          have heq := hsub.eq_of_length_le hle
          intro i hi hb
          have hm : best i ∈ found := by rw [heq]; exact List.mem_map.2 ⟨i, List.mem_range.2 hi, rfl⟩
          rw [hf] at hm
          have := (List.mem_filter.1 hm).2
          rw [hb] at this
          cases this
      have hrhs : ¬ (true = true ∧ (∀ i < count, best i ≠ []) ∧
          fillin (s.vars.map Prod.fst) fixed ((List.range count).map best) = some X) := fun h => hall h.2.1
      refine iff_of_false ?_ hrhs
      cases hYe : Y.isEmpty with
      | true => simp [noisyCheck, hYe]
      | false =>
        have hYpos : 1 ≤ Y.length := by
          cases Y with
          | nil => cases hYe
          | cons a as => simp
        have hlt' : (Y.length : ℤ) < n := by
          have h2 : Y.length < count := by omega
          have h3 : count = n.toNat ∧ n > 1 := by
            by_cases h : n > 1
            · exact ⟨if_pos h, h⟩
            · have : count = 1 := if_neg h
              omega
          omega
        simp only [noisyCheck, hYe, Bool.false_eq_true, if_false, hlt', if_true]
        split <;> rename_i h <;> (revert h; split <;> intro h <;> cases h) <;> simp

/-- C149: when `ask` returns, the number of points is the number asked for (one if less was asked for) and every point
honours the space and the fixed values. -/
theorem c149_points (s : AskState) (n? : Option ℤ) (fixed : Option (List (String × Val)))
    (best : ℕ → Row) (sample : ℕ → ℤ → List Row)
    (hbest : ∀ i, best i = [] ∨ PointOf ((freeVars s.vars (fixed.getD [])).map Prod.snd) (best i)) (X : List Row)
    (h : askNoisy s n? fixed best sample = .ok X) :
    (X.length : ℤ) = max 1 (n?.getD s.nPoint) ∧ ∀ x ∈ X, Honours s.vars (fixed.getD []) x := by
  obtain ⟨_, hall, hfill⟩ := (c149_ask_iff_partial s n? fixed best sample hbest X).1 h
  obtain ⟨Y, hY, hlen, hhon⟩ := fillin_spec s.vars fixed _ (by
    intro r hr
    obtain ⟨i, hi, rfl⟩ := List.mem_map.1 hr
    rcases hbest i with h | h
    · exact absurd h (hall i (List.mem_range.1 hi))
    · exact h)
  rw [hY] at hfill
  cases hfill
  refine ⟨?_, hhon⟩
  rw [hlen]
  simp only [List.length_map, List.length_range]
  split_ifs <;> omega

/-- C149 is false: if one of the searches of a batch finds no feasible candidate, `ask` raises, where the other optimisers
take a random point instead. -/
theorem c149_failed_search_raises (s : AskState) (n? : Option ℤ) (fixed : Option (List (String × Val)))
    (best : ℕ → Row) (sample : ℕ → ℤ → List Row)
    (hbest : ∀ i, best i = [] ∨ PointOf ((freeVars s.vars (fixed.getD [])).map Prod.snd) (best i)) (i : ℕ)
    (hi : (i : ℤ) < max 1 (n?.getD s.nPoint)) (hfail : best i = []) (X : List Row) :
    askNoisy s n? fixed best sample ≠ .ok X := by
  intro h
  obtain ⟨_, hall, _⟩ := (c149_ask_iff_partial s n? fixed best sample hbest X).1 h
  refine hall i ?_ hfail
  split_ifs <;> omega

/-- A fitted noisy optimiser with three searches that succeed: the recorded point `[3]` is proposed again, which is
intended under noise. -/
example :
    let s : AskState := { vars := [("i", .integer { lo := 0, hi := 9 })], data := [[.int 3]], fitted := true, parallel := true, nPoint := 3, doeSize := 5 }
    askNoisy s none none (fun _ => [.int 3]) (fun _ _ => []) = .ok [[.int 3], [.int 3], [.int 3]] := by
  intro s
  refine (c149_ask_iff_partial s none none _ _ (fun i => Or.inr ?_) _).2 ⟨rfl, ?_, rfl⟩
  · refine ⟨by simp [s, freeVars], ?_⟩
    intro j k v hk hv
    cases j with
    | zero =>
      simp [s, freeVars] at hk hv
      subst hk hv
      simp [Kind.contains, IntVar.contains]
      norm_num
    | succ j => simp at hv
  · intro i _
    simp

/-- A sampler and an optimiser without model, as in `c149_first_ask_error`. -/
example :
    let s : AskState := { vars := [("a", .integer { lo := 0, hi := 9 }), ("b", .integer { lo := 0, hi := 9 })], data := [], fitted := false, parallel := true, nPoint := 3, doeSize := 1 }
    askNoisy s none none (fun _ => []) (fun _ n => if n = 1 then [[.int 3, .int 4]] else []) = .error .broadcast := by
  intro s
  refine c149_first_ask_error s rfl none none _ _ (by simp [requested, s]) ?_ (by simp [requested, s])
  intro k n hn
  by_cases h1 : n = 1
  · subst h1
    refine ⟨by simp, ?_⟩
    intro r hr
    simp only [if_true, List.mem_singleton] at hr
    subst hr
    refine ⟨by simp [s, freeVars], ?_⟩
    intro j k v hk hv
    match j with
    | 0 =>
      simp [s, freeVars] at hk hv
      subst hk hv
      simp [Kind.contains, IntVar.contains]
      norm_num
    | 1 =>
      simp [s, freeVars] at hk hv
      subst hk hv
      simp [Kind.contains, IntVar.contains]
      norm_num
    | j + 2 => simp at hv
  · simp only [h1, if_false]
    exact ⟨by simp; omega, by simp⟩

end Verif.Props
