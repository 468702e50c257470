import Verif.Spec.ConditionalRun
import Mathlib.Tactic.Ring
import Mathlib.Tactic.Linarith
import Mathlib.Data.List.MinMax

/-!
# C188: a whole run of the conditional optimiser
-/
namespace Verif.Props

open Verif.Model Verif.Spec

variable {P : Type*}

/-! ### One step -/

private theorem finite_append (a b : List (CondEval P)) : condFinite (a ++ b) = condFinite a ++ condFinite b := by
  simp [condFinite, List.filterMap_append]

private theorem finite_length (es : List (CondEval P)) : (condFinite es).length + failedCalls es = es.length := by
  induction es with
  | nil => rfl
  | cons e es ih =>
    obtain ⟨k, p, v⟩ := e
    have hc : condFinite (⟨k, p, v⟩ :: es) = condFinite [⟨k, p, v⟩] ++ condFinite es := finite_append [_] es
    rw [hc]
    cases v with
    | none => simp only [failedCalls, condFinite] at ih ⊢; simp; omega
    | some v => simp only [failedCalls, condFinite] at ih ⊢; simp; omega

private theorem loop_spec (fit : List (P × ℚ) → Bool) (es : List (CondEval P)) (s : CondRecords P) :
    (subLoop fit s es).1.data = s.data ∧ (subLoop fit s es).1.evalCount = s.evalCount ∧ (subLoop fit s es).1.iterCount = s.iterCount ∧
      (∀ k, s.subData k ≠ [] → (subLoop fit s es).1.subData k ≠ []) ∧
      ((subLoop fit s es).2 = true → ∀ e ∈ es, (subLoop fit s es).1.subData e.sub ≠ []) := by
  induction es generalizing s with
  | nil => exact ⟨rfl, rfl, rfl, fun _ h => h, fun _ e he => nomatch he⟩
  | cons e es ih =>
    have hkeep : ∀ k, s.subData k ≠ [] → (subRecord s e).subData k ≠ [] := by
      intro k hk
      by_cases h : k = e.sub
      · subst h; simp [subRecord, hk]
      · simp [subRecord, Function.update_of_ne h, hk]
    simp only [subLoop]
    by_cases hf : subFits fit ((subRecord s e).subData e.sub) = true
    · rw [if_pos hf]
      obtain ⟨h1, h2, h3, h4, h5⟩ := ih (subRecord s e)
      refine ⟨h1, h2, h3, fun k hk => h4 k (hkeep k hk), fun h e' he' => ?_⟩
      rcases List.mem_cons.mp he' with rfl | he'
      · refine h4 _ ?_
        simp only [subFits, Bool.and_eq_true, Bool.not_eq_true', List.isEmpty_eq_false_iff] at hf
        exact hf.1
      · exact h5 h e' he'
    · rw [if_neg hf]
      exact ⟨rfl, rfl, rfl, hkeep, fun h => absurd h (by simp)⟩

private theorem tell_count (fit : List (P × ℚ) → Bool) (mi : Bool) (s : CondRecords P) (es : List (CondEval P)) :
    (condTell fit mi false s es).1.evalCount ≤ s.evalCount + (condFinite es).length := by
  obtain ⟨-, h2, -⟩ := loop_spec fit es s
  unfold condTell
  simp only
  split_ifs
  · unfold condWhole
    simp only
    cases condBest mi ((subLoop fit s es).1.data ++ condFinite es) <;> simp [h2]
  · rw [h2]; omega

private theorem tell_ok (fit : List (P × ℚ) → Bool) (mi : Bool) (s : CondRecords P) (es : List (CondEval P)) (h : (condTell fit mi false s es).2 = true) :
    (condTell fit mi false s es).1.data = s.data ++ condFinite es ∧ (condTell fit mi false s es).1.evalCount = s.evalCount + (condFinite es).length ∧
      (condTell fit mi false s es).1.iterCount = s.iterCount + 1 ∧ (∀ k, s.subData k ≠ [] → (condTell fit mi false s es).1.subData k ≠ []) ∧
      ∀ e ∈ es, (condTell fit mi false s es).1.subData e.sub ≠ [] := by
  obtain ⟨h1, h2, h3, h4, h5⟩ := loop_spec fit es s
  simp only [condTell] at h ⊢
  by_cases hl : ((subLoop fit s es).2 && !es.isEmpty) = true
  · rw [if_pos hl] at h ⊢
    have hok : (subLoop fit s es).2 = true := (Bool.and_eq_true _ _ ▸ hl).1
    simp only [condWhole] at h ⊢
    rw [h1] at h ⊢
    cases hb : condBest mi (s.data ++ condFinite es) with
    | none => rw [hb] at h; exact absurd h (by simp)
    | some v => exact ⟨rfl, by simp [h2], by simp [h3], h4, h5 hok⟩
  · rw [if_neg hl] at h
    exact absurd h (by simp)

private theorem mapM_forall {α β : Type*} {f : α → Option β} {l : List α} {r : List β} (h : l.mapM f = some r) :
    List.Forall₂ (fun a b => f a = some b) l r := by
  induction l generalizing r with
  | nil => simp at h; subst h; exact List.Forall₂.nil
  | cons a l ih =>
    simp only [List.mapM_cons, Option.bind_eq_bind, Option.bind_eq_some_iff] at h
    obtain ⟨b, hb, rs, hrs, h⟩ := h
    obtain rfl : b :: rs = r := by simpa using h
    exact List.Forall₂.cons hb (ih hrs)

private theorem batch_subs {W : CondWorld P} {i : ℕ} {s : CondRunState P} {es : List (CondEval P)} (h : condBatch W i s = some es) :
    es.map CondEval.sub = condChoice W i s ∧ ∀ e ∈ es, e.value = W.objective e.point := by
  have hf := mapM_forall h
  have key : ∀ (l : List (ℕ × ℕ)) (es : List (CondEval P)), List.Forall₂ (fun kj e => ((W.propose i s.recs kj.2 kj.1).map fun p => (⟨kj.1, p, W.objective p⟩ : CondEval P)) = some e) l es →
      es.map CondEval.sub = l.map Prod.fst ∧ ∀ e ∈ es, e.value = W.objective e.point := by
    intro l es hl
    induction hl with
    | nil => exact ⟨rfl, fun e he => nomatch he⟩
    | cons hb _ ih =>
      obtain ⟨p, -, rfl⟩ := Option.map_eq_some_iff.mp hb
      refine ⟨by simp [ih.1], fun e he => ?_⟩
      rcases List.mem_cons.mp he with rfl | he
      · rfl
      · exact ih.2 e he
  obtain ⟨h1, h2⟩ := key _ _ hf
  exact ⟨by simpa using h1, h2⟩

private theorem choice_spec {W : CondWorld P} (hp : ChoicesValid W) (i : ℕ) (s : CondRunState P) :
    (condChoice W i s).length = W.nPoint ∧ (∀ k ∈ condChoice W i s, k < W.nSub) ∧
      ∀ k, s.nextInit ≤ k → k < min W.nSub (s.nextInit + W.nPoint) → k ∈ condChoice W i s := by
  obtain ⟨h1, h2⟩ := hp i
  refine ⟨?_, fun k hk => ?_, fun k h3 h4 => ?_⟩
  · simp only [condChoice, CondBO.choose, List.length_append, List.length_take, List.length_map, List.length_range, h1]
    omega
  · simp only [condChoice, CondBO.choose, List.mem_append] at hk
    rcases hk with hk | hk
    · obtain ⟨j, hj, rfl⟩ := List.mem_map.mp (List.mem_of_mem_take hk)
      have := List.mem_range.mp hj
      omega
    · exact h2 k (List.mem_of_mem_take hk)
  · simp only [condChoice, CondBO.choose, List.mem_append]
    refine Or.inl ?_
    rw [List.mem_take_iff_getElem]
    refine ⟨k - s.nextInit, ?_, ?_⟩
    · simp only [List.length_map, List.length_range]; omega
    · simp only [List.getElem_map, List.getElem_range]; omega

/-! ### The invariant -/

/-- What holds between two steps of a run, `i` steps after the start. -/
private def Between (W : CondWorld P) (i : ℕ) (s : CondRunState P) : Prop :=
  s.recs.data = condFinite s.evaluated ∧ s.recs.evalCount = s.recs.data.length ∧ s.evaluated.length = W.nPoint * i ∧ s.recs.iterCount = i ∧
    s.nextInit = min W.nSub (W.nPoint * i) ∧ (∀ k < s.nextInit, s.recs.subData k ≠ []) ∧ (∀ e ∈ s.evaluated, e.sub < W.nSub ∧ e.value = W.objective e.point) ∧
    s.recs.evalCount < W.maxFEs + W.nPoint

private theorem start_between (W : CondWorld P) (hn : 0 < W.nPoint) : Between W 0 (condRunStart P) := by
  refine ⟨rfl, rfl, rfl, rfl, by simp [condRunStart], fun k hk => ?_, fun e he => ?_, ?_⟩
  · exact absurd hk (by simp [condRunStart])
  · exact absurd he (by simp [condRunStart])
  · simp only [condRunStart, condStart]
    omega

private theorem stop_false {W : CondWorld P} {s : CondRecords P} (h : ¬ condStop W s = true) : s.evalCount < W.maxFEs := by
  simp only [condStop, Bool.or_eq_true, decide_eq_true_eq, not_or] at h
  omega

private theorem finite_le (es : List (CondEval P)) : (condFinite es).length ≤ es.length := by have := finite_length es; omega

private theorem step_between {W : CondWorld P} (hp : ChoicesValid W) {i : ℕ} {s : CondRunState P} (hs : Between W i s) (hlt : s.recs.evalCount < W.maxFEs)
    (hok : (condStep W i s).2 = true) : Between W (i + 1) (condStep W i s).1 := by
  obtain ⟨h1, h2, h3, h4, h5, h6, h7, h8⟩ := hs
  unfold condStep at hok ⊢
  simp only at hok ⊢
  cases hb : condBatch W i s with
  | none => rw [hb] at hok; exact absurd hok (by simp)
  | some es =>
    rw [hb] at hok
    simp only at hok ⊢
    obtain ⟨b1, b2⟩ := batch_subs hb
    obtain ⟨c1, c2, c3⟩ := choice_spec hp i s
    obtain ⟨t1, t2, t3, t4, t5⟩ := tell_ok _ _ _ _ hok
    have hlen : es.length = W.nPoint := by rw [← c1, ← b1, List.length_map]
    refine ⟨by rw [t1, h1, finite_append], by rw [t2, t1, List.length_append, h2], ?_, by rw [t3, h4], ?_, fun k hk => ?_, fun e he => ?_, ?_⟩
    · rw [List.length_append, h3, hlen]; ring
    · simp only [h5, Nat.mul_succ]; omega
    · by_cases hk' : k < s.nextInit
      · exact t4 k (h6 k hk')
      · have hm := c3 k (by omega) hk
        rw [← b1] at hm
        obtain ⟨e, he, rfl⟩ := List.mem_map.mp hm
        exact t5 e he
    · rcases List.mem_append.mp he with he | he
      · exact h7 e he
      · exact ⟨c2 _ (b1 ▸ List.mem_map_of_mem he), b2 e he⟩
    · rw [t2]
      have := finite_le es
      omega

private theorem run_between {W : CondWorld P} (hp : ChoicesValid W) (fuel : ℕ) : ∀ (i : ℕ) (s : CondRunState P), Between W i s →
    let r := condRun W fuel i s
    (r.2.2 = .raised ∧ r.1.evaluated.length ≤ W.nPoint * (r.2.1 + 1) ∧
        ∃ s', Between W r.2.1 s' ∧ (s' = r.1 ∨ (s'.recs.evalCount < W.maxFEs ∧ r.1 = (condStep W r.2.1 s').1))) ∨
      (r.2.2 = .running ∧ r.2.1 = i + fuel ∧ Between W r.2.1 r.1) ∨
        ∃ b, r.2.2 = .returned b ∧ Between W r.2.1 r.1 ∧ condStop W r.1.recs = true ∧ condXopt W.minimize r.1.recs.data = some b := by
  induction fuel with
  | zero => intro i s hs; exact Or.inr (Or.inl ⟨rfl, rfl, hs⟩)
  | succ fuel ih =>
    intro i s hs
    unfold condRun
    by_cases hc : condStop W s.recs = true
    · simp only [hc, ↓reduceIte]
      cases hx : condXopt W.minimize s.recs.data with
      | none => exact Or.inl ⟨rfl, by simp only [hs.2.2.1]; exact Nat.mul_le_mul_left _ (by omega), s, hs, Or.inl rfl⟩
      | some b => exact Or.inr (Or.inr ⟨b, rfl, hs, hc, hx⟩)
    · simp only [hc, Bool.false_eq_true, ↓reduceIte]
      have hlt := stop_false hc
      by_cases hok : (condStep W i s).2 = true
      · simp only [hok, ↓reduceIte]
        rcases ih (i + 1) _ (step_between hp hs hlt hok) with h | ⟨h1, h2, h3⟩ | h
        · exact Or.inl h
        · exact Or.inr (Or.inl ⟨h1, by rw [h2]; omega, h3⟩)
        · exact Or.inr (Or.inr h)
      · simp only [hok, Bool.false_eq_true, ↓reduceIte]
        refine Or.inl ⟨trivial, ?_, s, hs, Or.inr ⟨hlt, rfl⟩⟩
        have h3 := hs.2.2.1
        unfold condStep
        simp only
        cases hb : condBatch W i s with
        | none => simp only [h3]; exact Nat.mul_le_mul_left _ (by omega)
        | some es =>
          obtain ⟨b1, -⟩ := batch_subs hb
          obtain ⟨c1, -⟩ := choice_spec hp i s
          have hlen : es.length = W.nPoint := by rw [← c1, ← b1, List.length_map]
          simp only [List.length_append, h3, hlen]
          exact le_of_eq (by ring)

private theorem step_count {W : CondWorld P} (hp : ChoicesValid W) (i : ℕ) (s : CondRunState P) :
    (condStep W i s).1.recs.evalCount ≤ s.recs.evalCount + W.nPoint ∧ (condStep W i s).1.evaluated.length ≤ s.evaluated.length + W.nPoint := by
  unfold condStep
  simp only
  cases hb : condBatch W i s with
  | none => simp
  | some es =>
    obtain ⟨b1, -⟩ := batch_subs hb
    obtain ⟨c1, -⟩ := choice_spec hp i s
    have hlen : es.length = W.nPoint := by rw [← c1, ← b1, List.length_map]
    have h1 := tell_count (W.fit i) W.minimize s.recs es
    have h2 := finite_le es
    simp only [List.length_append]
    omega

private theorem no_failure {W : CondWorld P} (hf : NeverFails W) {es : List (CondEval P)} (h : ∀ e ∈ es, e.value = W.objective e.point) : failedCalls es = 0 := by
  unfold failedCalls
  rw [List.countP_eq_zero]
  intro e he
  rw [h e he]
  cases ho : W.objective e.point with
  | none => exact absurd ho (hf _)
  | some _ => simp

private theorem between_count {W : CondWorld P} {i : ℕ} {s : CondRunState P} (hf : NeverFails W) (hs : Between W i s) : s.recs.evalCount = W.nPoint * i := by
  obtain ⟨h1, h2, h3, -, -, -, h7, -⟩ := hs
  have := finite_length s.evaluated
  rw [no_failure hf fun e he => (h7 e he).2] at this
  rw [h2, h1, ← h3]
  omega

/-! ### Whole runs -/

/-- **C188, records**: unless the run raises, every step evaluates one batch, the data are the evaluations that gave a finite value, in order, each evaluated point belongs to a sub-space and was
given the value of the objective, and the counter holds the number of the records. -/
theorem c188_records (W : CondWorld P) (hp : ChoicesValid W) (hn : 0 < W.nPoint) (fuel : ℕ) (h : (condRun W fuel 0 (condRunStart P)).2.2 ≠ .raised) :
    let r := condRun W fuel 0 (condRunStart P)
    r.1.evaluated.length = W.nPoint * r.2.1 ∧ r.1.recs.iterCount = r.2.1 ∧ (∀ e ∈ r.1.evaluated, e.sub < W.nSub ∧ e.value = W.objective e.point) ∧
      r.1.recs.data = condFinite r.1.evaluated ∧ r.1.recs.evalCount = r.1.recs.data.length := by
  rcases run_between hp fuel 0 (condRunStart P) (start_between W hn) with ⟨h1, -⟩ | ⟨-, -, hs⟩ | ⟨b, -, hs, -⟩
  · exact absurd h1 h
  all_goals exact ⟨hs.2.2.1, hs.2.2.2.1, hs.2.2.2.2.2.2.1, hs.1, hs.2.1⟩

/-- **C188, budget**: whatever fails or raises, the counted evaluations exceed the budget by less than a batch; if the objective never fails, so do the calls of the objective. -/
theorem c188_budget (W : CondWorld P) (hp : ChoicesValid W) (hn : 0 < W.nPoint) (fuel : ℕ) :
    let r := condRun W fuel 0 (condRunStart P)
    r.1.recs.evalCount < W.maxFEs + W.nPoint ∧ (NeverFails W → r.1.evaluated.length < W.maxFEs + W.nPoint) := by
  have hb : ∀ (i : ℕ) (s : CondRunState P), Between W i s → s.recs.evalCount < W.maxFEs + W.nPoint ∧ (NeverFails W → s.evaluated.length < W.maxFEs + W.nPoint) := by
    intro i s hs
    refine ⟨hs.2.2.2.2.2.2.2, fun hf => ?_⟩
    have h1 := between_count hf hs
    have h2 := hs.2.2.2.2.2.2.2
    rw [hs.2.2.1]
    omega
  rcases run_between hp fuel 0 (condRunStart P) (start_between W hn) with ⟨-, -, s', hs, rfl' | ⟨hlt, he⟩⟩ | ⟨-, -, hs⟩ | ⟨b, -, hs, -⟩
  · subst rfl'; exact hb _ _ hs
  · have hc := step_count hp (condRun W fuel 0 (condRunStart P)).2.1 s'
    rw [← he] at hc
    refine ⟨by omega, fun hf => ?_⟩
    have h1 := between_count hf hs
    have h2 := hs.2.2.1
    omega
  · exact hb _ _ hs
  · exact hb _ _ hs

/-- **C188, end**: if the objective never fails, the run ends, within as many steps as evaluations are allowed. -/
theorem c188_ends_partial (W : CondWorld P) (hp : ChoicesValid W) (hn : 0 < W.nPoint) (hf : NeverFails W) (fuel : ℕ) (hfuel : W.maxFEs < fuel) :
    (condRun W fuel 0 (condRunStart P)).2.2 ≠ .running := by
  intro h
  rcases run_between hp fuel 0 (condRunStart P) (start_between W hn) with ⟨h1, -⟩ | ⟨-, h2, hs⟩ | ⟨b, h1, -⟩
  · rw [h] at h1; exact nomatch h1
  · have h3 := between_count hf hs
    have h4 := hs.2.2.2.2.2.2.2
    rw [h2] at h3
    have h5 : W.nPoint * (W.maxFEs + 1) ≤ W.nPoint * fuel := Nat.mul_le_mul_left _ hfuel
    have h6 : W.maxFEs * 1 ≤ W.maxFEs * W.nPoint := Nat.mul_le_mul_left _ hn
    have h7 : W.nPoint * (W.maxFEs + 1) = W.maxFEs * W.nPoint + W.nPoint := by ring
    simp only [Nat.zero_add] at h3
    omega
  · rw [h] at h1; exact nomatch h1

private theorem xopt_best {mi : Bool} {d : List (P × ℚ)} {b : P × ℚ} (h : condXopt mi d = some b) : BestRecord mi d b := by
  simp only [condXopt, Option.bind_eq_some_iff] at h
  obtain ⟨v, hv, hb⟩ := h
  have h1 := List.mem_of_find?_eq_some hb
  have h2 : b.2 = v := by simpa using List.find?_some hb
  refine ⟨h1, fun q hq => ?_⟩
  unfold condBest at hv
  cases mi with
  | true =>
    simp only [↓reduceIte] at hv ⊢
    rw [h2]
    exact (List.min?_eq_some_iff.mp hv).2 _ (List.mem_map_of_mem hq)
  | false =>
    simp only [Bool.false_eq_true, ↓reduceIte] at hv ⊢
    rw [h2]
    exact (List.max?_eq_some_iff.mp hv).2 _ (List.mem_map_of_mem hq)

/-- **C188, result**: a run that returns, returns a recorded point that no recorded point beats, and it returns because the budget is used up or its value is below
the target (also when maximising, see C16). -/
theorem c188_returned (W : CondWorld P) (hp : ChoicesValid W) (hn : 0 < W.nPoint) (fuel : ℕ) (b : P × ℚ) (h : (condRun W fuel 0 (condRunStart P)).2.2 = .returned b) :
    let r := condRun W fuel 0 (condRunStart P)
    BestRecord W.minimize r.1.recs.data b ∧ W.objective b.1 = some b.2 ∧ (W.maxFEs ≤ r.1.recs.evalCount ∨ ∃ t, W.ftarget = some t ∧ b.2 < t) := by
  rcases run_between hp fuel 0 (condRunStart P) (start_between W hn) with ⟨h1, -⟩ | ⟨h1, -⟩ | ⟨b', h1, hs, hc, hx⟩
  · rw [h] at h1; exact nomatch h1
  · rw [h] at h1; exact nomatch h1
  · rw [h] at h1
    obtain rfl : b = b' := by simpa using h1
    have hb := xopt_best hx
    refine ⟨hb, ?_, ?_⟩
    · have hm := hb.1
      rw [hs.1] at hm
      obtain ⟨e, he, hv⟩ := List.mem_filterMap.mp hm
      obtain ⟨v, hv1, rfl⟩ := Option.map_eq_some_iff.mp hv
      rw [← hv1]
      exact (hs.2.2.2.2.2.2.1 e he).2.symm
    · simp only [condStop, Bool.or_eq_true, decide_eq_true_eq] at hc
      rcases hc with hc | hc
      · exact Or.inl hc
      · rw [hx] at hc
        cases ht : W.ftarget with
        | none => rw [ht] at hc; exact absurd hc (by simp)
        | some t =>
          rw [ht] at hc
          refine Or.inr ⟨t, rfl, ?_⟩
          simp only [Model.compare] at hc
          split_ifs at hc <;> simpa using hc

/-- **C188, every sub-space is tried**: unless the run raises, after `i` steps the first `n_point * i` sub-spaces have been evaluated and have a finite observation. -/
theorem c188_explored (W : CondWorld P) (hp : ChoicesValid W) (hn : 0 < W.nPoint) (fuel : ℕ) (h : (condRun W fuel 0 (condRunStart P)).2.2 ≠ .raised) (k : ℕ) (hk : k < W.nSub)
    (hk' : k < W.nPoint * (condRun W fuel 0 (condRunStart P)).2.1) : (condRun W fuel 0 (condRunStart P)).1.recs.subData k ≠ [] := by
  have key : ∀ (i : ℕ) (s : CondRunState P), Between W i s → k < W.nPoint * i → s.recs.subData k ≠ [] := by
    intro i s hs hi
    refine hs.2.2.2.2.2.1 k ?_
    rw [hs.2.2.2.2.1]
    omega
  rcases run_between hp fuel 0 (condRunStart P) (start_between W hn) with ⟨h1, -⟩ | ⟨-, -, hs⟩ | ⟨b, -, hs, -⟩
  · exact absurd h1 h
  all_goals exact key _ _ hs hk'

/-- In particular a run without a target that returns has tried every sub-space, if the budget allows as many evaluations as there are sub-spaces. -/
theorem c188_all_explored (W : CondWorld P) (hp : ChoicesValid W) (hn : 0 < W.nPoint) (ht : W.ftarget = none) (hb : W.nSub ≤ W.maxFEs) (fuel : ℕ) (b : P × ℚ)
    (h : (condRun W fuel 0 (condRunStart P)).2.2 = .returned b) : ∀ k < W.nSub, (condRun W fuel 0 (condRunStart P)).1.recs.subData k ≠ [] := by
  intro k hk
  have hr : (condRun W fuel 0 (condRunStart P)).2.2 ≠ .raised := by rw [h]; exact fun h => nomatch h
  obtain ⟨-, -, h3⟩ := c188_returned W hp hn fuel b h
  obtain ⟨r1, -, -, r4, r5⟩ := c188_records W hp hn fuel hr
  have h4 := finite_le (condRun W fuel 0 (condRunStart P)).1.evaluated
  rw [← r4, ← r5, r1] at h4
  refine c188_explored W hp hn fuel hr k hk ?_
  rcases h3 with h3 | ⟨t, h3, -⟩
  · omega
  · rw [ht] at h3; exact nomatch h3

/-! ### Failing evaluations -/

/-- Two sub-spaces, batches of two, budget ten; the points are numbered by the steps; the objective works in the first step and fails ever after. -/
private def failing : CondWorld ℕ where
  nSub := 2
  nPoint := 2
  maxFEs := 10
  ftarget := none
  minimize := true
  pick := fun _ => [0, 1]
  propose := fun i _ j _ => some (2 * i + j)
  objective := fun p => if p < 2 then some p else none
  fit := fun _ d => decide (d.length ≤ 5)

private theorem failing_valid : ChoicesValid failing := fun _ => ⟨rfl, by simp [failing]⟩

private theorem failing_runs (fuel : ℕ) : ∀ (i : ℕ) (s : CondRunState ℕ), 1 ≤ i → s.nextInit = 2 → s.recs.data = [(0, 0), (1, 1)] → s.recs.evalCount = 2 →
    s.recs.subData 0 = [(0, 0)] → s.recs.subData 1 = [(1, 1)] →
    (condRun failing fuel i s).2 = (i + fuel, .running) ∧ (condRun failing fuel i s).1.evaluated.length = s.evaluated.length + 2 * fuel := by
  induction fuel with
  | zero => intro i s _ _ _ _ _ _; exact ⟨rfl, rfl⟩
  | succ fuel ih =>
    intro i s hi h1 h2 h3 h4 h5
    have hstop : condStop failing s.recs = false := by simp [condStop, h3, failing]
    have hbatch : condBatch failing i s = some [⟨0, 2 * i, none⟩, ⟨1, 2 * i + 1, none⟩] := by
      simp [condBatch, condChoice, CondBO.choose, failing, h1]
      omega
    have hstep : condStep failing i s = (⟨2, (condTell (failing.fit i) true false s.recs [⟨0, 2 * i, none⟩, ⟨1, 2 * i + 1, none⟩]).1,
        s.evaluated ++ [⟨0, 2 * i, none⟩, ⟨1, 2 * i + 1, none⟩]⟩, (condTell (failing.fit i) true false s.recs [⟨0, 2 * i, none⟩, ⟨1, 2 * i + 1, none⟩]).2) := by
      unfold condStep
      rw [hbatch, h1]
      rfl
    unfold condRun
    rw [hstop, hstep]
    simp only [Bool.false_eq_true, ↓reduceIte]
    have htell : condTell (failing.fit i) true false s.recs [⟨0, 2 * i, none⟩, ⟨1, 2 * i + 1, none⟩] =
        ({ subData := Function.update (Function.update s.recs.subData 0 [(0, 0)]) 1 [(1, 1)],
           subCount := Function.update (Function.update s.recs.subCount 0 (s.recs.subCount 0 + 1)) 1 (s.recs.subCount 1 + 1),
           data := [(0, 0), (1, 1)], evalCount := 2, iterCount := s.recs.iterCount + 1, hist := s.recs.hist ++ [0] }, true) := by
      simp [condTell, subLoop, subFits, subRecord, condFinite, condWhole, condBest, failing, h2, h3, h4, h5]
    rw [htell]
    simp only [↓reduceIte]
    have hn := fun (q : CondRecords ℕ) => ih (i + 1) ⟨2, q, s.evaluated ++ [⟨0, 2 * i, none⟩, ⟨1, 2 * i + 1, none⟩]⟩ (by omega) rfl
    obtain ⟨a, b⟩ := hn (CondRecords.mk (Function.update (Function.update s.recs.subData 0 [(0, 0)]) 1 [(1, 1)])
        (Function.update (Function.update s.recs.subCount 0 (s.recs.subCount 0 + 1)) 1 (s.recs.subCount 1 + 1)) [(0, 0), (1, 1)] 2 (s.recs.iterCount + 1) (s.recs.hist ++ [0]))
        rfl rfl (by simp) (by simp)
    rw [a, b]
    refine ⟨?_, ?_⟩
    · rw [show i + 1 + fuel = i + (fuel + 1) by omega]
    · simp only [List.length_append, List.length_cons, List.length_nil]
      omega

/-- **C188 refuted**: failed evaluations are not counted, so that with an objective that works at first and then fails the run never ends: the budget of 10 evaluations is exceeded by any number. -/
theorem c188_failures_refuted : ∃ W : CondWorld ℕ, ChoicesValid W ∧ 0 < W.nPoint ∧ W.maxFEs = 10 ∧
    ∀ fuel, (condRun W (fuel + 1) 0 (condRunStart ℕ)).2 = (fuel + 1, .running) ∧ (condRun W (fuel + 1) 0 (condRunStart ℕ)).1.evaluated.length = 2 * (fuel + 1) := by
  refine ⟨failing, failing_valid, by decide, rfl, fun fuel => ?_⟩
  have hstep : condRun failing (fuel + 1) 0 (condRunStart ℕ) = condRun failing fuel 1 (condStep failing 0 (condRunStart ℕ)).1 := by
    conv_lhs => unfold condRun
    have h1 : condStop failing (condRunStart ℕ).recs = false := by simp [condStop, condRunStart, condStart, failing]
    have h2 : (condStep failing 0 (condRunStart ℕ)).2 = true := by decide +kernel
    simp only [h1, h2, Bool.false_eq_true, ↓reduceIte, Nat.zero_add]
  obtain ⟨a, b⟩ := failing_runs fuel 1 (condStep failing 0 (condRunStart ℕ)).1 le_rfl (by decide +kernel) (by decide +kernel) (by decide +kernel) (by decide +kernel) (by decide +kernel)
  have h3 : (condStep failing 0 (condRunStart ℕ)).1.evaluated.length = 2 := by decide +kernel
  rw [hstep, a, b, h3]
  exact ⟨by rw [Nat.add_comm], by omega⟩

/-- The same world with an objective that never fails and a budget of three. -/
private def working : CondWorld ℕ := { failing with maxFEs := 3, objective := fun p => some (5 - p) }

/-- Non-vacuity: two steps, four evaluations, both sub-spaces tried, and the best point is returned. -/
theorem c188_concrete : ChoicesValid working ∧ NeverFails working ∧
    (condRun working 4 0 (condRunStart ℕ)).1.recs.data = [(0, 5), (1, 4), (2, 3), (3, 2)] ∧ (condRun working 4 0 (condRunStart ℕ)).2.1 = 2 ∧
      (condRun working 4 0 (condRunStart ℕ)).2.2 = .returned (3, 2) := by
  refine ⟨fun _ => ⟨rfl, by simp [working, failing]⟩, fun p h => ?_, by decide +kernel, by decide +kernel, ?_⟩
  · simp [working] at h
  · decide +kernel

end Verif.Props
