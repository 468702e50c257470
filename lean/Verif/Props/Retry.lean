import Verif.Spec.Retry
import Verif.Proofs.Optimizer

/-!
# C191: after a failure a program can go on
-/
set_option linter.unusedSectionVars false
namespace Verif.Props
open Verif.Model Verif.Spec Verif.Proofs

variable {P K : Type*} [Field K] [LinearOrder K] [IsStrictOrderedRing K]

private theorem mapM_all : ∀ (l : List (P × Option (Obs K))), (¬ ∃ p ∈ l, p.2 = none) →
    ∃ vs, l.mapM Prod.snd = some vs ∧ vs.length = l.length ∧
      finitePart ((l.map Prod.fst).zip vs) = l.filterMap fun p => match p.2 with | some (.fin v) => some (p.1, v) | _ => none
  | [], _ => ⟨[], rfl, rfl, rfl⟩
  | (x, none) :: l, h => absurd ⟨(x, none), by simp, rfl⟩ h
  | (x, some o) :: l, h => by
    obtain ⟨vs, h1, h2, h3⟩ := mapM_all l (fun ⟨p, hp, e⟩ => h ⟨p, by simp [hp], e⟩)
    refine ⟨o :: vs, by simp [List.mapM_cons, h1], by simp [h2], ?_⟩
    cases o <;> simp [finitePart, h3]

private theorem mapM_fail : ∀ (l : List (P × Option (Obs K))), (∃ p ∈ l, p.2 = none) → l.mapM Prod.snd = none
  | [], h => by simp at h
  | (x, none) :: l, _ => by simp [List.mapM_cons]
  | (x, some o) :: l, h => by
    have : ∃ p ∈ l, p.2 = none := by
      obtain ⟨p, hp, e⟩ := h
      rcases List.mem_cons.1 hp with rfl | hp
      · cases e
      · exact ⟨p, hp, e⟩
    simp [List.mapM_cons, mapM_fail l this]

private theorem calls_le : ∀ l : List (P × Option (Obs K)), attemptCalls l ≤ l.length
  | [] => le_rfl
  | (_, none) :: l => by simp [attemptCalls]
  | (_, some _) :: l => by have := calls_le l; simp [attemptCalls, this]

private theorem calls_all : ∀ l : List (P × Option (Obs K)), (¬ ∃ p ∈ l, p.2 = none) → attemptCalls l = l.length
  | [], _ => rfl
  | (x, none) :: l, h => absurd ⟨(x, none), by simp, rfl⟩ h
  | (x, some _) :: l, h => by simp [attemptCalls, calls_all l (fun ⟨p, hp, e⟩ => h ⟨p, by simp [hp], e⟩)]

private theorem attempt_effect (cfg : Cfg K) (s : OptState P K) (e : Attempt P K) :
    pairs (attemptStep cfg s e) = pairs s ++ contribution e ∧ (attemptStep cfg s e).evalCount = s.evalCount + completedEvals e ∧
    (attemptStep cfg s e).stopMaxFEs = s.stopMaxFEs ∧ (attemptStep cfg s e).stopFtarget = s.stopFtarget := by
  unfold attemptStep
  by_cases h : Fails e
  · simp [mapM_fail _ h, contribution, completedEvals, h]
  · obtain ⟨vs, h1, h2, h3⟩ := mapM_all _ h
    rw [h1]
    simp only [contribution, completedEvals, if_neg h]
    set a : TellArgs P K := { X := e.evals.map Prod.fst, vals := vs, oracle := e.oracle } with ha
    obtain ⟨t1, t2, t3, -, -, -, t4, t5⟩ := tell_spec cfg s a
    by_cases hX : e.evals = []
    · have hnw : ¬ WellFormed a := fun hw => hw.1 (by simp [ha, hX])
      refine ⟨?_, ?_, t2, t3⟩
      · rw [t1, told_tell, if_neg hnw, hX]
        simp
      · have hv : vs = [] := by simpa [hX] using h2
        simp [tell, ha, hX]
    · have hw : WellFormed a := ⟨by simpa [ha] using hX, by simp [ha, h2], by simp [ha]⟩
      refine ⟨?_, ?_, t2, t3⟩
      · rw [t1, told_tell, if_pos hw]; exact congrArg _ h3
      · rw [t4 hw]; simp [ha]

private theorem checkStop_going {cfg : Cfg K} {s s1 : OptState P K} (h : checkStop cfg s = (s1, .ok false)) {m : ℤ} (hm : cfg.maxFEs = some m) :
    (s.evalCount : ℤ) < m := by
  by_contra hc
  have hb : (checkBudget cfg s).stopMaxFEs = some s.evalCount := by
    simp [checkBudget, hm, not_lt.1 hc]
  unfold checkStop at h
  split at h
  · simp [stopFlag, hb] at h
  · simp only at h
    split at h
    · simp at h
    · simp [stopFlag, hb] at h
    · simp only [Prod.mk.injEq, Except.ok.injEq] at h
      obtain ⟨-, h2⟩ := h
      split at h2 <;> simp [stopFlag, hb] at h2

private theorem loop_spec (cfg : Cfg K) : ∀ (es : List (Attempt P K)) (s : OptState P K) (c : ℕ),
    ∃ done rest, es = done ++ rest ∧ pairs (retryLoop cfg es s c).1 = pairs s ++ done.flatMap contribution ∧
      (retryLoop cfg es s c).1.evalCount = s.evalCount + (done.map completedEvals).sum ∧
      (retryLoop cfg es s c).2.1 = c + (done.map fun e => attemptCalls e.evals).sum ∧
      ((retryLoop cfg es s c).2.2 = .running → rest = []) ∧
      ∀ m : ℤ, cfg.maxFEs = some m → done = [] ∨ ∃ init last, done = init ++ [last] ∧ (s.evalCount : ℤ) + (init.map completedEvals).sum < m := by
  intro es
  induction es with
  | nil =>
    intro s c
    obtain ⟨f1, f2, -⟩ := checkStop_frame cfg s
    refine ⟨[], [], rfl, ?_⟩
    unfold retryLoop
    rcases hs : checkStop cfg s with ⟨s', _ | _ | _⟩ <;> rw [hs] at f1 f2 <;> simp only at f1 f2 <;> simp [pairs, f1, f2]
  | cons e es ih =>
    intro s c
    obtain ⟨f1, f2, -⟩ := checkStop_frame cfg s
    unfold retryLoop
    rcases hs : checkStop cfg s with ⟨s', _ | _ | _⟩
    · rw [hs] at f1 f2
      simp only at f1 f2
      exact ⟨[], e :: es, rfl, by simp [pairs, f1], by simp [f2], by simp, by simp, fun _ _ => .inl rfl⟩
    · rw [hs] at f1 f2
      obtain ⟨done, rest, h1, h2, h3, h4, h5, h6⟩ := ih (attemptStep cfg s' e) (c + attemptCalls e.evals)
      obtain ⟨a1, a2, -⟩ := attempt_effect cfg s' e
      have f1 : s'.data = s.data := f1
      have f2 : s'.evalCount = s.evalCount := f2
      refine ⟨e :: done, rest, by rw [h1]; rfl, ?_, ?_, ?_, h5, ?_⟩
      · simp only; rw [h2, a1]; simp [pairs, f1]
      · simp only; rw [h3, a2, f2]; simp [add_assoc]
      · simp only; rw [h4]; simp [add_assoc]
      · intro m hm
        right
        rcases h6 m hm with rfl | ⟨init, last, rfl, hlt⟩
        · exact ⟨[], e, rfl, by simpa using checkStop_going hs hm⟩
        · refine ⟨e :: init, last, rfl, ?_⟩
          rw [a2, f2] at hlt
          simp only [List.map_cons, List.sum_cons]
          push_cast at hlt ⊢
          linarith
    · rw [hs] at f1 f2
      simp only at f1 f2
      exact ⟨[], e :: es, rfl, by simp [pairs, f1], by simp [f2], by simp, by simp, fun _ _ => .inl rfl⟩

/-- **C191, what is kept.**  A program that goes on after exceptions of `ask`, of the objective and of `tell`: after every history of attempts the
data are the points with finite values of the attempts made in which the objective did not raise, in order and each once, and exactly these
evaluations are counted. -/
theorem c191_records (cfg : Cfg K) (es : List (Attempt P K)) :
    ∃ done rest, es = done ++ rest ∧
      (((retryLoop cfg es {} 0).1.data.getD []).map fun r => (r.x, r.f)) = done.flatMap contribution ∧
      (retryLoop cfg es {} 0).1.evalCount = (done.map completedEvals).sum ∧
      (retryLoop cfg es {} 0).2.1 = (done.map fun e => attemptCalls e.evals).sum ∧
      ((retryLoop cfg es {} 0).2.2 = .running → rest = []) := by
  obtain ⟨done, rest, h1, h2, h3, h4, h5, -⟩ := loop_spec cfg es {} 0
  exact ⟨done, rest, h1, by simpa [pairs] using h2, by simpa using h3, by simpa using h4, h5⟩

private theorem lost (q : ℕ) : ∀ es : List (Attempt P K), (∀ e ∈ es, e.evals.length ≤ q) →
    (es.map fun e => attemptCalls e.evals).sum ≤ (es.map completedEvals).sum + q * failures es
  | [], _ => by simp
  | e :: es, h => by
    have ih := lost q es fun e he => h e (by simp [he])
    have hq := h e (by simp)
    have hle := calls_le e.evals
    simp only [List.map_cons, List.sum_cons, failures, List.countP_cons] at ih ⊢
    by_cases hf : Fails e
    · simp only [completedEvals, hf, if_true, decide_true] at ih ⊢
      rw [Nat.mul_add]; omega
    · have := calls_all e.evals hf
      simp only [completedEvals, hf, if_false, decide_false] at ih ⊢
      simp only [Bool.false_eq_true, if_false, add_zero]
      omega

/-- **C191, the budget.**  With batches of at most `q` points the objective is called at most `max_FEs - 1 + q` times, and up to `q` times more
for every attempt in which it raises. -/
theorem c191_budget (cfg : Cfg K) (es : List (Attempt P K)) (m q : ℕ) (hm : cfg.maxFEs = some (m : ℤ)) (hpos : 0 < m)
    (hq : ∀ e ∈ es, e.evals.length ≤ q) :
    (retryLoop cfg es {} 0).2.1 ≤ m - 1 + q + q * failures es ∧ (retryLoop cfg es {} 0).1.evalCount ≤ m - 1 + q := by
  obtain ⟨done, rest, h1, -, h3, h4, -, h6⟩ := loop_spec cfg es {} 0
  have hdone : ∀ e ∈ done, e.evals.length ≤ q := fun e he => hq e (by rw [h1]; simp [he])
  have hl := lost q done hdone
  have hF : failures done ≤ failures es := by rw [h1, failures, failures, List.countP_append]; omega
  have hF' := Nat.mul_le_mul_left q hF
  have hc : (done.map completedEvals).sum ≤ m - 1 + q := by
    rcases h6 m hm with rfl | ⟨init, last, rfl, hlt⟩
    · simp
    · have hlast : completedEvals last ≤ q := by
        unfold completedEvals
        split_ifs
        · exact Nat.zero_le _
        · exact hdone last (by simp)
      simp only [List.map_append, List.sum_append, List.map_cons, List.map_nil, List.sum_cons, List.sum_nil, add_zero]
      have : (init.map completedEvals).sum < m := by exact_mod_cast (by simpa using hlt)
      omega
  rw [h3, h4]
  simp only [Nat.zero_add]
  omega

/-- **C191, the run is brought to its end.**  Without a target: as soon as the attempts in which the objective did not raise reach the budget,
the program stops, however many attempts failed. -/
theorem c191_finishes (cfg : Cfg K) (es : List (Attempt P K)) (m : ℤ) (hm : cfg.maxFEs = some m) (ht : cfg.ftarget = none)
    (hc : m ≤ (es.map completedEvals).sum) :
    (retryLoop cfg es {} 0).2.2 = .stopped ∧ m ≤ (retryLoop cfg es {} 0).1.evalCount := by
  have key : ∀ (es : List (Attempt P K)) (s : OptState P K) (c : ℕ), s.stopMaxFEs = none → s.stopFtarget = none →
      m ≤ s.evalCount + (es.map completedEvals).sum →
      (retryLoop cfg es s c).2.2 = .stopped ∧ m ≤ (retryLoop cfg es s c).1.evalCount := by
    intro es
    induction es with
    | nil =>
      intro s c h1 h2 h
      have h : m ≤ s.evalCount := by simpa using h
      unfold retryLoop
      simp [checkStop, ht, checkBudget, hm, h, stopFlag]
    | cons e es ih =>
      intro s c h1 h2 h
      unfold retryLoop
      by_cases hb : m ≤ s.evalCount
      · simp [checkStop, ht, checkBudget, hm, hb, stopFlag]
      · obtain ⟨-, a2, a3, a4⟩ := attempt_effect cfg s e
        have hcs : checkStop cfg s = (s, .ok false) := by
          simp [checkStop, ht, checkBudget, hm, hb, stopFlag, h1, h2]
        simp only [hcs]
        refine ih _ _ (a3.trans h1) (a4.trans h2) ?_
        rw [a2]
        simp only [List.map_cons, List.sum_cons] at h
        push_cast at h ⊢
        linarith
  exact key es {} 0 rfl rfl (by simpa using hc)

/-- **C191, refuted for the budget.**  Evaluations before the one that raises are lost: they are neither counted nor recorded.  With a budget of
one evaluation and batches of two points, of which the second raises, the objective is called any number of times. -/
theorem c191_budget_refuted : ∃ cfg : Cfg ℚ, cfg.maxFEs = some 1 ∧ ∀ B : ℕ, ∃ es : List (Attempt ℕ ℚ),
    (∀ e ∈ es, e.evals.length = 2) ∧ B < (retryLoop cfg es {} 0).2.1 ∧ (retryLoop cfg es {} 0).1.evalCount = 0 ∧
      (retryLoop cfg es {} 0).1.data = none ∧ (retryLoop cfg es {} 0).2.2 = .running := by
  refine ⟨{ minimize := true, maxFEs := some 1, ftarget := none }, rfl, fun B => ?_⟩
  let e : Attempt ℕ ℚ := { evals := [(0, some (.fin 5)), (1, none)] }
  have key : ∀ (n c : ℕ), retryLoop { minimize := true, maxFEs := some 1, ftarget := none } (List.replicate n e) {} c = ({}, c + 2 * n, .running) := by
    intro n
    induction n with
    | zero => intro c; unfold retryLoop; simp [checkStop, checkBudget, stopFlag]
    | succ n ih =>
      intro c
      have hcs : checkStop ({ minimize := true, maxFEs := some 1, ftarget := none } : Cfg ℚ) ({} : OptState ℕ ℚ) = ({}, .ok false) := by
        simp [checkStop, checkBudget, stopFlag]
      have hat : attemptStep ({ minimize := true, maxFEs := some 1, ftarget := none } : Cfg ℚ) {} e = {} := by
        simp [attemptStep, e, List.mapM_cons]
      have hcalls : attemptCalls e.evals = 2 := rfl
      rw [List.replicate_succ]
      unfold retryLoop
      simp only [hcs, hat, hcalls, ih]
      congr 2
      ring
  refine ⟨List.replicate (B + 1) e, fun x hx => ?_, ?_⟩
  · rw [List.eq_of_mem_replicate hx]; rfl
  · rw [key]
    refine ⟨by simp only; omega, rfl, rfl, rfl⟩

private theorem rest_error (cfg : Cfg K) (s0 : OptState P K) (d kept : List (Rec P K)) (a : TellArgs P K) (e : TellErr)
    (h : (tellRest cfg s0 d kept a).2 = .error e) :
    (e = .emptyData ∧ d = [] ∧ (tellRest cfg s0 d kept a).1 = { s0 with data := some d }) ∨
    ((e = .flatFitness ∨ e = .modelFailed) ∧ (tellRest cfg s0 d kept a).1 = { s0 with data := some d }) ∨
    (e = .constraintFailed ∧ (tellRest cfg s0 d kept a).1 = { s0 with data := some d, csv := if cfg.dataFile then s0.csv ++ kept else s0.csv }) := by
  unfold tellRest at h ⊢
  simp only [] at h ⊢
  by_cases h1 : d.isEmpty = true
  · simp only [h1, if_true, Except.error.injEq] at h ⊢
    exact .inl ⟨h.symm, by simpa using h1, trivial⟩
  · have hne : d ≠ [] := by simpa using h1
    obtain ⟨r, hr⟩ := incumbent_isSome cfg.minimize hne
    rw [if_neg h1] at h ⊢
    by_cases h2 : isFlat (d.map Rec.f) = true
    · rw [if_pos h2] at h ⊢
      exact .inr (.inl ⟨.inl (Except.error.inj h).symm, rfl⟩)
    · rw [if_neg h2] at h ⊢
      by_cases h3 : a.oracle.fitOk = true
      · simp only [h3, Bool.not_true, Bool.false_eq_true, if_false, hr] at h ⊢
        by_cases h4 : a.oracle.constraintOk = true
        · simp only [h4, Bool.not_true, Bool.false_eq_true, if_false] at h
          split_ifs at h
        · simp only [h4, Bool.not_false, if_true] at h ⊢
          refine .inr (.inr ⟨(Except.error.inj h).symm, ?_⟩)
          cases cfg.dataFile <;> simp
      · simp only [h3, Bool.not_false, if_true] at h ⊢
        exact .inr (.inl ⟨.inr (Except.error.inj h).symm, trivial⟩)

/-- **C191, `tell`.**  For every state and every call of `tell` that raises, the state afterwards, exactly. -/
theorem c191_failed_tell (cfg : Cfg K) (s : OptState P K) (a : TellArgs P K) (e : TellErr) (h : (tell cfg s a).2 = .error e) :
    AfterFailedTell cfg a s (tell cfg s a).1 e := by
  unfold tell at h ⊢
  by_cases h1 : a.X.isEmpty = true
  · rw [if_pos h1] at h ⊢
    cases h
    rfl
  rw [if_neg h1] at h ⊢
  by_cases h2 : (a.index.map List.length).any (· != a.X.length) = true
  · rw [if_pos h2] at h ⊢
    cases h
    rfl
  rw [if_neg h2] at h ⊢
  rw [observe_eq] at h ⊢
  by_cases h3 : a.X.length ≤ a.vals.length
  · simp only [h3, if_true] at h ⊢
    have hcount : (if a.warm = true then s.evalCount else s.evalCount + min a.X.length a.vals.length) =
        s.evalCount + (if a.warm = true then 0 else a.X.length) := by
      split <;> simp [h3]
    rw [hcount] at h ⊢
    have hlen : (labels a).length = (a.X.zip a.vals).length := by
      rw [List.length_zip, Nat.min_eq_left h3]
      unfold labels
      cases hi : a.index with
      | none => simp [defaultIndex]
      | some l => simpa [hi] using h2
    have hkept := postEvalCheck_pairs (K := K) (if cfg.evalDict = true then 0 else 1) (a.X.zip a.vals) (labels a) hlen
    generalize postEvalCheck (if cfg.evalDict = true then 0 else 1) ((a.X.zip a.vals).zip (labels a)) = kept at h hkept ⊢
    cases hd : s.data with
    | none =>
      simp only [hd] at h ⊢
      rcases rest_error cfg _ _ _ _ e h with ⟨rfl, h4, h5⟩ | ⟨rfl | rfl, h5⟩ | ⟨rfl, h5⟩ <;> rw [h5]
      · simp [AfterFailedTell, h4]
      · exact ⟨kept, hkept, by simp [hd]⟩
      · exact ⟨kept, hkept, by simp [hd]⟩
      · exact ⟨kept, hkept, by simp [hd]⟩
    | some d =>
      simp only [hd] at h ⊢
      by_cases h4 : (d ++ kept).isEmpty = true
      · rw [if_pos h4] at h ⊢
        cases h
        simp [AfterFailedTell, hd]
      · rw [if_neg h4] at h ⊢
        rcases rest_error cfg _ _ _ _ e h with ⟨rfl, h5, h6⟩ | ⟨rfl | rfl, h6⟩ | ⟨rfl, h6⟩
        · exact absurd (by simp [h5]) h4
        · rw [h6]; exact ⟨kept, hkept, by simp [hd]⟩
        · rw [h6]; exact ⟨kept, hkept, by simp [hd]⟩
        · rw [h6]; exact ⟨kept, hkept, by simp [hd]⟩
  · simp only [h3, if_false] at h ⊢
    cases h
    have : min a.X.length a.vals.length = a.vals.length := by omega
    simp only [AfterFailedTell, this]
    split <;> simp

/-- **C191, refuted for repeating `tell`.**  If `tell` raised because the model could not be fitted, telling the same points again records and counts
them twice; the file has them once. -/
theorem c191_tell_again_refuted : ∃ (cfg : Cfg ℚ) (a : TellArgs ℕ ℚ), (tell cfg {} { a with oracle := { fitOk := false } }).2 = .error .modelFailed ∧
    isOk (tell cfg (tell cfg {} { a with oracle := { fitOk := false } }).1 a).2 = true ∧ a.X = [7, 8] ∧
    pairs (tell cfg (tell cfg {} { a with oracle := { fitOk := false } }).1 a).1 = [(7, 1), (8, 2), (7, 1), (8, 2)] ∧
    (tell cfg (tell cfg {} { a with oracle := { fitOk := false } }).1 a).1.evalCount = 4 ∧
    (tell cfg (tell cfg {} { a with oracle := { fitOk := false } }).1 a).1.csv.map (fun r => (r.x, r.f)) = [(7, 1), (8, 2)] :=
  ⟨{ minimize := true, maxFEs := none, ftarget := none, dataFile := true }, { X := [7, 8], vals := [.fin 1, .fin 2] },
    rfl, by decide +kernel, rfl, by decide +kernel, by decide +kernel, by decide +kernel⟩

/-- **C191, refuted with a target.**  If all evaluations of the first batch end with values that are not finite, the optimiser has an empty data set,
`check_stop` raises from then on, and no further point is evaluated. -/
theorem c191_target_refuted (cfg : Cfg K) (t : K) (ht : cfg.ftarget = some t) (hm : cfg.maxFEs = none ∨ ∃ m, cfg.maxFEs = some m ∧ 0 < m)
    (e : Attempt P K) (hne : e.evals ≠ []) (hbad : ∀ p ∈ e.evals, p.2 = some .nan ∨ p.2 = some .posInf ∨ p.2 = some .negInf) (es : List (Attempt P K)) :
    (retryLoop cfg (e :: es) {} 0).2 = (e.evals.length, .raised) := by
  have hb0 : checkBudget cfg ({} : OptState P K) = {} := by
    rcases hm with h | ⟨m, h, hp⟩
    · simp [checkBudget, h]
    · simp [checkBudget, h, hp]
  have hcs : checkStop cfg ({} : OptState P K) = ({}, .ok false) := by
    simp [checkStop, ht, hb0, xopt, stopFlag]
  have hnf : ¬ ∃ p ∈ e.evals, p.2 = none := by
    rintro ⟨p, hp, h0⟩
    rcases hbad p hp with h | h | h <;> rw [h] at h0 <;> cases h0
  obtain ⟨vs, h1, h2, h3⟩ := mapM_all _ hnf
  have hfin : finitePart ((e.evals.map Prod.fst).zip vs) = [] := by
    rw [h3, List.filterMap_eq_nil_iff]
    intro p hp
    rcases hbad p hp with h | h | h <;> rw [h]
  have hlen : (defaultIndex e.evals.length).length = ((e.evals.map Prod.fst).zip vs).length := by simp [defaultIndex, h2]
  have hkept := postEvalCheck_pairs (K := K) (if cfg.evalDict = true then 0 else 1) _ _ hlen
  rw [hfin] at hkept
  have hkept : postEvalCheck (if cfg.evalDict = true then 0 else 1) (((e.evals.map Prod.fst).zip vs).zip (defaultIndex e.evals.length)) = [] := by
    simpa using hkept
  have hdata : (attemptStep cfg {} e).data = some [] := by
    simp only [attemptStep, h1, tell, observe_eq, labels, List.length_map]
    simp [hne, h2, hkept, tellRest]
  have hx : ∀ s : OptState P K, s.data = some [] → ∃ s' err, checkStop cfg s = (s', .error err) := by
    intro s hs
    have : (checkBudget cfg s).data = some [] := by
      unfold checkBudget
      split
      · split_ifs <;> exact hs
      · exact hs
    refine ⟨checkBudget cfg s, .emptyData, ?_⟩
    simp [checkStop, ht, xopt, this, incumbent, getBest]
  obtain ⟨s', err, hs'⟩ := hx _ hdata
  unfold retryLoop
  simp only [hcs]
  unfold retryLoop
  simp only [hs', calls_all _ hnf, Nat.zero_add]

/-- Three attempts, of which the second fails half-way: the other two are recorded, the budget of four is reached, and five calls are made. -/
theorem c191_concrete :
    let es : List (Attempt ℕ ℚ) := [{ evals := [(1, some (.fin 4)), (2, some .nan)] }, { evals := [(3, none), (4, some (.fin 0))] },
      { evals := [(5, some (.fin 2)), (6, some (.fin 3))], oracle := { fitOk := false } }]
    let r := retryLoop { minimize := true, maxFEs := some 4, ftarget := none } es {} 0
    pairs r.1 = [(1, 4), (5, 2), (6, 3)] ∧ r.1.evalCount = 4 ∧ r.2.1 = 5 ∧ r.2.2 = .stopped := by
  decide +kernel

end Verif.Props
