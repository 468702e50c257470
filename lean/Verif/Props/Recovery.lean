import Verif.Spec.Recovery
import Verif.Proofs.Optimizer
import Mathlib.Tactic.NormNum

/-!
# C196: going on after `tell` has raised
-/
set_option linter.unusedSectionVars false

namespace Verif.Props

open Verif.Model Verif.Spec Verif.Proofs

variable {P K : Type*} [Field K] [LinearOrder K] [IsStrictOrderedRing K]

private theorem tellAll_snoc (cfg : Cfg K) (c : SurrogateClass) (h : List (TellArgs P K × FitOutcome)) (a : TellArgs P K × FitOutcome) :
    tellAll cfg c (h ++ [a]) = (tellSurrogate cfg c (tellAll cfg c h) a.1 a.2).1 := by
  simp [tellAll]

private theorem tellRest_ok {cfg : Cfg K} {s : OptState P K} {d kept : List (Rec P K)} {a : TellArgs P K} (h : isOk (tellRest cfg s d kept a).2 = true) :
    a.oracle.fitOk = true := by
  unfold tellRest at h
  simp only at h
  by_contra hf
  split_ifs at h <;> simp_all [isOk]

private theorem tell_ok {cfg : Cfg K} {s : OptState P K} {a : TellArgs P K} (h : isOk (tell cfg s a).2 = true) : a.oracle.fitOk = true := by
  unfold tell at h
  simp only at h
  by_cases h1 : a.X.isEmpty = true
  · rw [if_pos h1] at h; simp [isOk] at h
  rw [if_neg h1] at h
  by_cases h2 : (a.index.map List.length).any (· != a.X.length) = true
  · rw [if_pos h2] at h; simp [isOk] at h
  rw [if_neg h2] at h
  generalize (if cfg.evalDict then 0 else 1) = n0 at h
  split at h
  · simp [isOk] at h
  · split at h
    · exact tellRest_ok h
    · split at h
      · simp [isOk] at h
      · exact tellRest_ok h

private theorem tellRest_constraint {cfg : Cfg K} {s : OptState P K} {d kept : List (Rec P K)} {a : TellArgs P K}
    (h : (tellRest cfg s d kept a).2 = .error .constraintFailed) : a.oracle.fitOk = true := by
  unfold tellRest at h
  simp only at h
  by_contra hf
  split_ifs at h <;> simp_all

private theorem tell_constraint {cfg : Cfg K} {s : OptState P K} {a : TellArgs P K} (h : (tell cfg s a).2 = .error .constraintFailed) : a.oracle.fitOk = true := by
  unfold tell at h
  simp only at h
  by_cases h1 : a.X.isEmpty = true
  · rw [if_pos h1] at h; simp at h
  rw [if_neg h1] at h
  by_cases h2 : (a.index.map List.length).any (· != a.X.length) = true
  · rw [if_pos h2] at h; simp at h
  rw [if_neg h2] at h
  generalize (if cfg.evalDict then 0 else 1) = n0 at h
  split at h
  · simp at h
  · split at h
    · exact tellRest_constraint h
    · split at h
      · simp at h
      · exact tellRest_constraint h

/-- A call that returns has trained the surrogate on everything recorded. -/
private theorem step_returned {cfg : Cfg K} {c : SurrogateClass} {w : OptState P K × Surrogate (List (P × K))} {a : TellArgs P K} {o : FitOutcome}
    (h : (tellSurrogate cfg c w a o).2 = true) : (tellSurrogate cfg c w a o).1.2 = ⟨true, .trained (recorded (tellSurrogate cfg c w a o).1.1)⟩ := by
  unfold tellSurrogate at h ⊢
  simp only at h ⊢
  split at h
  · next u hu =>
    have h1 : isOk (tell cfg w.1 { a with oracle := { a.oracle with fitOk := decide (o = .done) } }).2 = true := by rw [hu]; rfl
    have h2 := tell_ok h1
    have h3 : o = .done := by simpa using h2
    subst h3
    rw [hu]
    rfl
  · cases h

/-- The records only grow. -/
private theorem step_grows (cfg : Cfg K) (c : SurrogateClass) (w : OptState P K × Surrogate (List (P × K))) (a : TellArgs P K) (o : FitOutcome) :
    recorded w.1 <+: recorded (tellSurrogate cfg c w a o).1.1 := by
  obtain ⟨kept, hk, -⟩ := tell_rows cfg w.1 { a with oracle := { a.oracle with fitOk := decide (o = .done) } }
  refine ⟨kept.map (fun r => (r.x, r.f)), ?_⟩
  unfold recorded tellSurrogate
  simp only
  rw [hk, List.map_append]

/-- What one call does to the surrogate. -/
private theorem step_model (cfg : Cfg K) (c : SurrogateClass) (w : OptState P K × Surrogate (List (P × K))) (a : TellArgs P K) (o : FitOutcome) :
    (tellSurrogate cfg c w a o).1.2 = w.2 ∨ (tellSurrogate cfg c w a o).1.2 = w.2.fit c (recorded (tellSurrogate cfg c w a o).1.1) o := by
  unfold tellSurrogate
  simp only
  split_ifs
  · exact Or.inr rfl
  · exact Or.inl rfl

/-- **C196.** After a call of `tell` that returned, the next `ask` searches with a surrogate trained on exactly the recorded observations, whatever failed before. -/
theorem c196_recovers (cfg : Cfg K) (c : SurrogateClass) (h : List (TellArgs P K × FitOutcome)) (a : TellArgs P K × FitOutcome) (hr : LastReturned cfg c h a) :
    NextAsk cfg c (h ++ [a]) = .search (RecordedAfter cfg c (h ++ [a])) := by
  unfold NextAsk RecordedAfter
  rw [tellAll_snoc, step_returned hr]
  rfl

/-- **C196.** The same holds after a call that raised inside the user's constraint functions: the surrogate is trained before they are evaluated. -/
theorem c196_constraint (cfg : Cfg K) (c : SurrogateClass) (h : List (TellArgs P K × FitOutcome)) (a : TellArgs P K × FitOutcome) (hr : LastFailedInConstraint cfg c h a) :
    NextAsk cfg c (h ++ [a]) = .search (RecordedAfter cfg c (h ++ [a])) := by
  have h1 := tell_constraint hr
  have h2 : a.2 = .done := by simpa using h1
  unfold LastFailedInConstraint at hr
  unfold NextAsk RecordedAfter
  rw [tellAll_snoc]
  unfold tellSurrogate
  simp only
  rw [hr, h2]
  rfl

/-- **C196, partial.** If no training was interrupted half-way, the next `ask` takes a random design, and then no call of `tell` has returned so far, or it searches with a surrogate that was completely
trained on the first observations recorded, at least on all those recorded when `tell` last returned.  Missing: interrupted trainings (`c196_gp_refuted`, `c196_forest_refuted`), and that the surrogate
knows *all* recorded observations (`c196_stale_refuted`). -/
theorem c196_keeps_partial (cfg : Cfg K) (c : SurrogateClass) (h : List (TellArgs P K × FitOutcome)) (hi : NoneInterrupted h) :
    (NextAsk cfg c h = .design ∧ ∀ pre a, pre ++ [a] <+: h → ¬ LastReturned cfg c pre a) ∨
    ∃ d, NextAsk cfg c h = .search d ∧ d <+: RecordedAfter cfg c h ∧ ∀ pre a, pre ++ [a] <+: h → LastReturned cfg c pre a → RecordedAfter cfg c (pre ++ [a]) <+: d := by
  have key : ((tellAll cfg c h).2 = Surrogate.fresh _ ∧ ∀ pre a, pre ++ [a] <+: h → ¬ LastReturned cfg c pre a) ∨
      ∃ d, (tellAll cfg c h).2 = ⟨true, .trained d⟩ ∧ d <+: RecordedAfter cfg c h ∧
        ∀ pre a, pre ++ [a] <+: h → LastReturned cfg c pre a → RecordedAfter cfg c (pre ++ [a]) <+: d := by
    induction h using List.reverseRecOn with
    | nil => exact Or.inl ⟨rfl, fun pre a hp => by simp at hp⟩
    | append_singleton h b ih =>
      have ih := ih (fun a ha => hi a (by simp [ha]))
      have hb : b.2 ≠ .trainFails := hi b (by simp)
      have hsplit : ∀ pre (a : TellArgs P K × FitOutcome), pre ++ [a] <+: h ++ [b] → (pre = h ∧ a = b) ∨ pre ++ [a] <+: h := by
        intro pre a hp
        rcases List.prefix_concat_iff.mp hp with e | e
        · have := List.append_inj' e rfl
          exact Or.inl ⟨this.1, by simpa using this.2⟩
        · exact Or.inr e
      by_cases hr : LastReturned cfg c h b
      · -- the last call returned
        refine Or.inr ⟨RecordedAfter cfg c (h ++ [b]), ?_, List.prefix_rfl, ?_⟩
        · unfold RecordedAfter
          rw [tellAll_snoc]
          exact step_returned hr
        · intro pre a hp ha
          have mono : ∀ q : List (TellArgs P K × FitOutcome), RecordedAfter cfg c (pre ++ [a]) <+: RecordedAfter cfg c (pre ++ [a] ++ q) := by
            intro q
            induction q using List.reverseRecOn with
            | nil => simp
            | append_singleton q x ihq =>
              refine ihq.trans ?_
              rw [← List.append_assoc (pre ++ [a])]
              unfold RecordedAfter
              rw [tellAll_snoc]
              exact step_grows cfg c _ _ _
          obtain ⟨q, hq⟩ := hp
          rw [← hq]
          exact mono q
      · -- the last call raised
        have hgrow : RecordedAfter cfg c h <+: RecordedAfter cfg c (h ++ [b]) := by
          unfold RecordedAfter
          rw [tellAll_snoc]
          exact step_grows cfg c _ _ _
        have hcase : (tellAll cfg c (h ++ [b])).2 = (tellAll cfg c h).2 ∨ (tellAll cfg c (h ++ [b])).2 = ⟨true, .trained (RecordedAfter cfg c (h ++ [b]))⟩ := by
          unfold RecordedAfter
          rw [tellAll_snoc]
          rcases step_model cfg c (tellAll cfg c h) b.1 b.2 with e | e
          · exact Or.inl e
          · rw [e]
            match hb' : b.2 with
            | .checkFails => exact Or.inl rfl
            | .trainFails => exact absurd hb' hb
            | .predictFails => exact Or.inr rfl
            | .done => exact Or.inr rfl
        have monoAll : ∀ pre (a : TellArgs P K × FitOutcome), pre ++ [a] <+: h → RecordedAfter cfg c (pre ++ [a]) <+: RecordedAfter cfg c (h ++ [b]) := by
          intro pre a hp
          have mono : ∀ q : List (TellArgs P K × FitOutcome), RecordedAfter cfg c (pre ++ [a]) <+: RecordedAfter cfg c (pre ++ [a] ++ q) := by
            intro q
            induction q using List.reverseRecOn with
            | nil => simp
            | append_singleton q x ihq =>
              refine ihq.trans ?_
              rw [← List.append_assoc (pre ++ [a])]
              unfold RecordedAfter
              rw [tellAll_snoc]
              exact step_grows cfg c _ _ _
          obtain ⟨q, hq⟩ := hp
          rw [← hq] at hgrow ⊢
          exact (mono q).trans hgrow
        rcases hcase with e | e
        · rcases ih with ⟨h1, h2⟩ | ⟨d, h1, h2, h3⟩
          · refine Or.inl ⟨e.trans h1, fun pre a hp => ?_⟩
            rcases hsplit pre a hp with ⟨rfl, rfl⟩ | hp'
            · exact hr
            · exact h2 pre a hp'
          · refine Or.inr ⟨d, e.trans h1, h2.trans hgrow, fun pre a hp ha => ?_⟩
            rcases hsplit pre a hp with ⟨rfl, rfl⟩ | hp'
            · exact absurd ha hr
            · exact h3 pre a hp' ha
        · refine Or.inr ⟨_, e, List.prefix_rfl, fun pre a hp ha => ?_⟩
          rcases hsplit pre a hp with ⟨rfl, rfl⟩ | hp'
          · exact absurd ha hr
          · exact monoAll pre a hp'
  unfold NextAsk
  rcases key with ⟨h1, h2⟩ | ⟨d, h1, h2⟩
  · exact Or.inl ⟨by rw [h1]; rfl, h2⟩
  · exact Or.inr ⟨d, by rw [h1]; rfl, h2⟩

/-- **C196.** The forest: once `tell` has returned, the next `ask` always searches with a completely trained surrogate, whatever fails later, also a training. -/
theorem c196_forest (cfg : Cfg K) (h q : List (TellArgs P K × FitOutcome)) (a : TellArgs P K × FitOutcome) (hr : LastReturned cfg .forest h a) :
    ∃ d, NextAsk cfg .forest (h ++ [a] ++ q) = .search d ∧ RecordedAfter cfg .forest (h ++ [a]) <+: d ∧ d <+: RecordedAfter cfg .forest (h ++ [a] ++ q) := by
  have key : ∃ d, (tellAll cfg .forest (h ++ [a] ++ q)).2 = ⟨true, .trained d⟩ ∧ RecordedAfter cfg .forest (h ++ [a]) <+: d ∧
      d <+: RecordedAfter cfg .forest (h ++ [a] ++ q) := by
    induction q using List.reverseRecOn with
    | nil =>
      refine ⟨RecordedAfter cfg .forest (h ++ [a]), ?_, List.prefix_rfl, by simp⟩
      unfold RecordedAfter
      rw [List.append_nil, tellAll_snoc]
      exact step_returned hr
    | append_singleton q b ih =>
      obtain ⟨d, h1, h2, h3⟩ := ih
      rw [← List.append_assoc (h ++ [a])]
      have hgrow : RecordedAfter cfg .forest (h ++ [a] ++ q) <+: RecordedAfter cfg .forest (h ++ [a] ++ q ++ [b]) := by
        unfold RecordedAfter
        rw [tellAll_snoc]
        exact step_grows cfg .forest _ _ _
      have hcase : (tellAll cfg .forest (h ++ [a] ++ q ++ [b])).2 = ⟨true, .trained d⟩ ∨
          (tellAll cfg .forest (h ++ [a] ++ q ++ [b])).2 = ⟨true, .trained (RecordedAfter cfg .forest (h ++ [a] ++ q ++ [b]))⟩ := by
        unfold RecordedAfter
        rw [tellAll_snoc]
        rcases step_model cfg .forest (tellAll cfg .forest (h ++ [a] ++ q)) b.1 b.2 with e | e
        · exact Or.inl (e.trans h1)
        · rw [e, h1]
          match b.2 with
          | .checkFails => exact Or.inl rfl
          | .trainFails => exact Or.inl rfl
          | .predictFails => exact Or.inr rfl
          | .done => exact Or.inr rfl
      rcases hcase with e | e
      · exact ⟨d, e, h2, h3.trans hgrow⟩
      · exact ⟨_, e, h2.trans (h3.trans hgrow), List.prefix_rfl⟩
  obtain ⟨d, h1, h2⟩ := key
  refine ⟨d, ?_, h2⟩
  unfold NextAsk
  rw [h1]
  rfl

/-- A call that tells the observations `l`. -/
private def telling (l : List (ℕ × ℚ)) (o : FitOutcome) : TellArgs ℕ ℚ × FitOutcome := ({ X := l.map Prod.fst, vals := l.map (fun p => .fin p.2) }, o)

private def fiveOnes : List (ℕ × ℚ) := [(0, 1), (1, 1), (2, 1), (3, 1), (4, 1)]

/-- **C196 fails.** With every surrogate: after five equal values a sixth makes `tell` raise `FlatFitnessError`; the observation is recorded, and the next `ask` searches with a surrogate that has not
seen it. -/
theorem c196_stale_refuted (c : SurrogateClass) : ∃ h : List (TellArgs ℕ ℚ × FitOutcome), NoneInterrupted h ∧
    RecordedAfter ⟨true, none, none, false, false⟩ c h = fiveOnes ++ [(5, 1)] ∧ NextAsk ⟨true, none, none, false, false⟩ c h = .search fiveOnes := by
  refine ⟨[telling fiveOnes .done, telling [(5, 1)] .done], ?_, ?_, ?_⟩
  · intro a ha
    simp only [List.mem_cons, List.not_mem_nil, or_false] at ha
    rcases ha with rfl | rfl <;> exact fun e => nomatch e
  · cases c <;> decide +kernel
  · cases c <;> decide +kernel

/-- **C196 fails.** With a Gaussian process, a training that is interrupted makes the next `ask` search with what it has left; before, `ask` searched with a complete surrogate. -/
theorem c196_gp_refuted (c : SurrogateClass) (hc : c ≠ .forest) : ∃ (h : List (TellArgs ℕ ℚ × FitOutcome)) (a : TellArgs ℕ ℚ × FitOutcome),
    NextAsk ⟨true, none, none, false, false⟩ c h = .search [(0, 1), (1, 2)] ∧ NextAsk ⟨true, none, none, false, false⟩ c (h ++ [a]) = .mixture := by
  refine ⟨[telling [(0, 1), (1, 2)] .done], telling [(2, 3)] .trainFails, ?_, ?_⟩
  · cases c <;> rfl
  · cases c
    · exact absurd rfl hc
    · rfl
    · rfl

/-- **C196 fails.** When the very first training is interrupted, `ask` goes on with a random design if the surrogate is a Gaussian process; with the forest it raises, and raises again after any further
calls of `tell` as long as `fit` does not succeed. -/
theorem c196_forest_refuted : ∃ a : TellArgs ℕ ℚ × FitOutcome,
    (∀ q : List (TellArgs ℕ ℚ × FitOutcome), (∀ b ∈ q, b.2 = .checkFails ∨ b.2 = .trainFails) → NextAsk ⟨true, none, none, false, false⟩ .forest (a :: q) = .raises) ∧
    ∀ c, c ≠ .forest → NextAsk ⟨true, none, none, false, false⟩ c [a] = .design := by
  refine ⟨telling [(0, 1), (1, 2)] .trainFails, fun q hq => ?_, fun c hc => ?_⟩
  · have key : (tellAll (⟨true, none, none, false, false⟩ : Cfg ℚ) .forest (telling [(0, 1), (1, 2)] .trainFails :: q)).2 = ⟨true, .nothing⟩ := by
      induction q using List.reverseRecOn with
      | nil => rfl
      | append_singleton q b ih =>
        have ih := ih (fun x hx => hq x (by simp [hx]))
        rw [← List.cons_append, tellAll_snoc]
        rcases step_model (⟨true, none, none, false, false⟩ : Cfg ℚ) .forest (tellAll ⟨true, none, none, false, false⟩ .forest (telling [(0, 1), (1, 2)] .trainFails :: q)) b.1 b.2
          with e | e
        · exact e.trans ih
        · rw [e, ih]
          rcases hq b (by simp) with e' | e' <;> rw [e'] <;> rfl
    unfold NextAsk
    rw [key]
    rfl
  · cases c
    · exact absurd rfl hc
    · rfl
    · rfl

/-- The hypotheses are met: a history with a rejected call, one whose training stops at the first checks, and one that returns. -/
theorem c196_concrete (c : SurrogateClass) : ∃ (h : List (TellArgs ℕ ℚ × FitOutcome)) (a : TellArgs ℕ ℚ × FitOutcome), NoneInterrupted (h ++ [a]) ∧ h.length = 2 ∧
    NextAsk ⟨true, none, none, false, false⟩ c h = .design ∧ LastReturned ⟨true, none, none, false, false⟩ c h a ∧
    NextAsk ⟨true, none, none, false, false⟩ c (h ++ [a]) = .search [(0, 1), (1, 2), (2, 3)] := by
  refine ⟨[telling [] .done, telling [(0, 1), (1, 2)] .checkFails], telling [(2, 3)] .done, ?_, rfl, ?_, ?_, ?_⟩
  · intro a ha
    simp only [List.cons_append, List.nil_append, List.mem_cons, List.not_mem_nil, or_false] at ha
    rcases ha with rfl | rfl | rfl <;> exact fun e => nomatch e
  · cases c <;> rfl
  · cases c <;> rfl
  · cases c <;> rfl

/-- A call that raises inside the constraint functions exists. -/
theorem c196_constraint_concrete (c : SurrogateClass) : LastFailedInConstraint (⟨true, none, none, false, false⟩ : Cfg ℚ) c []
    ({ X := [0, 1], vals := [.fin 1, .fin 2], oracle := { constraintOk := false } }, .done) := by
  cases c <;> rfl

end Verif.Props
