import Verif.Model.Resume
import Verif.Spec.Resume
import Verif.Proofs.Optimizer
import Mathlib.Tactic.NormNum

/-!
# C150: continuing a run that has stopped
-/
namespace Verif.Props
open Verif.Model Verif.Spec Verif.Proofs

variable {P K : Type*} [Field K] [LinearOrder K] [IsStrictOrderedRing K]

omit [Field K] [LinearOrder K] [IsStrictOrderedRing K] in
private theorem checkBudget_data (cfg : Cfg K) (s : OptState P K) : (checkBudget cfg s).data = s.data := by
  unfold checkBudget
  split
  · split <;> rfl
  · rfl

omit [Field K] [LinearOrder K] [IsStrictOrderedRing K] in
private theorem checkBudget_flag (cfg : Cfg K) (s : OptState P K) :
    stopFlag (checkBudget cfg s) = true ↔ stopFlag s = true ∨ BudgetUsed cfg.maxFEs s.evalCount := by
  unfold checkBudget
  cases hm : cfg.maxFEs with
  | none => simp [BudgetUsed]
  | some m =>
    by_cases h : (s.evalCount : ℤ) ≥ m
    · simp only [h, if_true]
      refine ⟨fun _ => Or.inr ⟨m, rfl, h⟩, fun _ => by simp [stopFlag]⟩
    · simp only [h, if_false]
      refine ⟨Or.inl, fun hh => hh.elim id ?_⟩
      rintro ⟨m', hm', hle⟩
      cases hm'
      exact absurd hle h

private theorem passed_iff {minimize : Bool} {t : K} {d : List (Rec P K)} {r : Rec P K}
    (h : incumbent minimize d = some r) :
    Model.compare minimize r.f t = true ↔ TargetPassed minimize (some t) d := by
  obtain ⟨⟨hmem, hb⟩, _⟩ := incumbent_spec h
  obtain ⟨r', hr', hf⟩ := List.mem_map.1 hmem
  have hne : d ≠ [] := by rintro rfl; cases hr'
  cases minimize
  · have hle : ∀ q ∈ d, q.f ≤ r.f := fun q hq => hb q.f (List.mem_map.2 ⟨q, hq, rfl⟩)
    simp only [Model.compare, gt_iff_lt, Bool.false_eq_true, if_false, decide_eq_true_eq]
    constructor
    · intro hlt
      exact ⟨t, rfl, hne, by simpa using fun q hq => lt_of_le_of_lt (hle q hq) hlt⟩
    · rintro ⟨t', ht', _, hall⟩
      cases ht'
      have := (by simpa using hall : ∀ q ∈ d, q.f < t) r' hr'
      rwa [hf] at this
  · have hle : ∀ q ∈ d, r.f ≤ q.f := fun q hq => hb q.f (List.mem_map.2 ⟨q, hq, rfl⟩)
    simp only [Model.compare, if_true, decide_eq_true_eq]
    constructor
    · intro hlt
      exact ⟨t, rfl, hne, by simpa using ⟨r', hr', by rw [hf]; exact hlt⟩⟩
    · rintro ⟨t', ht', _, hex⟩
      cases ht'
      obtain ⟨q, hq, hlt⟩ := (by simpa using hex : ∃ q ∈ d, q.f < t)
      exact lt_of_le_of_lt (hle q hq) hlt

private theorem checkStop_flag (cfg : Cfg K) (s : OptState P K) :
    stopFlag (checkStop cfg s).1 = true ↔ stopFlag s = true ∨ Due cfg s := by
  have hB := checkBudget_flag cfg s
  have hD := checkBudget_data cfg s
  have noT : ¬ TargetPassed cfg.minimize cfg.ftarget (s.data.getD []) →
      ((stopFlag (checkBudget cfg s) = true) ↔ stopFlag s = true ∨ Due cfg s) := by
    intro h
    rw [hB]
    simp [Due, h]
  unfold checkStop
  cases ht : cfg.ftarget with
  | none =>
    exact noT (by rw [ht]; rintro ⟨t, h, _⟩; cases h)
  | some t =>
    cases hd : s.data with
    | none =>
      have hx : xopt cfg (checkBudget cfg s) = .ok none := by unfold xopt; rw [hD, hd]
      simp only [hx]
      refine noT ?_
      rw [hd]; rintro ⟨_, _, h, _⟩; exact h rfl
    | some d =>
      cases hi : incumbent cfg.minimize d with
      | none =>
        have hx : xopt cfg (checkBudget cfg s) = .error .emptyData := by
          unfold xopt; rw [hD, hd]; simp only [hi]
        simp only [hx]
        refine noT ?_
        rw [hd]
        rintro ⟨_, _, h, _⟩
        obtain ⟨r, hr⟩ := incumbent_isSome cfg.minimize (d := d) h
        rw [hi] at hr; cases hr
      | some r =>
        have hx : xopt cfg (checkBudget cfg s) = .ok (some r) := by
          unfold xopt; rw [hD, hd]; simp only [hi]
        have hp := passed_iff (t := t) hi
        simp only [hx]
        by_cases hc : Model.compare cfg.minimize r.f t = true
        · rw [if_pos hc]
          refine ⟨fun _ => Or.inr (Or.inr ?_), fun _ => by simp [stopFlag]⟩
          rw [ht, hd]; exact hp.1 hc
        · rw [if_neg hc]
          exact noT (by rw [ht, hd]; exact fun h => hc (hp.2 h))

private theorem tell_flag (cfg : Cfg K) (s : OptState P K) (a : TellArgs P K) :
    stopFlag (tell cfg s a).1 = stopFlag s := by
  obtain ⟨_, h1, h2, _⟩ := tell_spec cfg s a
  simp only [stopFlag, h1, h2]

omit [IsStrictOrderedRing K] in
private theorem applyOp_fst (cfg : Cfg K) (s : OptState P K) (o : Op P K) :
    (applyOp cfg s o).1 = match o with
      | .tell a => (tell cfg s a).1
      | .checkStop => (checkStop cfg s).1 := by
  cases o with
  | tell a =>
    simp only [applyOp]
    split <;> rename_i h <;> rw [h]
  | checkStop =>
    simp only [applyOp]
    split <;> rename_i h <;> rw [h]

omit [IsStrictOrderedRing K] in
private theorem executeWith_snoc (ops : List (Cfg K × Op P K)) (o : Cfg K × Op P K) :
    executeWith (ops ++ [o]) = (applyOp o.1 (executeWith ops) o.2).1 := by
  simp [executeWith, List.foldl_append]

/-- Whatever the user assigns to `max_FEs` and `ftarget` between the calls: the run counts as stopped exactly when at
some earlier call of `check_stop` it was due to stop under the values of that moment. -/
theorem c150_stopped_iff_ever_due (ops : List (Cfg K × Op P K)) :
    stopFlag (executeWith ops) = true ↔
      ∃ before cfg after, ops = before ++ (cfg, Op.checkStop) :: after ∧ Due cfg (executeWith before) := by
  induction ops using List.reverseRecOn with
  | nil =>
    refine ⟨fun h => (by cases h), ?_⟩
    rintro ⟨b, c, a, h, _⟩
    exact absurd h.symm (by simp)
  | append_singleton ops o ih =>
    obtain ⟨cfg, o⟩ := o
    rw [executeWith_snoc, applyOp_fst]
    have lift : (∃ before cfg after, ops = before ++ (cfg, Op.checkStop) :: after ∧ Due cfg (executeWith before)) →
        ∃ before cfg' after, ops ++ [(cfg, o)] = before ++ (cfg', Op.checkStop) :: after ∧
          Due cfg' (executeWith before) := by
      rintro ⟨b, c, a, h, hd⟩
      exact ⟨b, c, a ++ [(cfg, o)], by rw [h]; simp, hd⟩
    have lower : (∃ before cfg' after, ops ++ [(cfg, o)] = before ++ (cfg', Op.checkStop) :: after ∧
          Due cfg' (executeWith before)) →
        (∃ before cfg after, ops = before ++ (cfg, Op.checkStop) :: after ∧ Due cfg (executeWith before)) ∨
        (o = .checkStop ∧ Due cfg (executeWith ops)) := by
      rintro ⟨b, c, a, h, hd⟩
      rcases List.eq_nil_or_concat a with ha | ⟨a', z, ha⟩
      · rw [ha] at h
        have h1 := List.append_inj' h rfl
        have h2 := List.cons.inj h1.2
        have h3 := Prod.mk.inj h2.1
        right
        rw [h1.1, h3.1]
        exact ⟨h3.2, hd⟩
      · left
        rw [ha] at h
        have h' : ops ++ [(cfg, o)] = (b ++ (c, Op.checkStop) :: a') ++ [z] := by
          rw [h]; simp
        exact ⟨b, c, a', (List.append_inj' h' rfl).1, hd⟩
    cases o with
    | tell a =>
      simp only [tell_flag]
      rw [ih]
      exact ⟨lift, fun h => (lower h).elim id (fun h => by cases h.1)⟩
    | checkStop =>
      simp only
      rw [checkStop_flag, ih]
      constructor
      · rintro (h | h)
        · exact lift h
        · exact ⟨ops, cfg, [], by simp, h⟩
      · intro h
        exact (lower h).imp id And.right

/-- The value returned by `check_stop`, after any history under any settings, when it returns. -/
theorem c150_check_stop_returns (ops : List (Cfg K × Op P K)) (cfg : Cfg K) (b : Bool)
    (h : (checkStop cfg (executeWith ops)).2 = .ok b) :
    b = true ↔ Due cfg (executeWith ops) ∨
      ∃ before cfg' after, ops = before ++ (cfg', Op.checkStop) :: after ∧ Due cfg' (executeWith before) := by
  have hb : b = stopFlag (checkStop cfg (executeWith ops)).1 := by
    revert h
    unfold checkStop
    cases cfg.ftarget with
    | none => intro h; exact (Except.ok.inj h).symm
    | some t =>
      simp only
      split
      · intro h; cases h
      · intro h; exact (Except.ok.inj h).symm
      · intro h; exact (Except.ok.inj h).symm
  rw [hb, checkStop_flag, c150_stopped_iff_ever_due]
  exact Or.comm

/-- Once a run has stopped, no later assignment to `max_FEs` or `ftarget` lets `run` evaluate another point: it leaves
without a step and the state it leaves has the data and the evaluation count of before. -/
theorem c150_raised_budget_ignored (ops : List (Cfg K × Op P K)) (cfg : Cfg K) (inp : ℕ → StepIn P K) (fuel : ℕ)
    (hdue : ∃ before cfg' after, ops = before ++ (cfg', Op.checkStop) :: after ∧ Due cfg' (executeWith before)) :
    ∃ s', s'.data = (executeWith ops).data ∧ s'.evalCount = (executeWith ops).evalCount ∧
      (run cfg inp (fuel + 1) 0 (executeWith ops) = .raised 0 s' ∨
        ∃ r, run cfg inp (fuel + 1) 0 (executeWith ops) = .returned 0 s' r) := by
  have hflag := (c150_stopped_iff_ever_due ops).2 hdue
  generalize executeWith ops = s at hflag
  have hs : (checkStop cfg s).1.data = s.data ∧ (checkStop cfg s).1.evalCount = s.evalCount := by
    have hc : (checkBudget cfg s).data = s.data ∧ (checkBudget cfg s).evalCount = s.evalCount := by
      unfold checkBudget
      split
      · split <;> exact ⟨rfl, rfl⟩
      · exact ⟨rfl, rfl⟩
    unfold checkStop
    cases cfg.ftarget with
    | none => exact hc
    | some t =>
      simp only
      split
      · exact hc
      · exact hc
      · simp only
        split <;> exact hc
  have hf : stopFlag (checkStop cfg s).1 = true := (checkStop_flag cfg s).2 (Or.inl hflag)
  have hret : ∀ b, (checkStop cfg s).2 = .ok b → b = true := by
    intro b h
    have hb : b = stopFlag (checkStop cfg s).1 := by
      revert h
      unfold checkStop
      cases cfg.ftarget with
      | none => intro h; exact (Except.ok.inj h).symm
      | some t =>
        simp only
        split
        · intro h; cases h
        · intro h; exact (Except.ok.inj h).symm
        · intro h; exact (Except.ok.inj h).symm
    rw [hb, hf]
  refine ⟨(checkStop cfg s).1, hs.1, hs.2, ?_⟩
  rw [run]
  rcases hcs : checkStop cfg s with ⟨s', e | b⟩
  · exact Or.inl rfl
  · have := hret b (by rw [hcs])
    subst this
    simp only
    split
    · exact Or.inr ⟨_, rfl⟩
    · exact Or.inl rfl

/-- As long as no call of `check_stop` has been made at a moment when the run was due, assignments take effect: the next
`run` makes a step exactly when the run is not due under the current values (unless the target is compared with an
empty record, which raises). -/
theorem c150_settings_take_effect_partial (ops : List (Cfg K × Op P K)) (cfg : Cfg K)
    (hnot : ¬ ∃ before cfg' after, ops = before ++ (cfg', Op.checkStop) :: after ∧ Due cfg' (executeWith before))
    (hdata : cfg.ftarget = none ∨ (executeWith ops).data ≠ some []) :
    ∃ b, (checkStop cfg (executeWith ops)).2 = .ok b ∧ (b = true ↔ Due cfg (executeWith ops)) := by
  have hok : ∃ b, (checkStop cfg (executeWith ops)).2 = .ok b := by
    unfold checkStop
    cases ht : cfg.ftarget with
    | none => exact ⟨_, rfl⟩
    | some t =>
      simp only [xopt, checkBudget_data]
      cases hd : (executeWith ops).data with
      | none => exact ⟨_, rfl⟩
      | some d =>
        have hne : d ≠ [] := by
          rintro rfl
          rcases hdata with h | h
          · rw [ht] at h; cases h
          · exact h hd
        obtain ⟨r, hr⟩ := incumbent_isSome cfg.minimize hne
        simp only [hr]
        exact ⟨_, rfl⟩
  obtain ⟨b, hb⟩ := hok
  refine ⟨b, hb, ?_⟩
  rw [c150_check_stop_returns ops cfg b hb]
  exact ⟨fun h => h.elim id (fun h => absurd h hnot), Or.inl⟩

/-- A run with a budget of two: two points told, then the check. -/
private def stoppedRun : List (Cfg ℚ × Op ℕ ℚ) :=
  [(⟨true, some 2, none, false, false⟩, .tell { X := [10, 20], vals := [.fin 5, .fin 3] }),
   (⟨true, some 2, none, false, false⟩, .checkStop)]

/-- The hypothesis of `c150_raised_budget_ignored` holds for a run that used its budget of two. -/
example : ∃ before cfg' after, stoppedRun = before ++ (cfg', Op.checkStop) :: after ∧
    Due cfg' (executeWith before) :=
  ⟨stoppedRun.take 1, _, [], rfl, Or.inl ⟨2, rfl, by decide +kernel⟩⟩

/-- Both outcomes of `c150_settings_take_effect_partial` occur: after two points and no check, a budget of two stops and
a budget of a hundred does not; with a target of four the best value 3 stops. -/
example : (∀ before cfg' after, stoppedRun.take 1 ≠ before ++ (cfg', Op.checkStop) :: after) ∧
    (checkStop (⟨true, some 2, none, false, false⟩ : Cfg ℚ) (executeWith (stoppedRun.take 1))).2 = .ok true ∧
    (checkStop (⟨true, some 100, none, false, false⟩ : Cfg ℚ) (executeWith (stoppedRun.take 1))).2 = .ok false ∧
    Due (⟨true, some 100, some 4, false, false⟩ : Cfg ℚ) (executeWith (stoppedRun.take 1)) := by
  refine ⟨?_, rfl, rfl, Or.inr ⟨4, rfl, by decide +kernel, ?_⟩⟩
  · intro b c a h
    cases b with
    | nil => cases (List.cons.inj h).1
    | cons x xs => exact absurd (List.cons.inj h).2 (by simp)
  · exact ⟨⟨20, 3, 2, "1"⟩, List.mem_of_getElem? (i := 1) (by rfl), by norm_num⟩

/-- The property fails: after a run has used its budget of two, assigning a budget of a hundred lets `run` evaluate
nothing, although a freshly made optimiser told the same data goes on. -/
theorem c150_not_resumable :
    (∀ (inp : ℕ → StepIn ℕ ℚ) (fuel : ℕ), ∃ s' r,
      run (⟨true, some 100, none, false, false⟩ : Cfg ℚ) inp (fuel + 1) 0 (executeWith stoppedRun)
        = .returned 0 s' r ∧ s'.evalCount = 2) ∧
    (checkStop (⟨true, some 100, none, false, false⟩ : Cfg ℚ) (executeWith (stoppedRun.take 1))).2 = .ok false := by
  constructor
  · intro inp fuel
    exact ⟨(checkStop ⟨true, some 100, none, false, false⟩ (executeWith stoppedRun)).1, _, rfl, rfl⟩
  · rfl

end Verif.Props
