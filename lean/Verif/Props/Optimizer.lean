import Verif.Proofs.Optimizer
import Mathlib.Algebra.Order.Ring.Rat
import Mathlib.Tactic.NormNum

/-!
# Properties C10-C13, C16, C48, C51-C54: the ask-evaluate-tell state machine

Specification vocabulary: `Verif/Spec/Optimizer.lean`.  Histories are arbitrary lists of `tell` and
`check_stop` calls; a call that raises leaves the state it had produced so far and the history goes on.
-/
set_option linter.unusedSectionVars false
namespace Verif.Props
open Verif.Model Verif.Spec Verif.Proofs

variable {P K : Type*} [Field K] [LinearOrder K] [IsStrictOrderedRing K]

/-- A sample history used to show that hypotheses are met: three points with a NaN, a warm call, a stop
test, and a call with too few values. -/
def sampleOps : List (Op ℕ ℚ) :=
  [.tell { X := [1, 2, 3], vals := [.fin 4, .nan, .fin 2] },
   .checkStop,
   .tell { X := [7], vals := [.fin 9], warm := true },
   .tell { X := [5, 6], vals := [.fin 2] },
   .tell { X := [8], vals := [.fin 2] }]

/-! ## C13: data -/

/-- C13: after any history, the recorded point/value pairs are exactly the finite observations of the
well-formed calls, in the order told. -/
theorem c13_data_is_what_was_told (cfg : Cfg K) (ops : List (Op P K)) :
    ((execute cfg ops).data.getD []).map (fun r => (r.x, r.f)) = toldAll ops :=
  pairs_execute cfg ops

/-- C13: a call that is not well-formed (no point, too few values, wrong number of labels) raises and adds
nothing to the data. -/
theorem c13_malformed_adds_nothing (cfg : Cfg K) (s : OptState P K) (a : TellArgs P K)
    (h : ¬ WellFormed a) : (tell cfg s a).1.data = s.data ∧ ∃ e, (tell cfg s a).2 = .error e := by
  obtain ⟨_, _, _, h4, _, _, _, h8⟩ := tell_spec cfg s a
  refine ⟨(h8 h).1, ?_⟩
  cases hr : (tell cfg s a).2 with
  | error e => exact ⟨e, rfl⟩
  | ok u => exact absurd (h4 (by rw [hr]; rfl)).1 h

/-- Non-vacuity: the sample history records four pairs (executed by the model). -/
example : ((execute { minimize := true, maxFEs := none, ftarget := none } sampleOps).data.getD []).map
    (fun r => (r.x, r.f)) = [(1, 4), (3, 2), (7, 9), (8, 2)] := by decide +kernel

/-! ## C11: incumbent -/

/-- C11: whenever something finite has been told, `xopt` returns the recorded pair at some position `i`
of everything told, its value is the best of all, and no earlier position has that value. -/
theorem c11_incumbent (cfg : Cfg K) (ops : List (Op P K)) (hne : toldAll ops ≠ []) :
    ∃ (r : Rec P K) (i : ℕ), xopt cfg (execute cfg ops) = .ok (some r) ∧
      (toldAll ops)[i]? = some (r.x, r.f) ∧
      IsBestOf cfg.minimize r.f ((toldAll ops).map Prod.snd) ∧
      ∀ (j : ℕ) (q : P × K), j < i → (toldAll ops)[j]? = some q → q.2 ≠ r.f := by
  have hp := pairs_execute cfg ops
  cases hd : (execute cfg ops).data with
  | none => simp [pairs, hd] at hp; exact absurd hp hne
  | some d =>
    have hpd : d.map (fun r => (r.x, r.f)) = toldAll ops := by simpa [pairs, hd] using hp
    have hdne : d ≠ [] := by
      rintro rfl
      exact hne hpd.symm
    obtain ⟨r, hr⟩ := incumbent_isSome cfg.minimize hdne
    obtain ⟨hb, i, hi, hmin⟩ := incumbent_spec hr
    refine ⟨r, i, ?_, ?_, ?_, ?_⟩
    · simp [xopt, hd, hr]
    · rw [← hpd, List.getElem?_map, hi]; rfl
    · rw [← hpd]; simpa [Function.comp_def] using hb
    · intro j q hj hq
      rw [← hpd, List.getElem?_map, Option.map_eq_some_iff] at hq
      obtain ⟨r', hr', rfl⟩ := hq
      exact hmin j r' hj hr'

/-- C11: before anything finite is told there is no incumbent: `xopt` is `None` or raises, and
`recommend()` (which raises in the first case) cannot return a point. -/
theorem c11_no_incumbent (cfg : Cfg K) (ops : List (Op P K)) (h : toldAll ops = []) :
    xopt cfg (execute cfg ops) = .ok none ∨ xopt cfg (execute cfg ops) = .error .emptyData := by
  have hp := pairs_execute cfg ops
  cases hd : (execute cfg ops).data with
  | none => left; simp [xopt, hd]
  | some d =>
    right
    have hpd : d.map (fun r => (r.x, r.f)) = toldAll ops := by simpa [pairs, hd] using hp
    rw [h] at hpd
    have : d = [] := by simpa using hpd
    simp [xopt, hd, this, incumbent, getBest]

/-- Non-vacuity: minimising, the sample history has incumbent point 3 (value 2, told before point 8). -/
example : (xopt { minimize := true, maxFEs := none, ftarget := none }
    (execute { minimize := true, maxFEs := none, ftarget := none } sampleOps)).toOption.map
      (Option.map (fun r => (r.x, r.f))) = some (some (3, 2)) := by decide +kernel

/-! ## C12: history -/

/-- Call number `i` of the history is a non-warm `tell` that returned normally. -/
def completedAt (cfg : Cfg K) (ops : List (Op P K)) (i : ℕ) : Bool :=
  match ops[i]? with
  | some (.tell a) => !a.warm && (applyOp cfg (execute cfg (ops.take i)) (.tell a)).2
  | _ => false

private theorem completedAt_append (cfg : Cfg K) (ops : List (Op P K)) (o : Op P K) (i : ℕ)
    (hi : i < ops.length) : completedAt cfg (ops ++ [o]) i = completedAt cfg ops i := by
  unfold completedAt
  rw [List.getElem?_append_left hi, List.take_append_of_le_length hi.le]

/-- C12: `hist_f` has one entry per completed non-warm call, in order; the entry of call `i` is the best
value of everything told up to and including call `i`; `iter_count` is the length of the history. -/
theorem c12_history (cfg : Cfg K) (ops : List (Op P K)) :
    List.Forall₂ (fun i b => IsBestOf cfg.minimize b ((toldAll (ops.take (i + 1))).map Prod.snd))
      ((List.range ops.length).filter (completedAt cfg ops)) (execute cfg ops).histF ∧
    (execute cfg ops).iterCount = (execute cfg ops).histF.length := by
  induction ops using List.reverseRecOn with
  | nil => simp [execute]
  | append_singleton ops o ih =>
    have hfil : (List.range (ops ++ [o]).length).filter (completedAt cfg (ops ++ [o])) =
        (List.range ops.length).filter (completedAt cfg ops) ++
          (if completedAt cfg (ops ++ [o]) ops.length then [ops.length] else []) := by
      rw [List.length_append, List.length_singleton, List.range_succ, List.filter_append]
      congr 1
      · apply List.filter_congr
        intro i hi
        exact completedAt_append cfg ops o i (List.mem_range.1 hi)
      · simp [List.filter_cons]
    have hold : List.Forall₂ (fun i b => IsBestOf cfg.minimize b
        ((toldAll ((ops ++ [o]).take (i + 1))).map Prod.snd))
        ((List.range ops.length).filter (completedAt cfg ops)) (execute cfg ops).histF := by
      have : ∀ {l : List ℕ} {h : List K}, (∀ i ∈ l, i < ops.length) →
          List.Forall₂ (fun i b => IsBestOf cfg.minimize b ((toldAll (ops.take (i + 1))).map Prod.snd)) l h →
          List.Forall₂ (fun i b => IsBestOf cfg.minimize b
            ((toldAll ((ops ++ [o]).take (i + 1))).map Prod.snd)) l h := by
        intro l h hl hf
        induction hf with
        | nil => exact .nil
        | cons hab _ ih2 =>
          refine .cons ?_ (ih2 fun i hi => hl i (List.mem_cons_of_mem _ hi))
          rw [List.take_append_of_le_length (hl _ List.mem_cons_self)]
          exact hab
      exact this (fun i hi => List.mem_range.1 (List.mem_filter.1 hi).1) ih.1
    rw [hfil, execute_snoc]
    have hlast : completedAt cfg (ops ++ [o]) ops.length =
        (match o with | .tell a => !a.warm && (applyOp cfg (execute cfg ops) (.tell a)).2 | _ => false) := by
      unfold completedAt
      rw [List.getElem?_append_right (le_refl _)]
      simp only [Nat.sub_self, List.getElem?_cons_zero, List.take_left']
      cases o <;> rfl
    rw [hlast]
    cases o with
    | checkStop =>
      rw [applyOp_checkStop]
      obtain ⟨_, _, h3, h4, _⟩ := checkStop_frame cfg (execute cfg ops)
      simp only [Bool.false_eq_true, if_false, List.append_nil]
      rw [h3, h4]
      exact ⟨hold, ih.2⟩
    | tell a =>
      simp only [applyOp_tell]
      obtain ⟨h1, _, _, _, h5, h6, _, _⟩ := tell_spec cfg (execute cfg ops) a
      by_cases hc : isOk (tell cfg (execute cfg ops) a).2 = true ∧ a.warm = false
      · obtain ⟨hi, b, hb, hh⟩ := h5 hc
        have hcond : (!a.warm && isOk (tell cfg (execute cfg ops) a).2) = true := by simp [hc]
        rw [hcond, hh, hi]
        simp only [if_true]
        refine ⟨?_, by simp [ih.2]⟩
        apply List.rel_append hold
        refine .cons ?_ .nil
        have htake : (ops ++ [Op.tell a]).take (ops.length + 1) = ops ++ [Op.tell a] := by
          apply List.take_of_length_le; simp
        rw [htake, ← pairs_execute cfg, execute_snoc, applyOp_tell]
        exact hb
      · have hcond : (!a.warm && isOk (tell cfg (execute cfg ops) a).2) = false := by
          cases hw : a.warm <;> cases hk : isOk (tell cfg (execute cfg ops) a).2 <;> simp_all
        obtain ⟨hi, hh⟩ := h6 hc
        rw [hcond, hh, hi]
        simp only [Bool.false_eq_true, if_false, List.append_nil]
        exact ⟨hold, ih.2⟩

/-- C12: the history never gets worse: no entry is better than a later one. -/
theorem c12_monotone (cfg : Cfg K) (ops : List (Op P K)) :
    (execute cfg ops).histF.Pairwise (fun a b => ¬ Better cfg.minimize a b) := by
  have hp : ∀ (l : List ℕ) (h : List K), l.Pairwise (· < ·) →
      List.Forall₂ (fun i b => IsBestOf cfg.minimize b ((toldAll (ops.take (i + 1))).map Prod.snd)) l h →
      h.Pairwise (fun a b => ¬ Better cfg.minimize a b) := by
    intro l h hl hf
    induction hf with
    | nil => exact .nil
    | @cons i b l h hib hf ih =>
      rw [List.pairwise_cons] at hl ⊢
      refine ⟨fun b' hb' => ?_, ih hl.2⟩
      obtain ⟨k, hk, rfl⟩ := List.getElem_of_mem hb'
      have hlen := hf.length_eq
      have hk' := (List.forall₂_iff_get.1 hf).2 k (by omega) hk
      have hlt := hl.1 (l.get ⟨k, by omega⟩) (List.get_mem _ _)
      -- b is one of the values available to the later best
      have hmem : b ∈ (toldAll (ops.take (l.get ⟨k, by omega⟩ + 1))).map Prod.snd := by
        have hsub : toldAll (ops.take (i + 1)) <+: toldAll (ops.take (l.get ⟨k, by omega⟩ + 1)) := by
          obtain ⟨t, ht⟩ : ops.take (i + 1) <+: ops.take (l.get ⟨k, by omega⟩ + 1) :=
            List.take_prefix_take_left (by omega)
          rw [← ht]
          unfold toldAll
          rw [List.flatMap_append]
          exact List.prefix_append _ _
        obtain ⟨t, ht⟩ := hsub
        rw [← ht, List.map_append]
        exact List.mem_append_left _ hib.1
      have := hk'.2 b hmem
      unfold Better
      cases hmin : cfg.minimize <;> simp only [hmin] at this <;> simpa using this
  exact hp _ _ ((List.pairwise_lt_range).filter _) (c12_history cfg ops).1

/-- Non-vacuity: the sample history (minimising) has the two completed calls 0 and 4. -/
example : (List.range sampleOps.length).filter
      (completedAt { minimize := true, maxFEs := none, ftarget := none } sampleOps) = [0, 4] ∧
    (execute { minimize := true, maxFEs := none, ftarget := none } sampleOps).histF = [2, 2] := by
  decide +kernel

/-! ## C10: evaluation counter and budget -/

/-- Number of points an operation evaluates. -/
def evaluatedBy : Op P K → ℕ
  | .tell a => if a.warm then 0 else a.X.length
  | .checkStop => 0

/-- C10: `eval_count` is the number of points told in non-warm calls (every call well-formed). -/
theorem c10_eval_count (cfg : Cfg K) (ops : List (Op P K))
    (hwf : ∀ a, Op.tell a ∈ ops → WellFormed a) :
    (execute cfg ops).evalCount = (ops.map evaluatedBy).sum := by
  induction ops using List.reverseRecOn with
  | nil => simp [execute]
  | append_singleton ops o ih =>
    have ih := ih fun a ha => hwf a (List.mem_append_left _ ha)
    rw [execute_snoc, List.map_append, List.sum_append, ← ih]
    cases o with
    | checkStop => rw [applyOp_checkStop]; simp [(checkStop_frame cfg _).2.1, evaluatedBy]
    | tell a =>
      rw [applyOp_tell]
      have := (tell_spec cfg (execute cfg ops) a).2.2.2.2.2.2.1 (hwf a (by simp))
      simp [this, evaluatedBy]

/-- A malformed call still increases the counter: two points with one value count as one evaluation. -/
theorem c10_malformed_call_counts :
    let s := execute (K := ℚ) { minimize := true, maxFEs := none, ftarget := none }
      [.tell { X := [(5 : ℕ), 6], vals := [.fin 2] }]
    s.evalCount = 1 ∧ s.data = none := by
  simp only []
  refine ⟨by decide +kernel, by rfl⟩

/-- Points evaluated in the first `k` iterations of `run`. -/
def evaluated (inp : ℕ → StepIn P K) (k : ℕ) : ℕ := ((List.range k).map (fun i => (inp i).batch.length)).sum

private theorem evaluated_succ (inp : ℕ → StepIn P K) (k : ℕ) :
    evaluated inp (k + 1) = evaluated inp k + (inp k).batch.length := by
  simp [evaluated, List.range_succ]

private theorem checkStop_ok {cfg : Cfg K} {s s' : OptState P K} {b : Bool}
    (h : checkStop cfg s = (s', .ok b)) : b = stopFlag s' := by
  unfold checkStop at h
  simp only [] at h
  generalize checkBudget cfg s = s1 at h
  split at h
  · cases h; rfl
  · split at h
    · cases h
    · cases h; rfl
    · cases h; rfl

private theorem checkStop_budget (cfg : Cfg K) (s : OptState P K) :
    (checkStop cfg s).1.stopMaxFEs = (checkBudget cfg s).stopMaxFEs := by
  unfold checkStop
  simp only []
  generalize checkBudget cfg s = s1
  split
  · rfl
  · split
    · rfl
    · rfl
    · simp only []; split <;> rfl

private theorem run_aux (cfg : Cfg K) (inp : ℕ → StepIn P K) (c0 : ℕ) : ∀ (fuel i : ℕ) (s : OptState P K),
    s.evalCount = c0 + evaluated inp i → s.stopMaxFEs = none →
    ∀ k s' r, run cfg inp fuel i s = .returned k s' r →
      i ≤ k ∧ s'.evalCount = c0 + evaluated inp k ∧
      (∀ m, cfg.maxFEs = some m → ∀ j, i ≤ j → j < k → ((c0 + evaluated inp j : ℕ) : ℤ) < m) ∧
      (s'.stopMaxFEs.isSome = true ↔ ∃ m, cfg.maxFEs = some m ∧ m ≤ ((c0 + evaluated inp k : ℕ) : ℤ)) ∧
      (s'.stopMaxFEs.isSome = true ∨ s'.stopFtarget.isSome = true) := by
  intro fuel
  induction fuel with
  | zero => intro i s _ _ k s' r h; simp [run] at h
  | succ fuel ih =>
    intro i s hs hstop k s' r h
    unfold run at h
    have hframe := checkStop_frame cfg s
    have hbud := checkStop_budget cfg s
    split at h
    · cases h
    · rename_i s1 hcs
      have hflag := checkStop_ok hcs
      rw [hcs] at hframe hbud
      split at h
      · rename_i r' hx
        cases h
        refine ⟨le_rfl, by rw [hframe.2.1, hs], fun m _ j h1 h2 => by omega, ?_, ?_⟩
        · simp only [] at hbud
          rw [hbud]
          unfold checkBudget
          rw [hs]
          cases hm : cfg.maxFEs with
          | none => simp [hstop]
          | some m =>
            simp only []
            split
            · rename_i hge
              simpa using hge
            · rename_i hge
              simp only [hstop, Option.isSome_none, Bool.false_eq_true, false_iff, not_exists, not_and,
                Option.some.injEq]
              rintro m' rfl hle
              exact hge hle
        · have := hflag.symm
          simpa [stopFlag] using this
      · cases h
    · rename_i s1 hcs
      have hflag := checkStop_ok hcs
      rw [hcs] at hframe hbud
      split at h
      · cases h
      · split at h
        · cases h
        · rename_i s2 u htell
          set a : TellArgs P K := { X := (inp i).batch, vals := (inp i).vals, oracle := (inp i).oracle } with ha
          obtain ⟨_, t2, _, t4, _, _, t7, _⟩ := tell_spec cfg s1 a
          rw [htell] at t2 t4 t7
          have hwf := (t4 rfl).1
          have hcount : s2.evalCount = c0 + evaluated inp (i + 1) := by
            have := t7 hwf
            simp only [ha] at this
            rw [this, hframe.2.1, hs, evaluated_succ]
            simp
            omega
          have hnone : s1.stopMaxFEs = none := by
            have : stopFlag s1 = false := hflag.symm
            simp only [stopFlag, Bool.or_eq_false_iff] at this
            simpa using this.1
          obtain ⟨q1, q2, q3, q4, q5⟩ := ih (i + 1) s2 hcount (by rw [t2, hnone]) k s' r h
          refine ⟨by omega, q2, ?_, q4, q5⟩
          intro m hm j h1 h2
          rcases Nat.lt_or_ge i j with h3 | h3
          · exact q3 m hm j h3 h2
          · have hij : j = i := by omega
            subst hij
            simp only [] at hbud
            rw [hnone] at hbud
            unfold checkBudget at hbud
            rw [hm] at hbud
            simp only [] at hbud
            split at hbud
            · simp at hbud
            · rename_i hge
              rw [hs] at hge
              exact not_le.1 hge

/-- C10: when `run` returns after `k` iterations, every evaluated point was counted, the budget had not been
reached before any of the `k` iterations, and if the reported reason is the budget then it is reached. -/
theorem c10_run (cfg : Cfg K) (inp : ℕ → StepIn P K) (fuel k : ℕ) (s : OptState P K) (r : Rec P K)
    (h : run cfg inp fuel 0 {} = .returned k s r) :
    s.evalCount = evaluated inp k ∧
    (∀ m, cfg.maxFEs = some m → ∀ j < k, (evaluated inp j : ℤ) < m) ∧
    (s.stopMaxFEs.isSome = true ↔ ∃ m, cfg.maxFEs = some m ∧ m ≤ (evaluated inp k : ℤ)) ∧
    (s.stopMaxFEs.isSome = true ∨ s.stopFtarget.isSome = true) := by
  obtain ⟨_, h2, h3, h4, h5⟩ := run_aux cfg inp 0 fuel 0 {} (by simp [evaluated]) rfl k s r h
  simp only [Nat.zero_add] at h2 h3 h4
  exact ⟨h2, fun m hm j hj => h3 m hm j (Nat.zero_le _) hj, h4, h5⟩

/-- C10: the overshoot is less than the last batch: `max_FEs ≤ eval_count ≤ max_FEs + b - 1`. -/
theorem c10_overshoot (cfg : Cfg K) (inp : ℕ → StepIn P K) (fuel k : ℕ) (s : OptState P K) (r : Rec P K)
    (m : ℤ) (hm : cfg.maxFEs = some m) (hpos : 0 < m)
    (h : run cfg inp fuel 0 {} = .returned k s r) (hb : s.stopMaxFEs.isSome = true) :
    ∃ b, 1 ≤ k ∧ b = (inp (k - 1)).batch.length ∧ m ≤ s.evalCount ∧ (s.evalCount : ℤ) ≤ m + b - 1 := by
  obtain ⟨h1, h2, h3, _⟩ := c10_run cfg inp fuel k s r h
  obtain ⟨m', hm', hle⟩ := h3.1 hb
  rw [hm] at hm'
  cases hm'
  have hk : 1 ≤ k := by
    by_contra hk
    have : k = 0 := by omega
    subst this
    simp [evaluated] at hle
    omega
  refine ⟨_, hk, rfl, by rw [h1]; exact hle, ?_⟩
  have h4 := h2 m hm (k - 1) (by omega)
  have h5 := evaluated_succ inp (k - 1)
  rw [show k - 1 + 1 = k by omega] at h5
  rw [h1, h5]
  push_cast
  omega

/-- C10: with an initial design no larger than the budget and one point per later iteration, a run stopped by
the budget made exactly `max_FEs` evaluations. -/
theorem c10_exact (cfg : Cfg K) (inp : ℕ → StepIn P K) (fuel k : ℕ) (s : OptState P K) (r : Rec P K)
    (m : ℤ) (hm : cfg.maxFEs = some m) (hpos : 0 < m)
    (hdoe : ((inp 0).batch.length : ℤ) ≤ m) (hone : ∀ i, 0 < i → (inp i).batch.length = 1)
    (h : run cfg inp fuel 0 {} = .returned k s r) (hb : s.stopMaxFEs.isSome = true) :
    (s.evalCount : ℤ) = m := by
  obtain ⟨b, hk, hbe, hle, hub⟩ := c10_overshoot cfg inp fuel k s r m hm hpos h hb
  rcases Nat.lt_or_ge 1 k with hk1 | hk1
  · rw [hone (k - 1) (by omega)] at hbe
    subst hbe
    push_cast at hub
    omega
  · have : k = 1 := by omega
    subst this
    have h1 := (c10_run cfg inp fuel 1 s r h).1
    have h2 := evaluated_succ inp 0
    simp only [evaluated, List.range_zero, List.map_nil, List.sum_nil, Nat.zero_add] at h1 h2
    rw [h1, h2] at hle ⊢
    omega

private theorem run_terminates_aux (cfg : Cfg K) (inp : ℕ → StepIn P K) (m : ℤ) (hm : cfg.maxFEs = some m) :
    ∀ (fuel i : ℕ) (s : OptState P K), m.toNat - s.evalCount < fuel →
      ∀ s', run cfg inp fuel i s ≠ .running s' := by
  intro fuel
  induction fuel with
  | zero => intro i s hlt; omega
  | succ fuel ih =>
    intro i s hlt s' h
    unfold run at h
    have hframe := checkStop_frame cfg s
    have hbud := checkStop_budget cfg s
    split at h
    · cases h
    · split at h <;> cases h
    · rename_i s1 hcs
      have hflag := checkStop_ok hcs
      rw [hcs] at hframe hbud
      split at h
      · cases h
      · split at h
        · cases h
        · rename_i s2 u htell
          set a : TellArgs P K := { X := (inp i).batch, vals := (inp i).vals, oracle := (inp i).oracle } with ha
          obtain ⟨_, t2, _, t4, _, _, t7, _⟩ := tell_spec cfg s1 a
          rw [htell] at t2 t4 t7
          have hwf := (t4 rfl).1
          have hpos : 0 < (inp i).batch.length := List.length_pos_iff.2 hwf.1
          have hcount := t7 hwf
          simp only [ha, Bool.false_eq_true, if_false] at hcount
          have hnone : s1.stopMaxFEs = none := by
            have : stopFlag s1 = false := hflag.symm
            simp only [stopFlag, Bool.or_eq_false_iff] at this
            simpa using this.1
          simp only [] at hbud
          rw [hnone] at hbud
          unfold checkBudget at hbud
          rw [hm] at hbud
          simp only [] at hbud
          have hlt' : (s.evalCount : ℤ) < m := by
            split at hbud
            · simp at hbud
            · rename_i hge
              exact not_le.1 hge
          refine ih (i + 1) s2 ?_ s' h
          have := hframe.2.1
          simp only [] at this
          omega

/-- C10: with a budget `m`, `run` never loops for more than `m + 1` iterations: it returns or raises. -/
theorem c10_run_terminates (cfg : Cfg K) (inp : ℕ → StepIn P K) (m : ℤ) (hm : cfg.maxFEs = some m)
    (fuel : ℕ) (hf : m.toNat < fuel) (s' : OptState P K) : run cfg inp fuel 0 {} ≠ .running s' :=
  run_terminates_aux cfg inp m hm fuel 0 {} (by simpa using hf) s'

/-- The budget `0` is read as "no budget" (_base.py:45). -/
theorem c10_zero_means_unlimited : initMaxFEs (some 0) = none ∧ ∀ n, n ≠ 0 → initMaxFEs (some n) = some n := by
  refine ⟨rfl, fun n hn => ?_⟩
  simp [initMaxFEs, hn]

/-- A concrete run: budget 4, design of 3 points, then single points; it returns with exactly 4
evaluations.  Used for non-vacuity. -/
def sampleRun : RunResult ℕ ℚ :=
  run { minimize := true, maxFEs := some 4, ftarget := none }
    (fun i => if i = 0 then { batch := [1, 2, 3], vals := [.fin 5, .fin 7, .nan] }
              else { batch := [10 + i], vals := [.fin 6] }) 6 0 {}

example : (match sampleRun with
    | .returned k s r => (k == 2) && s.evalCount == 4 && s.stopMaxFEs == some 4 && r.x == 1
    | _ => false) = true := by
  decide +kernel

/-! ## C16: target value -/

/-- The full property: after any history, a `check_stop` call has reported the target iff some recorded value
is better than it. -/
def C16Property (cfg : Cfg K) (t : K) : Prop :=
  ∀ ops : List (Op ℕ K),
    (execute cfg (ops ++ [.checkStop])).stopFtarget.isSome = true ↔
      ∃ v ∈ (toldAll ops).map Prod.snd, Better cfg.minimize v t

private theorem target_inv (cfg : Cfg K) (t : K) (ht : cfg.ftarget = some t) (hmin : cfg.minimize = true)
    (ops : List (Op P K)) : (execute cfg ops).stopFtarget.isSome = true →
      ∃ v ∈ (toldAll ops).map Prod.snd, v < t := by
  induction ops using List.reverseRecOn with
  | nil => simp [execute]
  | append_singleton ops o ih =>
    intro h
    have hsub : ∀ v ∈ (toldAll ops).map Prod.snd, v ∈ (toldAll (ops ++ [o])).map Prod.snd := by
      intro v hv
      unfold toldAll
      rw [List.flatMap_append, List.map_append]
      exact List.mem_append_left _ hv
    by_cases hold : (execute cfg ops).stopFtarget.isSome = true
    · obtain ⟨v, hv, hlt⟩ := ih hold
      exact ⟨v, hsub v hv, hlt⟩
    · rw [execute_snoc] at h
      cases o with
      | tell a =>
        rw [applyOp_tell] at h
        simp only [(tell_spec cfg (execute cfg ops) a).2.2.1] at h
        exact absurd h hold
      | checkStop =>
        rw [applyOp_checkStop] at h
        have hb : (checkBudget cfg (execute cfg ops)).stopFtarget = (execute cfg ops).stopFtarget ∧
            (checkBudget cfg (execute cfg ops)).data = (execute cfg ops).data := by
          unfold checkBudget
          split
          · split <;> simp
          · simp
        unfold checkStop at h
        rw [ht] at h
        simp only [] at h
        generalize checkBudget cfg (execute cfg ops) = s1 at h hb
        split at h
        · rw [hb.1] at h; exact absurd h hold
        · rw [hb.1] at h; exact absurd h hold
        · rename_i r hx
          simp only [] at h
          split at h
          · rename_i hc
            have hlt : r.f < t := by
              rw [hmin] at hc
              simpa [Model.compare] using hc
            refine ⟨r.f, hsub _ ?_, hlt⟩
            unfold xopt at hx
            cases hd : s1.data with
            | none => rw [hd] at hx; simp at hx
            | some d =>
              rw [hd] at hx
              simp only [] at hx
              split at hx
              · cases hx
              · rename_i r' hr'
                cases hx
                have := (incumbent_spec hr').1.1
                have hp := pairs_execute cfg ops
                rw [← hp]
                unfold pairs
                rw [← hb.2, hd]
                simpa [Function.comp_def] using this
          · rw [hb.1] at h; exact absurd h hold

/-- C16, partial: the property holds when minimising.  Missing: maximisation, where it is false
(`c16_false_when_maximising`). -/
theorem c16_target_min_partial (cfg : Cfg K) (t : K) (ht : cfg.ftarget = some t)
    (hmin : cfg.minimize = true) : C16Property cfg t := by
  intro ops
  constructor
  · intro h
    obtain ⟨v, hv, hlt⟩ := target_inv cfg t ht hmin _ h
    refine ⟨v, ?_, by simpa [Better, hmin] using hlt⟩
    simpa [toldAll, told] using hv
  · rintro ⟨v, hv, hlt⟩
    have hlt : v < t := by simpa [Better, hmin] using hlt
    have hne : toldAll ops ≠ [] := by
      intro h; rw [h] at hv; simp at hv
    obtain ⟨r, i, hx, _, hbest, _⟩ := c11_incumbent cfg ops hne
    have hrt : r.f < t := by
      have := hbest.2 v hv
      rw [hmin] at this
      exact lt_of_le_of_lt (by simpa using this) hlt
    rw [execute_snoc, applyOp_checkStop]
    have hb : (checkBudget cfg (execute cfg ops)).data = (execute cfg ops).data := by
      unfold checkBudget
      split
      · split <;> simp
      · simp
    have hx' : xopt cfg (checkBudget cfg (execute cfg ops)) = .ok (some r) := by
      rw [← hx]
      unfold xopt
      rw [hb]
    unfold checkStop
    simp [ht, hx', Model.compare, hmin, hrt]

/-- C16 is false when maximising: with target 10, a recorded 20 does not stop the run (and a recorded 5
does). -/
theorem c16_false_when_maximising :
    ¬ C16Property (K := ℚ) { minimize := false, maxFEs := none, ftarget := some 10 } 10 := by
  intro h
  have h1 := (h [.tell { X := [1], vals := [.fin 20] }]).2
    ⟨20, by
      have : toldAll [Op.tell (P := ℕ) (K := ℚ) { X := [1], vals := [.fin 20] }] = [(1, 20)] := by
        have hw : WellFormed (P := ℕ) (K := ℚ) { X := [1], vals := [.fin 20] } := by
          simp [WellFormed]
        simp [toldAll, told, hw, finitePart]
      rw [this]; simp, by simp [Better]; norm_num⟩
  exact absurd h1 (by decide +kernel)

/-- Non-vacuity of the minimisation case: the target 3 is reported after the value 2 was told. -/
example : (execute (P := ℕ) (K := ℚ) { minimize := true, maxFEs := none, ftarget := some 3 }
    [.tell { X := [1], vals := [.fin 2] }, .checkStop]).stopFtarget = some 2 := by decide +kernel

/-! ## C48: warm start -/

/-- C48: a warm start that succeeds records exactly the finite pairs and touches no counter and no history;
the subsequent run has the whole budget: its own evaluations are counted from 0 and the loop stops at the
first iteration where they reach `max_FEs`. -/
theorem c48_warm_start (cfg : Cfg K) (kinds : List CoordKind) (kind : WarmInput)
    (X : List (List (PyVal K))) (y : List (Obs K)) (o : TellOracle) (s : OptState (List (PyVal K)) K)
    (h : setWarmData cfg kinds {} kind X y o = (s, true)) :
    (s.data.getD []).map (fun r => (r.x, r.f)) = finitePart (X.zip y) ∧
    s.evalCount = 0 ∧ s.iterCount = 0 ∧ s.histF = [] ∧
    ∀ inp fuel k s' r, run cfg inp fuel 0 s = .returned k s' r →
      s'.evalCount = evaluated inp k ∧
      (∀ m, cfg.maxFEs = some m → ∀ j < k, (evaluated inp j : ℤ) < m) ∧
      (s'.stopMaxFEs.isSome = true ↔ ∃ m, cfg.maxFEs = some m ∧ m ≤ (evaluated inp k : ℤ)) := by
  unfold setWarmData at h
  split at h
  · cases h
  split at h
  · cases h
  split at h
  · cases h
  split at h
  · cases h
  split at h
  · cases h
  split at h
  · cases h
  rename_i hlen _ hX _ _
  split at h
  · rename_i s1 u ht
    cases h
    obtain ⟨t1, t2, _, t4, _, t6, t7, _⟩ := tell_spec cfg ({} : OptState (List (PyVal K)) K)
      { X := X, vals := y, warm := true, oracle := o }
    rw [ht] at t1 t2 t4 t6 t7
    have hwf := (t4 rfl).1
    have hcount := t7 hwf
    simp only [if_true, Nat.add_zero] at hcount
    obtain ⟨hi, hh⟩ := t6 (by simp)
    rw [told_tell, if_pos hwf] at t1
    refine ⟨by simpa [pairs] using t1, hcount, hi, hh, ?_⟩
    intro inp fuel k s' r hr
    obtain ⟨_, h2, h3, h4, _⟩ := run_aux cfg inp 0 fuel 0 s (by simp [evaluated, hcount]) t2 k s' r hr
    simp only [Nat.zero_add] at h2 h3 h4
    exact ⟨h2, fun m hm j hj => h3 m hm j (Nat.zero_le _) hj, h4⟩
  · cases h

/-- C48: in list mode, correctly typed warm data with at least one finite value, not flat, are accepted
(when the surrogate can be fitted). -/
theorem c48_accepts_partial (cfg : Cfg K) (kinds : List CoordKind) (X : List (List (PyVal K)))
    (y : List (Obs K)) (hlist : cfg.evalDict = false) (hX : X ≠ []) (hlen : X.length = y.length)
    (htypes : ∀ row ∈ X, ∀ p ∈ kinds.zip row, warmTypeOk p.1 p.2 = true)
    (hfin : finitePart (X.zip y) ≠ [])
    (hflat : isFlat ((finitePart (X.zip y)).map Prod.snd) = false) :
    ∃ s, setWarmData cfg kinds {} .list X y = (s, true) := by
  unfold setWarmData
  have hall : X.all (fun row => (kinds.zip row).all (fun p => warmTypeOk p.1 p.2)) = true := by
    rw [List.all_eq_true]
    intro row hrow
    rw [List.all_eq_true]
    exact htypes row hrow
  have hdec : (WarmInput.list = WarmInput.solution) = False := by simp
  simp only [ne_eq, not_true_eq_false, if_false, hlen, hall, hlist, Bool.not_true, Bool.false_eq_true]
  have hXe : X.isEmpty = false := by
    cases X with
    | nil => exact absurd rfl hX
    | cons x xs => rfl
  simp only [hXe, Bool.false_eq_true, if_false, hdec, decide_false, Bool.false_and]
  -- the tell call returns normally
  have hok : ∃ s', tell cfg ({} : OptState (List (PyVal K)) K) { X := X, vals := y, warm := true } =
      (s', .ok ()) := by
    unfold tell
    simp only [hXe, Bool.false_eq_true, if_false, Option.map_none, Option.any_none, observe_eq, hlen,
      le_refl, if_true]
    generalize hk : postEvalCheck _ _ = kept
    have hkp : kept.map (fun r => (r.x, r.f)) = finitePart (X.zip y) := by
      rw [← hk]
      apply postEvalCheck_pairs
      simp [labels, defaultIndex, hlen]
    have hkne : kept ≠ [] := by
      rintro rfl
      exact hfin (by simpa using hkp.symm)
    have hkf : kept.map Rec.f = (finitePart (X.zip y)).map Prod.snd := by
      rw [← hkp]; simp [Function.comp_def]
    obtain ⟨r, hr⟩ := incumbent_isSome cfg.minimize hkne
    have hke : kept.isEmpty = false := by
      cases kept with
      | nil => exact absurd rfl hkne
      | cons x xs => rfl
    unfold tellRest
    simp [hke, hkf, hflat, hr]
  obtain ⟨s', hs'⟩ := hok
  rw [hs']
  exact ⟨s', rfl⟩

/-- C48 fails outside that case: with `eval_type="dict"` every warm start raises … -/
theorem c48_dict_mode_rejected (cfg : Cfg K) (hd : cfg.evalDict = true) (kinds : List CoordKind)
    (kind : WarmInput) (X : List (List (PyVal K))) (y : List (Obs K)) :
    (setWarmData cfg kinds {} kind X y).2 = false := by
  unfold setWarmData
  simp only [hd, if_true]
  split_ifs <;> rfl

/-- … so does a `Solution` argument over more than one variable … -/
theorem c48_solution_argument_rejected (cfg : Cfg K) (kinds : List CoordKind) (hk : kinds.length ≠ 1)
    (X : List (List (PyVal K))) (y : List (Obs K)) :
    (setWarmData cfg kinds {} .solution X y).2 = false := by
  unfold setWarmData
  split_ifs <;> first | rfl | simp_all

/-- … and any data set with a Boolean value in a Boolean (categorical) coordinate. -/
theorem c48_bool_value_rejected (cfg : Cfg K) (kinds : List CoordKind) (kind : WarmInput)
    (X : List (List (PyVal K))) (y : List (Obs K)) (row : List (PyVal K)) (hrow : row ∈ X) (b : Bool)
    (hb : (CoordKind.categorical, PyVal.bool b) ∈ kinds.zip row) :
    (setWarmData cfg kinds {} kind X y).2 = false := by
  have hall : X.all (fun row => (kinds.zip row).all (fun p => warmTypeOk p.1 p.2)) = false := by
    rw [← Bool.not_eq_true, List.all_eq_true]
    intro h
    have := List.all_eq_true.1 (h row hrow) _ hb
    simp [warmTypeOk] at this
  unfold setWarmData
  simp only [hall, Bool.not_false, if_true]
  split_ifs <;> rfl

/-- Non-vacuity of `c48_warm_start`. -/
example : (setWarmData (K := ℚ) { minimize := true, maxFEs := some 5, ftarget := none }
    [.real, .integer, .categorical] {} .list
    [[.float (1 / 2), .int 3, .str "a"], [.float 2, .int 0, .str "b"]] [.fin 1, .fin 4]).2 = true := by
  decide +kernel

/-! ## C51: evaluation counters of recorded points -/

/-- C51, partial: with `eval_type="dict"` every recorded point carries `n_eval = 1`.  Missing: `"list"`. -/
theorem c51_n_eval_dict_partial (cfg : Cfg K) (hd : cfg.evalDict = true) (ops : List (Op P K)) :
    ∀ r ∈ (execute cfg ops).data.getD [], r.nEval = 1 := by
  induction ops using List.reverseRecOn with
  | nil => simp [execute]
  | append_singleton ops o ih =>
    rw [execute_snoc]
    cases o with
    | checkStop =>
      rw [applyOp_checkStop]
      simp only [(checkStop_frame cfg _).1]
      exact ih
    | tell a =>
      rw [applyOp_tell]
      obtain ⟨kept, h1, h2, _⟩ := tell_rows cfg (execute cfg ops) a
      simp only [h1, List.mem_append]
      rintro r (h | h)
      · exact ih r h
      · simpa [hd] using h2 r h

/-- C51 is false with `eval_type="list"` (the default): every recorded point carries `n_eval = 2` although it
was evaluated once. -/
theorem c51_n_eval_list_is_two (cfg : Cfg K) (hd : cfg.evalDict = false) (ops : List (Op P K)) :
    ∀ r ∈ (execute cfg ops).data.getD [], r.nEval = 2 := by
  induction ops using List.reverseRecOn with
  | nil => simp [execute]
  | append_singleton ops o ih =>
    rw [execute_snoc]
    cases o with
    | checkStop =>
      rw [applyOp_checkStop]
      simp only [(checkStop_frame cfg _).1]
      exact ih
    | tell a =>
      rw [applyOp_tell]
      obtain ⟨kept, h1, h2, _⟩ := tell_rows cfg (execute cfg ops) a
      simp only [h1, List.mem_append]
      rintro r (h | h)
      · exact ih r h
      · simpa [hd] using h2 r h

example : ((execute { minimize := true, maxFEs := none, ftarget := none } sampleOps).data.getD []).map
    Rec.nEval = [2, 2, 2, 2] := by decide +kernel

/-! ## C52: labels -/

private theorem labels_stored (cfg : Cfg K) (s : OptState P K) (a : TellArgs P K) (l : List String)
    (hl : a.index = some l) (hok : ∃ s', tell cfg s a = (s', .ok ())) :
    (tell cfg s a).1.data.getD [] = s.data.getD [] ++
      postEvalCheck (if cfg.evalDict then 0 else 1) ((a.X.zip a.vals).zip l) := by
  obtain ⟨kept, h1, h2, h3, _⟩ := tell_rows cfg s a
  have hlab : labels a = l := by simp [labels, hl]
  rw [hlab] at h3
  rcases h3 with h3 | h3
  · -- nothing kept: then nothing finite was told either
    obtain ⟨s', hs'⟩ := hok
    obtain ⟨t1, _, _, t4, _⟩ := tell_spec cfg s a
    have hwf := (t4 (by rw [hs']; rfl)).1
    rw [told_tell, if_pos hwf] at t1
    have hlen : l.length = (a.X.zip a.vals).length := by
      rw [List.length_zip, Nat.min_eq_left hwf.2.1]
      exact hwf.2.2 l hl
    have hp := postEvalCheck_pairs (if cfg.evalDict then 0 else 1) (a.X.zip a.vals) l hlen
    have : finitePart (a.X.zip a.vals) = [] := by
      unfold pairs at t1
      rw [h1, h3] at t1
      simpa using t1
    rw [this] at hp
    have hnil : postEvalCheck (if cfg.evalDict then 0 else 1) ((a.X.zip a.vals).zip l) = [] := by
      simpa using hp
    rw [h1, h3, hnil]
  · rw [h1, h3]

private theorem postEvalCheck_labels (n : ℕ) (l : List ((P × Obs K) × String)) :
    (postEvalCheck n l).map (fun r => (r.x, r.f, r.index)) = labelledPart l := by
  induction l with
  | nil => rfl
  | cons p l ih =>
    obtain ⟨⟨x, o⟩, i⟩ := p
    cases o <;> simp [postEvalCheck, labelledPart, ih]

/-- C52: labels given by the caller are stored with their points.  Each finite observation of a call keeps
the label at its own position. -/
theorem c52_labels_partial (cfg : Cfg K) (s : OptState P K) (a : TellArgs P K) (l : List String)
    (hl : a.index = some l) (hok : ∃ s', tell cfg s a = (s', .ok ())) :
    ((tell cfg s a).1.data.getD []).map (fun r => (r.x, r.f, r.index)) =
      (s.data.getD []).map (fun r => (r.x, r.f, r.index)) ++ labelledPart ((a.X.zip a.vals).zip l) := by
  rw [labels_stored cfg s a l hl hok, List.map_append, postEvalCheck_labels]

example : ((tell (K := ℚ) (P := ℕ) { minimize := true, maxFEs := none, ftarget := none } {}
    { X := [1, 2, 3], vals := [.fin 4, .nan, .fin 1], index := some ["a", "b", "c"] }).1.data.getD []).map
    (fun r => (r.x, r.index)) = [(1, "a"), (3, "c")] := by decide +kernel

/-- C52 is false without explicit labels: two one-point calls give two rows the label "0". -/
theorem c52_default_labels_repeat :
    ((execute (P := ℕ) (K := ℚ) { minimize := true, maxFEs := none, ftarget := none }
      [.tell { X := [1], vals := [.fin 2] }, .tell { X := [2], vals := [.fin 3] }]).data.getD []).map Rec.index
      = ["0", "0"] := by decide +kernel

/-! ## C53: data file -/

/-- C53, partial: if no call raised, the data file holds exactly the rows of `data`, in order.  Missing:
histories with a call that raised after recording (`c53_false_after_flat_fitness`). -/
theorem c53_data_file_partial (cfg : Cfg K) (hf : cfg.dataFile = true) (ops : List (Op P K))
    (hok : ∀ i o, ops[i]? = some o → (applyOp cfg (execute cfg (ops.take i)) o).2 = true) :
    (execute cfg ops).csv = (execute cfg ops).data.getD [] := by
  induction ops using List.reverseRecOn with
  | nil => simp [execute]
  | append_singleton ops o ih =>
    have ih := ih fun i o' h => by
      have hi := (List.getElem?_eq_some_iff.1 h).1
      have := hok i o' (by rw [List.getElem?_append_left hi]; exact h)
      rwa [List.take_append_of_le_length hi.le] at this
    have hlast := hok ops.length o (by simp)
    rw [List.take_left' rfl] at hlast
    rw [execute_snoc]
    cases o with
    | checkStop =>
      rw [applyOp_checkStop]
      obtain ⟨h1, _, _, _, h5⟩ := checkStop_frame cfg (execute cfg ops)
      simp only [h1, h5, ih]
    | tell a =>
      rw [applyOp_tell] at hlast ⊢
      obtain ⟨kept, h1, _, _, h4⟩ := tell_rows cfg (execute cfg ops) a
      simp only [h1, h4 hlast, hf, if_true, ih]

/-- Non-vacuity: three complete calls with a NaN; the file has the three finite rows. -/
example : (let cfg : Cfg ℚ := { minimize := true, maxFEs := none, ftarget := none, dataFile := true }
    let ops : List (Op ℕ ℚ) := [.tell { X := [1, 2], vals := [.fin 4, .nan] }, .checkStop,
      .tell { X := [3, 4], vals := [.fin 1, .fin 0] }]
    ((List.range 3).all fun i => (ops[i]?.any fun o => (applyOp cfg (execute cfg (ops.take i)) o).2)) &&
      (execute cfg ops).csv.map Rec.x == [1, 3, 4]) = true := by decide +kernel

/-- C53 is false in general: six equal values raise FlatFitnessError after the rows entered `data` but before
they are written to the file. -/
theorem c53_false_after_flat_fitness :
    let s := execute (P := ℕ) (K := ℚ) { minimize := true, maxFEs := none, ftarget := none, dataFile := true }
      [.tell { X := [1, 2, 3, 4, 5, 6], vals := List.replicate 6 (.fin 1) }]
    s.csv.length = 0 ∧ (s.data.getD []).length = 6 := by decide +kernel

/-! ## C54: flat fitness -/

/-- C54: `tell` raises FlatFitnessError exactly when the call is well-formed and the recorded values (old and
new) are more than five with standard deviation at most 1e-8; the points are recorded nevertheless. -/
theorem c54_flat_fitness (cfg : Cfg K) (s : OptState P K) (a : TellArgs P K) :
    (tell cfg s a).2 = .error .flatFitness ↔
      WellFormed a ∧
      (let fs := (pairs s ++ finitePart (a.X.zip a.vals)).map Prod.snd
       5 < fs.length ∧ NearlyConstant fs) := by
  have hflat : ∀ fs : List K, isFlat fs = true ↔
      5 < fs.length ∧ NearlyConstant fs := by
    intro fs
    have : ((1 / 10 ^ 8) ^ 2 : K) = 1 / 10 ^ 16 := by norm_num
    unfold NearlyConstant
    rw [this]
    simp [isFlat, variance, mean]
  have hrest : ∀ (s0 : OptState P K) (d kept : List (Rec P K)),
      (tellRest cfg s0 d kept a).2 = .error .flatFitness ↔ isFlat (d.map Rec.f) = true := by
    intro s0 d kept
    unfold tellRest
    simp only []
    by_cases h1 : d.isEmpty = true
    · have : d = [] := by simpa using h1
      subst this
      simp [isFlat]
    · rw [if_neg h1]
      by_cases h2 : isFlat (d.map Rec.f) = true
      · simp [h2]
      · rw [if_neg h2]
        simp only [h2, iff_false]
        split
        · simp
        · cases incumbent cfg.minimize d with
          | none => simp
          | some r =>
            simp only []
            split_ifs <;> simp
  have hwfk : ∀ n0, WellFormed a →
      (postEvalCheck n0 ((a.X.zip a.vals).zip (labels a))).map (fun r => (r.x, r.f)) =
        finitePart (a.X.zip a.vals) := by
    intro n0 hwf
    apply postEvalCheck_pairs
    rw [List.length_zip, Nat.min_eq_left hwf.2.1]
    unfold labels
    cases hi : a.index with
    | none => simp [defaultIndex]
    | some l => simpa using hwf.2.2 l hi
  by_cases hwf : WellFormed a
  swap
  · constructor
    · intro h
      exfalso
      unfold tell at h
      split at h
      · simp at h
      · split at h
        · simp at h
        · rename_i h1 h2
          rw [observe_eq] at h
          by_cases h3 : a.X.length ≤ a.vals.length
          · apply hwf
            refine ⟨by simpa using h1, h3, fun l hl => ?_⟩
            simpa [hl] using h2
          · simp [h3] at h
    · exact fun h => absurd h.1 hwf
  simp only [hwf, true_and]
  rw [← hflat]
  unfold tell
  have h1 : a.X.isEmpty = false := by
    have := hwf.1
    cases hx : a.X with
    | nil => exact absurd hx this
    | cons x xs => rfl
  have h2 : (a.index.map List.length).any (· != a.X.length) = false := by
    cases hi : a.index with
    | none => simp
    | some l => simp [hwf.2.2 l hi]
  simp only [h1, h2, Bool.false_eq_true, if_false, observe_eq, hwf.2.1, if_true]
  have hk := hwfk (if cfg.evalDict = true then 0 else 1) hwf
  generalize postEvalCheck (if cfg.evalDict = true then 0 else 1) ((a.X.zip a.vals).zip (labels a)) = kept at hk ⊢
  have hkf : kept.map Rec.f = (finitePart (a.X.zip a.vals)).map Prod.snd := by
    rw [← hk]; simp [Function.comp_def]
  cases hd : s.data with
  | none =>
    simp only []
    rw [hrest, hkf]
    simp [pairs, hd]
  | some d =>
    simp only []
    have hpd : (pairs s).map Prod.snd = d.map Rec.f := by simp [pairs, hd, Function.comp_def]
    by_cases h4 : (d ++ kept).isEmpty = true
    · rw [if_pos h4]
      have h4' : d = [] ∧ kept = [] := by simpa using h4
      rw [List.map_append, hpd, ← hkf, h4'.1, h4'.2]
      simp [isFlat]
    · rw [if_neg h4, hrest, List.map_append, List.map_append, hkf, hpd]

/-- C54, consequence: minimising or maximising a constant with an initial design of more than five points
makes `run` raise in the first iteration, after all points were evaluated, with no iteration counted. -/
theorem c54_constant_objective (cfg : Cfg K) (hm : cfg.maxFEs = none ∨ ∃ m, cfg.maxFEs = some m ∧ 0 < m)
    (inp : ℕ → StepIn P K) (c : K) (hlen : 5 < (inp 0).batch.length)
    (hc : (inp 0).vals = List.replicate (inp 0).batch.length (.fin c)) (fuel : ℕ) :
    ∃ s, run cfg inp (fuel + 1) 0 {} = .raised 0 s ∧ s.evalCount = (inp 0).batch.length ∧ s.iterCount = 0 ∧
      (s.data.getD []).length = (inp 0).batch.length := by
  set a : TellArgs P K := { X := (inp 0).batch, vals := (inp 0).vals, oracle := (inp 0).oracle } with ha
  have hne : (inp 0).batch ≠ [] := by
    intro h; rw [h] at hlen; simp at hlen
  have hwf : WellFormed a := ⟨hne, by simp [ha, hc], by simp [ha]⟩
  have hcb : checkBudget cfg ({} : OptState P K) = {} := by
    unfold checkBudget
    rcases hm with h | ⟨m, h, hpos⟩
    · rw [h]
    · rw [h]
      simp only []
      rw [if_neg]
      simpa using hpos
  have hcs : checkStop cfg ({} : OptState P K) = ({}, .ok false) := by
    unfold checkStop
    rw [hcb]
    cases cfg.ftarget with
    | none => simp [stopFlag]
    | some t => simp [xopt, stopFlag]
  have hfp : finitePart ((inp 0).batch.zip (inp 0).vals) = (inp 0).batch.map (fun x => (x, c)) := by
    rw [hc]
    generalize (inp 0).batch = X
    induction X with
    | nil => simp [finitePart]
    | cons x xs ih => simp [List.replicate_succ, finitePart, ih]
  have hflat : (tell cfg ({} : OptState P K) a).2 = .error .flatFitness := by
    rw [c54_flat_fitness]
    refine ⟨hwf, ?_⟩
    have hfs : (pairs ({} : OptState P K) ++ finitePart (a.X.zip a.vals)).map Prod.snd =
        List.replicate (inp 0).batch.length c := by
      simp only [ha, hfp, pairs, Option.getD_none, List.map_nil, List.nil_append, List.map_map]
      generalize (inp 0).batch = X
      induction X with
      | nil => simp
      | cons x xs ih => simpa [List.replicate_succ] using ih
    simp only [hfs, NearlyConstant, List.length_replicate, List.sum_replicate, List.map_replicate]
    refine ⟨hlen, ?_⟩
    have hn : (((inp 0).batch.length : ℕ) : K) ≠ 0 := by
      have : 0 < (inp 0).batch.length := by omega
      exact_mod_cast this.ne'
    have : c - (inp 0).batch.length • c / (((inp 0).batch.length : ℕ) : K) = 0 := by
      rw [nsmul_eq_mul, mul_div_assoc, mul_div_cancel₀ _ hn]
      ring
    rw [this]
    simp
  obtain ⟨t1, _, _, _, _, t6, t7, _⟩ := tell_spec cfg ({} : OptState P K) a
  have hcount := t7 hwf
  obtain ⟨hi, _⟩ := t6 (by rw [hflat]; simp [isOk])
  refine ⟨(tell cfg ({} : OptState P K) a).1, ?_, ?_, hi, ?_⟩
  · unfold run
    rw [hcs]
    simp only []
    have hb : (inp 0).batch.isEmpty = false := by
      cases hx : (inp 0).batch with
      | nil => exact absurd hx hne
      | cons x xs => rfl
    rw [hb]
    simp only [Bool.false_eq_true, if_false]
    rcases htell : tell cfg ({} : OptState P K) a with ⟨s', e⟩
    rw [htell] at hflat
    simp only [] at hflat
    subst hflat
    rfl
  · simpa [ha] using hcount
  · have := congrArg List.length t1
    rw [told_tell, if_pos hwf, hfp] at this
    simpa [pairs] using this

/-- Non-vacuity: seven evaluations of a constant, as in the default design of a one- or two-variable space. -/
example : (match run (P := ℕ) (K := ℚ) { minimize := true, maxFEs := some 20, ftarget := none }
      (fun _ => { batch := [1, 2, 3, 4, 5, 6, 7], vals := List.replicate 7 (.fin 3) }) 5 0 {} with
    | .raised 0 s => s.evalCount == 7
    | _ => false) = true := by decide +kernel

end Verif.Props
