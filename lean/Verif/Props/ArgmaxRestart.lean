import Verif.Spec.ArgmaxRestart
import Mathlib.Tactic.Ring
import Mathlib.Algebra.Order.Ring.Rat
import Mathlib.Algebra.Field.Rat

/-! # C30: restarted acquisition search -/
namespace Verif.Props
open Verif.Model Verif.Spec

variable {X K : Type*} [Field K] [LinearOrder K] [IsStrictOrderedRing K]

private theorem feasible_iff (h g : Option (X → List K)) (x : X) :
    restartFeasible h g x = true ↔ FeasibleUpTo h g x := by
  unfold restartFeasible FeasibleUpTo
  cases h <;> cases g <;> simp

/-- The state is determined by the recorded runs. -/
private structure Inv (h g : Option (X → List K)) (budget : ℤ) (s : RState X K) : Prop where
  found : s.found = (feasibleRuns h g s.runs).map (fun o => (o.x, o.f))
  budget : s.budget = budget - ((feasibleRuns h g s.runs).map (fun o => (o.funcalls : ℤ))).sum
  best_ge : ∀ o ∈ feasibleRuns h g s.runs, ∀ v, o.f = some v → (v : WithBot K) ≤ s.best
  best_mem : s.best ≠ ⊥ → ∃ o ∈ feasibleRuns h g s.runs, ∃ v, o.f = some v ∧ s.best = (v : WithBot K)
  wait : ∀ w, w ≤ s.wait ↔ Stale w (feasibleRuns h g s.runs)

private theorem inv_init (h g : Option (X → List K)) (budget : ℤ) :
    Inv h g budget (⟨[], ⊥, 0, budget, []⟩ : RState X K) := by
  constructor <;> simp [feasibleRuns]
  intro w
  constructor
  · rintro rfl; exact ⟨[], [], rfl, by simp, by simp⟩
  · rintro ⟨pre, post, h1, h2, -⟩
    simp at h1
    simp [h1.2] at h2
    exact h2

private theorem feasibleRuns_snoc (h g : Option (X → List K)) (l : List (Outcome X K)) (o : Outcome X K) :
    feasibleRuns h g (l ++ [o]) =
      if restartFeasible h g o.x then feasibleRuns h g l ++ [o] else feasibleRuns h g l := by
  unfold feasibleRuns
  rw [List.filter_append]
  by_cases hf : restartFeasible h g o.x = true
  · simp [hf, (feasible_iff h g o.x).mp hf]
  · have : ¬ FeasibleUpTo h g o.x := fun hc => hf ((feasible_iff h g o.x).mpr hc)
    simp [hf, this]

private theorem inv_step (h g : Option (X → List K)) (budget : ℤ) (s : RState X K) (o : Outcome X K)
    (hs : Inv h g budget s) : Inv h g budget (restartStep h g s o) ∧ (restartStep h g s o).runs = s.runs ++ [o] := by
  by_cases hf : restartFeasible h g o.x = true
  · have hr : feasibleRuns h g (s.runs ++ [o]) = feasibleRuns h g s.runs ++ [o] := by
      rw [feasibleRuns_snoc, if_pos hf]
    unfold restartStep
    rw [if_pos hf]
    refine ⟨?_, rfl⟩
    constructor
    · simp only [hr, List.map_append, hs.found, List.map_cons, List.map_nil]
    · simp only [hr, List.map_append, List.sum_append, hs.budget, List.map_cons, List.map_nil, List.sum_singleton]
      omega
    · intro o' ho' v hv
      simp only [hr, List.mem_append, List.mem_singleton] at ho'
      simp only
      rcases ho' with ho' | rfl
      · have h1 := hs.best_ge o' ho' v hv
        split
        · rename_i himp
          cases hof : o.f with
          | none => exact h1
          | some u =>
            simp only [improves, hof, decide_eq_true_eq] at himp
            exact h1.trans himp.le
        · exact h1
      · simp only [hv, improves]
        by_cases hlt : s.best < (v : WithBot K)
        · simp [hlt]
        · simp [hlt]
          exact not_lt.mp hlt
    · simp only [hr]
      intro hb
      by_cases himp : improves o.f s.best = true
      · cases hof : o.f with
        | none => simp [improves, hof] at himp
        | some u =>
          rw [hof] at himp
          refine ⟨o, by simp, u, hof, ?_⟩
          simp [himp]
      · simp only [himp, Bool.false_eq_true, if_false] at hb ⊢
        obtain ⟨o', h1, h2⟩ := hs.best_mem hb
        exact ⟨o', by simp [h1], h2⟩
    · intro w
      simp only [hr]
      by_cases himp : improves o.f s.best = true
      · simp only [himp, if_true, Nat.le_zero]
        constructor
        · rintro rfl
          exact ⟨_, [], (List.append_nil _).symm, by simp, by simp⟩
        · rintro ⟨pre, post, h1, h2, h3⟩
          rcases List.eq_nil_or_concat post with rfl | ⟨post', p, rfl⟩
          · simpa using h2
          · exfalso
            have h4 : feasibleRuns h g s.runs ++ [o] = (pre ++ post') ++ [p] := by rw [h1]; simp
            obtain ⟨h5, h6⟩ := List.append_inj' h4 rfl
            obtain rfl : o = p := by simpa using h6
            cases hof : o.f with
            | none => simp [improves, hof] at himp
            | some u =>
              obtain ⟨o', ho', v', hv', hle⟩ := h3 o (by simp) u hof
              have := hs.best_ge o' (by rw [h5]; simp [ho']) v' hv'
              simp only [improves, hof, decide_eq_true_eq] at himp
              have h7 := himp.trans_le (WithBot.coe_le_coe.mpr hle)
              exact absurd this (not_le.mpr h7)
      · simp only [himp, Bool.false_eq_true, if_false]
        cases w with
        | zero =>
          simp only [zero_le, true_iff]
          exact ⟨_, [], (List.append_nil _).symm, by simp, by simp⟩
        | succ w =>
          rw [Nat.add_le_add_iff_right, hs.wait w]
          constructor
          · rintro ⟨pre, post, h1, h2, h3⟩
            refine ⟨pre, post ++ [o], by rw [h1]; simp, by simp; omega, ?_⟩
            intro o' ho' v hv
            rw [List.mem_append, List.mem_singleton] at ho'
            rcases ho' with ho' | rfl
            · exact h3 o' ho' v hv
            · simp only [improves, hv, decide_eq_true_eq, not_lt] at himp
              have hb : s.best ≠ ⊥ := by
                intro hb
                rw [hb] at himp
                simp at himp
              obtain ⟨o₂, ho₂, v₂, hv₂, hbest⟩ := hs.best_mem hb
              rw [hbest, WithBot.coe_le_coe] at himp
              rw [h1, List.mem_append] at ho₂
              rcases ho₂ with ho₂ | ho₂
              · exact ⟨o₂, ho₂, v₂, hv₂, himp⟩
              · obtain ⟨o₃, ho₃, v₃, hv₃, hle⟩ := h3 o₂ ho₂ v₂ hv₂
                exact ⟨o₃, ho₃, v₃, hv₃, himp.trans hle⟩
          · rintro ⟨pre, post, h1, h2, h3⟩
            rcases List.eq_nil_or_concat post with rfl | ⟨post', p, rfl⟩
            · simp at h2
            · have h4 : feasibleRuns h g s.runs ++ [o] = (pre ++ post') ++ [p] := by rw [h1]; simp
              obtain ⟨h5, h6⟩ := List.append_inj' h4 rfl
              refine ⟨pre, post', h5, by simpa using h2, ?_⟩
              intro o' ho'
              exact h3 o' (by simp [ho'])
  · have hr : feasibleRuns h g (s.runs ++ [o]) = feasibleRuns h g s.runs := by
      rw [feasibleRuns_snoc, if_neg hf]
    unfold restartStep
    rw [if_neg hf]
    refine ⟨?_, rfl⟩
    constructor <;> simp only [hr]
    · exact hs.found
    · exact hs.budget
    · exact hs.best_ge
    · exact hs.best_mem
    · exact hs.wait

private theorem stop_iff (h g : Option (X → List K)) (budget : ℤ) (s : RState X K) (hs : Inv h g budget s) (w : ℕ) :
    (s.budget ≤ 0 ∨ w ≤ s.wait) ↔ Exhausted budget (feasibleRuns h g s.runs) ∨ Stale w (feasibleRuns h g s.runs) := by
  rw [hs.wait w, hs.budget]
  unfold Exhausted
  rw [sub_nonpos]

private theorem loop_spec (restart : ℕ → ℤ → Outcome X K) (h g : Option (X → List K)) (w : ℕ) (budget : ℤ) :
    ∀ (n i : ℕ) (s : RState X K), Inv h g budget s →
      let r := restartLoop restart h g w n i s
      Inv h g budget r ∧ ∃ new, r.runs = s.runs ++ new ∧ new.length ≤ n ∧
        (∀ k, k < new.length → new[k]? = some (restart (i + k)
          (budget - ((feasibleRuns h g (s.runs ++ new.take k)).map (fun o => (o.funcalls : ℤ))).sum))) ∧
        (∀ k, 1 ≤ k → k < new.length →
          ¬ (Exhausted budget (feasibleRuns h g (s.runs ++ new.take k)) ∨
            Stale w (feasibleRuns h g (s.runs ++ new.take k)))) ∧
        (new.length < n → 1 ≤ new.length ∧
          (Exhausted budget (feasibleRuns h g r.runs) ∨ Stale w (feasibleRuns h g r.runs))) := by
  intro n
  induction n with
  | zero =>
    intro i s hs
    exact ⟨hs, [], by simp [restartLoop], by simp, by simp, by simp, by simp⟩
  | succ n ih =>
    intro i s hs
    obtain ⟨hs', hr⟩ := inv_step h g budget s (restart i s.budget) hs
    simp only [restartLoop]
    by_cases hstop : (restartStep h g s (restart i s.budget)).budget ≤ 0 ∨
        w ≤ (restartStep h g s (restart i s.budget)).wait
    · rw [if_pos hstop]
      refine ⟨hs', [restart i s.budget], hr, by simp, ?_, ?_, ?_⟩
      · intro k hk
        obtain rfl : k = 0 := by simpa using hk
        simp [hs.budget]
      · intro k h1 h2
        simp at h2; omega
      · intro _
        exact ⟨by simp, (stop_iff h g budget _ hs' w).mp hstop⟩
    · rw [if_neg hstop]
      obtain ⟨hi, new, h1, h2, h3, h4, h5⟩ := ih (i + 1) _ hs'
      refine ⟨hi, restart i s.budget :: new, ?_, by simp; omega, ?_, ?_, ?_⟩
      · rw [h1, hr]; simp
      · intro k hk
        cases k with
        | zero => simp [hs.budget]
        | succ k =>
          have hb := h3 k (by simpa using hk)
          rw [hr, List.append_assoc, List.singleton_append] at hb
          rw [List.getElem?_cons_succ, hb, List.take_succ_cons, show i + 1 + k = i + (k + 1) by omega]
      · intro k hk1 hk2
        cases k with
        | zero => omega
        | succ k =>
          rw [List.take_succ_cons]
          cases k with
          | zero =>
            rw [List.take_zero, ← hr]
            exact fun hc => hstop ((stop_iff h g budget _ hs' w).mpr hc)
          | succ k =>
            have := h4 (k + 1) (by omega) (by simpa using hk2)
            rw [hr] at this
            simpa using this
      · intro hlt
        exact ⟨by simp, (h5 (by simpa using hlt)).2⟩

/-- C30: at least one and at most `n` restarts, the `k`-th one called with what the feasible restarts before it have left of the budget; the search goes on as long as neither the budget is used
up by feasible restarts nor `w` feasible restarts in a row brought no improvement, and stops as soon as one is the case. -/
theorem c30_early_stop_partial (restart : ℕ → ℤ → Outcome X K) (h g : Option (X → List K)) (w n : ℕ) (budget : ℤ) :
    let runs := (restartRun restart h g w n budget).runs
    runs.length ≤ n ∧ (1 ≤ n → 1 ≤ runs.length) ∧
    (∀ k, k < runs.length →
      runs[k]? = some (restart k (budget - ((feasibleRuns h g (runs.take k)).map (fun o => (o.funcalls : ℤ))).sum))) ∧
    (∀ k, 1 ≤ k → k < runs.length → ¬ Exhausted budget (feasibleRuns h g (runs.take k)) ∧
      ¬ Stale w (feasibleRuns h g (runs.take k))) ∧
    (runs.length < n → Exhausted budget (feasibleRuns h g runs) ∨ Stale w (feasibleRuns h g runs)) := by
  obtain ⟨-, new, h1, h2, h3, h4, h5⟩ := loop_spec restart h g w budget n 0 _ (inv_init h g budget)
  simp only [List.nil_append] at h1 h4
  simp only [restartRun, h1]
  refine ⟨h2, fun hn => by by_contra hc; have := (h5 (by omega)).1; omega, by simpa using h3, ?_, ?_⟩
  · intro k hk1 hk2
    have := h4 k hk1 hk2
    exact ⟨fun hc => this (Or.inl hc), fun hc => this (Or.inr hc)⟩
  · intro hlt
    have := (h5 hlt).2
    rwa [h1] at this

private theorem run_inv (restart : ℕ → ℤ → Outcome X K) (h g : Option (X → List K)) (w n : ℕ) (budget : ℤ) :
    Inv h g budget (restartRun restart h g w n budget) :=
  (loop_spec restart h g w budget n 0 _ (inv_init h g budget)).1

/-- C30: the result is empty iff no restart gave a feasible point, and otherwise belongs to a feasible restart. -/
theorem c30_empty_iff_infeasible (argsort : List (Option K) → List ℕ) (hsort : ∀ l, IsArgsort l (argsort l))
    (restart : ℕ → ℤ → Outcome X K) (h g : Option (X → List K)) (w n : ℕ) (budget : ℤ) :
    let runs := (restartRun restart h g w n budget).runs
    (argmaxRestart argsort restart h g w n budget = none ↔ ∀ o ∈ runs, ¬ FeasibleUpTo h g o.x) ∧
    ∀ x f, argmaxRestart argsort restart h g w n budget = some (x, f) →
      ∃ o ∈ runs, FeasibleUpTo h g o.x ∧ o.x = x ∧ o.f = f := by
  have hi := run_inv restart h g w n budget
  set s := restartRun restart h g w n budget with hs
  have hfe : s.found.length = 0 ↔ ∀ o ∈ s.runs, ¬ FeasibleUpTo h g o.x := by
    rw [hi.found, List.length_map, List.length_eq_zero_iff, feasibleRuns, List.filter_eq_nil_iff]
    simp
  constructor
  · rw [← hfe]
    unfold argmaxRestart
    simp only [← hs]
    by_cases h0 : s.found.length = 0
    · simp [h0]
    · simp only [h0, if_false, iff_false]
      intro hc
      obtain ⟨hp, -⟩ := hsort (s.found.map Prod.snd)
      have hne : argsort (s.found.map Prod.snd) ≠ [] := by
        intro he
        have := hp.length_eq
        simp [he] at this
        exact h0 (by simpa using this.symm)
      obtain ⟨i, hi'⟩ : ∃ i, (argsort (s.found.map Prod.snd)).reverse.head? = some i := by
        cases hh : (argsort (s.found.map Prod.snd)).reverse with
        | nil => exact absurd (List.reverse_eq_nil_iff.mp hh) hne
        | cons i l => exact ⟨i, rfl⟩
      rw [hi', Option.bind_some, List.getElem?_eq_none_iff] at hc
      have : i ∈ List.range (s.found.map Prod.snd).length := by
        rw [← hp.mem_iff, ← List.mem_reverse]
        exact List.mem_of_mem_head? hi'
      simp at this
      omega
  · intro x f hxf
    unfold argmaxRestart at hxf
    simp only [← hs] at hxf
    split at hxf
    · cases hxf
    · rw [Option.bind_eq_some_iff] at hxf
      obtain ⟨i, -, hi'⟩ := hxf
      have := List.mem_of_getElem? hi'
      rw [hi.found, List.mem_map] at this
      obtain ⟨o, ho, heq⟩ := this
      unfold feasibleRuns at ho
      rw [List.mem_filter] at ho
      exact ⟨o, ho.1, by simpa using ho.2, congrArg Prod.fst heq, congrArg Prod.snd heq⟩

open Classical in
/-- C30, partial: if no feasible restart reported NaN, the returned value is the largest one of all feasible restarts.
Missing: with NaN the claim is false, `c30_nan_wins`. -/
theorem c30_best_value_partial (argsort : List (Option K) → List ℕ) (hsort : ∀ l, IsArgsort l (argsort l))
    (restart : ℕ → ℤ → Outcome X K) (h g : Option (X → List K)) (w n : ℕ) (budget : ℤ)
    (hnan : ∀ o ∈ (restartRun restart h g w n budget).runs, FeasibleUpTo h g o.x → o.f ≠ none) (x : X) (f : Option K)
    (hr : argmaxRestart argsort restart h g w n budget = some (x, f)) :
    ∃ v, f = some v ∧ ∀ o ∈ (restartRun restart h g w n budget).runs, FeasibleUpTo h g o.x →
      ∃ v', o.f = some v' ∧ v' ≤ v := by
  have hi := run_inv restart h g w n budget
  obtain ⟨o₁, ho₁, hf₁, -, hof₁⟩ := (c30_empty_iff_infeasible argsort hsort restart h g w n budget).2 x f hr
  set s := restartRun restart h g w n budget with hs
  obtain ⟨v, hv⟩ := Option.ne_none_iff_exists'.mp (hnan o₁ ho₁ hf₁)
  refine ⟨v, by rw [← hof₁, hv], ?_⟩
  intro o ho hof
  obtain ⟨v', hv'⟩ := Option.ne_none_iff_exists'.mp (hnan o ho hof)
  refine ⟨v', hv', ?_⟩
  unfold argmaxRestart at hr
  simp only [← hs] at hr
  split at hr
  · cases hr
  rw [Option.bind_eq_some_iff] at hr
  obtain ⟨i, hi1, hi2⟩ := hr
  obtain ⟨hp, hpw⟩ := hsort (s.found.map Prod.snd)
  have hmem : (o.x, o.f) ∈ s.found := by
    rw [hi.found]
    refine List.mem_map.mpr ⟨o, ?_, rfl⟩
    unfold feasibleRuns
    rw [List.mem_filter]
    exact ⟨ho, decide_eq_true hof⟩
  obtain ⟨j, hj⟩ := List.mem_iff_getElem?.mp hmem
  have hjr : j ∈ argsort (s.found.map Prod.snd) := by
    rw [hp.mem_iff, List.mem_range, List.length_map]
    exact (List.getElem?_eq_some_iff.mp hj).1
  -- i is the last entry of the argsort
  obtain ⟨l, hl⟩ : ∃ l, argsort (s.found.map Prod.snd) = l ++ [i] := by
    cases hh : (argsort (s.found.map Prod.snd)).reverse with
    | nil => rw [hh] at hi1; simp at hi1
    | cons a l =>
      rw [hh] at hi1
      obtain rfl : a = i := by simpa using hi1
      refine ⟨l.reverse, ?_⟩
      rw [← List.reverse_reverse (argsort _), hh]
      simp
  have hfv : f = some v := by rw [← hof₁, hv]
  rw [hl, List.mem_append, List.mem_singleton] at hjr
  rcases hjr with hjr | rfl
  · rw [hl, List.pairwise_append] at hpw
    have := hpw.2.2 j hjr i (by simp) o.f f (by simp [hj]) (by simp [hi2])
    rw [hv', hfv] at this
    exact this
  · rw [hi2] at hj
    have := (Prod.mk.inj (Option.some.inj hj)).2
    rw [hfv, hv'] at this
    exact (Option.some.inj this).ge

/-- The position order of two values that numpy uses: NaN is sorted to the end. -/
private theorem argsort_two : IsArgsort [some (5 : ℚ), none] [0, 1] := by
  refine ⟨by simp [List.range_succ], ?_⟩
  simp only [List.pairwise_cons, List.mem_singleton, forall_eq, List.not_mem_nil, false_imp_iff, implies_true,
    List.Pairwise.nil, and_true]
  intro a b ha hb
  simp at ha hb
  subst ha hb
  trivial

/-- C30 refuted with NaN: of two feasible restarts with values 5 and NaN, the one with NaN is returned, for every
possible `argsort`. -/
theorem c30_nan_wins (argsort : List (Option ℚ) → List ℕ) (hsort : ∀ l, IsArgsort l (argsort l)) :
    argmaxRestart argsort (fun k _ => if k = 0 then ⟨"good", some 5, 1⟩ else ⟨"nan", none, 1⟩) none none 3 2 100 =
      some ("nan", none) := by
  have hrun : (restartRun (X := String) (K := ℚ)
      (fun k _ => if k = 0 then ⟨"good", some 5, 1⟩ else ⟨"nan", none, 1⟩) none none 3 2 100).found =
      [("good", some 5), ("nan", none)] := by decide +kernel
  unfold argmaxRestart
  simp only [hrun]
  obtain ⟨hp, hpw⟩ := hsort [some 5, none]
  have hlen := hp.length_eq
  simp only [List.length_cons, List.length_nil, List.length_range, zero_add, Nat.reduceAdd, List.map_cons, List.map_nil] at *
  generalize argsort [some 5, none] = idx at *
  match idx, hlen with
  | [a, b], _ =>
    have ha : a ∈ List.range 2 := hp.subset (by simp)
    have hb : b ∈ List.range 2 := hp.subset (by simp)
    have hnd : a ≠ b := by
      have := hp.nodup_iff.mpr List.nodup_range
      simpa using this
    simp only [List.mem_range] at ha hb
    have : (a = 0 ∧ b = 1) ∨ (a = 1 ∧ b = 0) := by omega
    rcases this with ⟨rfl, rfl⟩ | ⟨rfl, rfl⟩
    · simp
    · simp only [List.pairwise_cons, List.mem_singleton, forall_eq] at hpw
      exact absurd (hpw.1 none (some 5) (by simp) (by simp)) (by simp [nanLe])

/-- C30 refuted for the budget: infeasible restarts are free.  With a budget of 10 calls and every restart infeasible and
using 10 calls, all `n` restarts run. -/
theorem c30_infeasible_restarts_free (n : ℕ) :
    let runs := (restartRun (X := Unit) (K := ℚ) (fun _ _ => ⟨(), some 0, 10⟩) none (some (fun _ => [1])) 3 n 10).runs
    runs.length = n ∧ (runs.map (fun o => o.funcalls)).sum = 10 * n := by
  have key : ∀ (m i : ℕ) (s : RState Unit ℚ), s.budget = 10 → s.wait = 0 →
      (restartLoop (fun _ _ => ⟨(), some 0, 10⟩) none (some (fun _ => [1])) 3 m i s).runs =
        s.runs ++ List.replicate m ⟨(), some 0, 10⟩ := by
    intro m
    induction m with
    | zero => intro i s _ _; simp [restartLoop]
    | succ m ih =>
      intro i s hb hw
      have hinf : restartFeasible (K := ℚ) (none : Option (Unit → List ℚ)) (some (fun _ => [1])) () = false := by
        simp [restartFeasible]
      simp only [restartLoop, restartStep, hinf, Bool.false_eq_true, if_false]
      rw [if_neg (by simp [hb, hw])]
      rw [ih (i + 1) { s with runs := s.runs ++ [⟨(), some 0, 10⟩] } hb hw]
      simp [List.replicate_succ]
  have hk := key n 0 ⟨[], ⊥, 0, 10, []⟩ rfl rfl
  simp only [restartRun, hk, List.nil_append, List.length_replicate, true_and, List.map_replicate,
    List.sum_replicate]
  simp [mul_comm]

/-- A run that meets the hypotheses: three feasible restarts with values 1, 3, 2; the second one is returned. -/
example : argmaxRestart (X := ℕ) (K := ℚ) (fun _ => [0, 2, 1])
    (fun k _ => ⟨k, some ([1, 3, 2].getD k 0), 1⟩) none (some (fun _ => [0])) 3 3 100 = some (1, some 3) := by
  decide +kernel

open Classical in
/-- There is a function as numpy's `argsort` is assumed to be: NaN last. -/
example : ∃ argsort : List (Option ℚ) → List ℕ, ∀ l, IsArgsort l (argsort l) := by
  refine ⟨fun l => List.insertionSort (fun i j => nanLe (l.getD i none) (l.getD j none)) (List.range l.length), fun l => ?_⟩
  refine ⟨List.perm_insertionSort _ _, ?_⟩
  have htr : ∀ a b c : Option ℚ, nanLe a b → nanLe b c → nanLe a c := by
    intro a b c h1 h2
    cases a <;> cases b <;> cases c <;> simp_all [nanLe]
    exact h1.trans h2
  have hto : ∀ a b : Option ℚ, nanLe a b ∨ nanLe b a := by
    intro a b
    cases a <;> cases b <;> simp [nanLe]
    exact le_total _ _
  have : IsTrans ℕ (fun i j => nanLe (l.getD i none) (l.getD j none)) := ⟨fun _ _ _ h1 h2 => htr _ _ _ h1 h2⟩
  have : Std.Total (fun i j => nanLe (l.getD i none) (l.getD j none)) := ⟨fun _ _ => hto _ _⟩
  refine (List.pairwise_insertionSort (fun i j => nanLe (l.getD i none) (l.getD j none)) (List.range l.length)).imp ?_
  intro i j h a b ha hb
  simpa [List.getD_eq_getElem?_getD, ha, hb] using h

end Verif.Props
