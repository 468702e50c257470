import Verif.Props.Recommend
import Verif.Spec.CallerArrays

/-!
# Property C194: the caller's lists and arrays
-/
set_option linter.unusedSectionVars false
namespace Verif.Props
open Verif.Model Verif.Spec Verif.Proofs
variable {P K : Type*} [Field K] [LinearOrder K] [IsStrictOrderedRing K]

private theorem step_told (cfg : Cfg K) (s : OptState P K) (X : List P) (vals : List (Obs K)) (o : TellOracle) (hX : X ≠ []) (hl : X.length ≤ vals.length) :
    ((tell cfg s { X := X, vals := vals, oracle := o }).1.data.getD []).map (fun r => (r.x, r.f)) =
      (s.data.getD []).map (fun r => (r.x, r.f)) ++ finitePart (X.zip vals) := by
  have hw : WellFormed ({ X := X, vals := vals, oracle := o } : TellArgs P K) := ⟨hX, hl, fun l h => (nomatch h)⟩
  have := (tell_spec cfg s { X := X, vals := vals, oracle := o }).1
  simpa [pairs, told, hw] using this

/-- **C194.**  With several jobs, a step records the proposed points with their values, whatever the objective does to its argument. -/
theorem c194_parallel (cfg : Cfg K) (nJob : ℕ) (hn : 1 < nJob) (f : P → Obs K × P) (o : TellOracle) (s : OptState P K) (X : List P) (hX : X ≠ []) :
    ((stepArgs cfg nJob f o s X).1.data.getD []).map (fun r => (r.x, r.f)) =
      (s.data.getD []).map (fun r => (r.x, r.f)) ++ finitePart (X.map fun x => (x, (f x).1)) := by
  unfold stepArgs evaluateArgs
  rw [if_pos hn, step_told cfg s X _ o hX (by simp)]
  congr 2
  induction X with
  | nil => rfl
  | cons x X ih =>
    by_cases h : X = []
    · subst h; rfl
    · simp [ih h]

/-- **C194.**  With one job it records them if the objective leaves the points of the batch as they are. -/
theorem c194_sequential_partial (cfg : Cfg K) (nJob : ℕ) (hn : nJob ≤ 1) (f : P → Obs K × P) (o : TellOracle) (s : OptState P K) (X : List P) (hX : X ≠ [])
    (hf : ∀ x ∈ X, (f x).2 = x) :
    ((stepArgs cfg nJob f o s X).1.data.getD []).map (fun r => (r.x, r.f)) =
      (s.data.getD []).map (fun r => (r.x, r.f)) ++ finitePart (X.map fun x => (x, (f x).1)) := by
  have e : (X.map fun x => (f x).2) = X := by
    conv_rhs => rw [← List.map_id X]
    exact List.map_congr_left hf
  unfold stepArgs evaluateArgs
  rw [if_neg (by omega)]
  simp only
  rw [e, step_told cfg s X _ o hX (by simp)]
  congr 2
  clear e hf
  induction X with
  | nil => rfl
  | cons x X ih =>
    by_cases h : X = []
    · subst h; rfl
    · simp [ih h]

/-- **C194, refuted for one job.**  In general the points are recorded as the objective leaves them. -/
theorem c194_sequential_refuted (cfg : Cfg K) (f : P → Obs K × P) (o : TellOracle) (s : OptState P K) (X : List P) (hX : X ≠ []) :
    ((stepArgs cfg 1 f o s X).1.data.getD []).map (fun r => (r.x, r.f)) =
      (s.data.getD []).map (fun r => (r.x, r.f)) ++ finitePart (X.map fun x => ((f x).2, (f x).1)) := by
  unfold stepArgs evaluateArgs
  rw [if_neg (by omega)]
  simp only
  rw [step_told cfg s (X.map fun x => (f x).2) _ o (by simpa using hX) (by simp)]
  congr 2
  induction X with
  | nil => rfl
  | cons x X ih =>
    by_cases h : X = []
    · subst h; rfl
    · simp [ih h]

/-! ### Arrays used again -/

private theorem callerRun_snoc (cfg : Cfg K) (ops : List (CallerOp P K)) (o : CallerOp P K) : callerRun cfg (ops ++ [o]) = callerOp cfg (callerRun cfg ops) o := by
  simp [callerRun]

private theorem callerCalls_append (a b : List (CallerOp P K)) : callerCalls (a ++ b) = callerCalls a ++ callerCalls b := by
  induction a with
  | nil => rfl
  | cons o a ih => cases o <;> simp [callerCalls, ih]

private theorem tellCount_append (a b : List (CallerOp P K)) : tellCount (a ++ b) = tellCount a + tellCount b := by
  induction a with
  | nil => simp [tellCount]
  | cons o a ih => cases o <;> (simp [tellCount, ih]; try omega)

private theorem calls_eq (cfg : Cfg K) (ops : List (CallerOp P K)) : (callerRun cfg ops).calls = tellCount ops := by
  induction ops using List.reverseRecOn with
  | nil => rfl
  | append_singleton ops o ih =>
    rw [callerRun_snoc, tellCount_append]
    cases o with
    | tell b a => simp [callerOp, tellCount, ih]
    | checkStop => simp [callerOp, tellCount, ih]
    | overwrite c X => simp only [callerOp]; split_ifs <;> simp [tellCount, ih]

private theorem shared_lt (cfg : Cfg K) (ops : List (CallerOp P K)) : ∀ c, (callerRun cfg ops).shared = some c → c < (callerRun cfg ops).calls := by
  induction ops using List.reverseRecOn with
  | nil => intro c h; cases h
  | append_singleton ops o ih =>
    rw [callerRun_snoc]
    intro c h
    cases o with
    | tell b a =>
      simp only [callerOp] at h ⊢
      split_ifs at h
      · cases h; omega
      · have := ih c h; omega
    | checkStop => exact ih c h
    | overwrite c' X => simp only [callerOp] at h ⊢; split_ifs at h ⊢ <;> exact ih c h

private theorem shared_stays_away (cfg : Cfg K) (a b : List (CallerOp P K)) (c : ℕ) (hc : c < (callerRun cfg a).calls) (hs : (callerRun cfg a).shared ≠ some c) :
    c < (callerRun cfg (a ++ b)).calls ∧ (callerRun cfg (a ++ b)).shared ≠ some c := by
  induction b using List.reverseRecOn with
  | nil => simpa using ⟨hc, hs⟩
  | append_singleton b o ih =>
    rw [← List.append_assoc, callerRun_snoc]
    obtain ⟨h1, h2⟩ := ih
    cases o with
    | tell _ a' =>
      simp only [callerOp]
      refine ⟨by omega, ?_⟩
      split_ifs
      · simp; omega
      · simp
      · exact h2
    | checkStop => exact ⟨h1, h2⟩
    | overwrite c' X => simp only [callerOp]; split_ifs <;> exact ⟨h1, h2⟩

private theorem observe_some (warm : Bool) : ∀ (X : List P) (vals : List (Obs K)) (c : ℕ), X.length ≤ vals.length → (observe warm X vals c).2.isSome = true
  | [], _, _, _ => rfl
  | _ :: _, [], _, h => by simp at h
  | x :: xs, v :: vs, c, h => by
    rw [observe]
    simp only [Option.isSome_map]
    exact observe_some warm xs vs _ (by simpa using h)

private theorem replaces_wf (s : OptState P K) (a : TellArgs P K) (h : WellFormed a) : replacesTable s a = true := by
  obtain ⟨h1, h2, h3⟩ := h
  unfold replacesTable
  rw [observe_some _ _ _ _ h2]
  cases hi : a.index with
  | none => simp [h1]
  | some l => simp [h1, h3 l hi]

private theorem not_shared (cfg : Cfg K) (before since : List (CallerOp P K)) (b : Bool) (a : TellArgs P K)
    (h : b = false ∨ ∃ b' a', CallerOp.tell b' a' ∈ since ∧ WellFormed a') :
    (callerRun cfg (before ++ .tell b a :: since)).shared ≠ some (tellCount before) := by
  have e : before ++ CallerOp.tell b a :: since = (before ++ [.tell b a]) ++ since := by simp
  have hcalls : tellCount before < (callerRun cfg (before ++ [.tell b a])).calls := by
    rw [calls_eq, tellCount_append]; simp [tellCount]
  rcases h with rfl | ⟨b', a', hm, hw⟩
  · rw [e]
    refine (shared_stays_away cfg _ since _ hcalls ?_).2
    rw [callerRun_snoc]
    simp only [callerOp]
    intro h
    have h2 := shared_lt cfg before (tellCount before)
    rw [calls_eq] at h2
    split_ifs at h with g1 g2
    · simp at g2
    · exact absurd (h2 h) (lt_irrefl _)
  · obtain ⟨s1, s2, rfl⟩ := List.append_of_mem hm
    have e2 : before ++ CallerOp.tell b a :: (s1 ++ CallerOp.tell b' a' :: s2) = ((before ++ CallerOp.tell b a :: s1) ++ [.tell b' a']) ++ s2 := by simp
    have hc1 : tellCount before < (callerRun cfg (before ++ CallerOp.tell b a :: s1)).calls := by
      rw [calls_eq, tellCount_append]; simp [tellCount]
    rw [e2]
    refine (shared_stays_away cfg _ s2 _ ?_ ?_).2
    · rw [callerRun_snoc]; simp only [callerOp]; omega
    · rw [callerRun_snoc]
      simp only [callerOp]
      rw [if_pos (replaces_wf _ a' hw)]
      split_ifs
      · simp; omega
      · simp

/-- **C194.**  A caller may overwrite what it has given to `tell`, without any influence on the optimiser, if it was given as lists or if other points have been
told since. -/
theorem c194_kept_partial (cfg : Cfg K) (ops : List (CallerOp P K)) (h : OverwritesOldOnly ops) : (callerRun cfg ops).opt = execute cfg (callerCalls ops) := by
  induction ops using List.reverseRecOn with
  | nil => rfl
  | append_singleton ops o ih =>
    have i1 := ih fun pre c X post e => h pre c X (post ++ [o]) (by rw [e]; simp)
    rw [callerRun_snoc, callerCalls_append]
    cases o with
    | tell b a =>
      have e : callerCalls [CallerOp.tell (P := P) (K := K) b a] = [.tell a] := rfl
      rw [e, execute_snoc, applyOp_tell, ← i1]
      rfl
    | checkStop =>
      have e : callerCalls [CallerOp.checkStop (P := P) (K := K)] = [.checkStop] := rfl
      rw [e, execute_snoc, applyOp_checkStop, ← i1]
      rfl
    | overwrite c X =>
      obtain ⟨before, b, a, since, e, hc, hor⟩ := h ops c X [] rfl
      have hns := not_shared cfg before since b a hor
      rw [← e, hc] at hns
      simp only [callerOp, callerCalls, List.append_nil]
      rw [if_neg hns]
      exact i1

private def ccfg : Cfg ℚ := { minimize := true, maxFEs := none, ftarget := none }

private def cpoints : TellArgs (List ℕ) ℚ := { X := [[3, 1], [2, 2]], vals := [.fin 4, .fin 2] }

/-- **C194, refuted in part.**  An array of objects given to the first `tell` becomes the data: overwriting it changes the recorded points. -/
theorem c194_kept_refuted :
    (callerRun ccfg [.tell true cpoints, .overwrite 0 [[0, 0], [9, 9]]]).opt.data.map (fun d => d.map fun r => (r.x, r.f)) = some [([0, 0], 4), ([9, 9], 2)] ∧
    (callerRun ccfg [.tell true cpoints]).opt.data.map (fun d => d.map fun r => (r.x, r.f)) = some [([3, 1], 4), ([2, 2], 2)] := by
  decide +kernel

/-- An objective that reverses its argument: the recorded point is not the proposed one. -/
theorem c194_reversing_objective : ((stepArgs ccfg 1 (fun x => (.fin ((x.headD 0 : ℕ) : ℚ), x.reverse)) {} {} [[3, 1], [2, 2]]).1.data.getD []).map (fun r => (r.x, r.f)) =
      [([1, 3], 3), ([2, 2], 2)] := by
  decide +kernel

example : OverwritesOldOnly [.tell true cpoints, .tell true { X := [[5, 5]], vals := [.fin 1] }, .overwrite 0 [[0, 0], [9, 9]]] ∧
    OverwritesOldOnly [.tell false cpoints, .overwrite 0 [[0, 0], [9, 9]]] := by
  constructor
  · intro pre c X post e
    match pre, e with
    | [], e => cases e
    | [_], e => cases e
    | [_, _], e =>
      cases e
      exact ⟨[], true, cpoints, _, rfl, rfl, Or.inr ⟨true, _, List.mem_singleton.2 rfl, ⟨by simp, by simp, by simp⟩⟩⟩
    | _ :: _ :: _ :: _, e => simp at e
  · intro pre c X post e
    match pre, e with
    | [], e => cases e
    | [_], e =>
      cases e
      exact ⟨[], false, cpoints, [], rfl, rfl, Or.inl rfl⟩
    | _ :: _ :: _, e => simp at e

end Verif.Props
