import Verif.Props.Optimizer
import Verif.Spec.Recommend

/-!
# Property C193: recommend()
-/
set_option linter.unusedSectionVars false
namespace Verif.Props
open Verif.Model Verif.Spec Verif.Proofs
variable {P K : Type*} [Field K] [LinearOrder K] [IsStrictOrderedRing K]

/-- **C193.**  When a finite value has been told, `recommend()` returns the first of the best points told. -/
theorem c193_best_partial (width : P → ℕ) (hw : ∀ x, width x ≠ 0) (cfg : Cfg K) (ops : List (Op P K)) (hne : toldAll ops ≠ []) :
    ∃ (r : Rec P K) (i : ℕ), recommend width cfg (execute cfg ops) = .ok r ∧ (toldAll ops)[i]? = some (r.x, r.f) ∧
      IsBestOf cfg.minimize r.f ((toldAll ops).map Prod.snd) ∧ ∀ (j : ℕ) (q : P × K), j < i → (toldAll ops)[j]? = some q → q.2 ≠ r.f := by
  obtain ⟨r, i, h, h2⟩ := c11_incumbent cfg ops hne
  exact ⟨r, i, by rw [recommend, h]; simp [hw], h2⟩

private theorem data_none (cfg : Cfg K) (ops : List (Op P K)) (h : ∀ a, Op.tell a ∈ ops → ¬ WellFormed a) : (execute cfg ops).data = none := by
  induction ops using List.reverseRecOn with
  | nil => rfl
  | append_singleton ops o ih =>
    rw [execute_snoc]
    have ih' := ih fun a ha => h a (by simp [ha])
    cases o with
    | tell a =>
      rw [applyOp_tell]
      obtain ⟨-, -, -, -, -, -, -, h8⟩ := tell_spec cfg (execute cfg ops) a
      rw [(h8 (h a (by simp))).1, ih']
    | checkStop =>
      rw [applyOp_checkStop]
      exact (checkStop_frame cfg _).1.trans ih'

/-- **C193.**  Before any point has been told, `recommend()` raises `RecommendationUnavailableError`, also after rejected calls of `tell`. -/
theorem c193_unavailable (width : P → ℕ) (cfg : Cfg K) (ops : List (Op P K)) (h : ∀ a, Op.tell a ∈ ops → ¬ WellFormed a) :
    recommend width cfg (execute cfg ops) = .error .unavailable := by
  rw [recommend, xopt, data_none cfg ops h]

/-- **C193, refuted in part.**  When all evaluations so far have failed, `recommend()` raises `ValueError` instead. -/
theorem c193_unavailable_refuted (width : P → ℕ) (cfg : Cfg K) (x : P) :
    toldAll [Op.tell (K := K) { X := [x], vals := [.nan] }] = [] ∧
      recommend width cfg (execute cfg [.tell { X := [x], vals := [.nan] }]) = .error (.other .emptyData) := by
  have h1 : toldAll [Op.tell (K := K) { X := [x], vals := [.nan] }] = [] := by
    simp only [toldAll, List.flatMap_cons, List.flatMap_nil, List.append_nil, told]
    split_ifs <;> rfl
  refine ⟨h1, ?_⟩
  cases hd : cfg.evalDict <;>
    simp [recommend, xopt, execute, applyOp, tell, observe, postEvalCheck, labels, defaultIndex, tellRest, incumbent, getBest, List.range_succ]

/-- **C193.**  Recommendations never get worse, whatever is called in between. -/
theorem c193_no_worse (width : P → ℕ) (cfg : Cfg K) (ops more : List (Op P K)) (r r' : Rec P K) (h : recommend width cfg (execute cfg ops) = .ok r)
    (h' : recommend width cfg (execute cfg (ops ++ more)) = .ok r') : ¬ Better cfg.minimize r.f r'.f := by
  have key : ∀ (ops : List (Op P K)) (r : Rec P K), recommend width cfg (execute cfg ops) = .ok r → IsBestOf cfg.minimize r.f ((toldAll ops).map Prod.snd) := by
    intro ops r h
    by_cases hne : toldAll ops = []
    · rcases c11_no_incumbent cfg ops hne with e | e <;> (rw [recommend, e] at h; cases h)
    · obtain ⟨r1, i, e, -, hb, -⟩ := c11_incumbent cfg ops hne
      rw [recommend, e] at h
      simp only at h
      split_ifs at h
      cases h
      exact hb
  have h1 := key _ _ h
  have h2 := key _ _ h'
  have hm : r.f ∈ (toldAll (ops ++ more)).map Prod.snd := by
    have := h1.1
    unfold toldAll at this ⊢
    rw [List.flatMap_append, List.map_append, List.mem_append]
    exact Or.inl this
  have := h2.2 _ hm
  unfold Better
  cases hmin : cfg.minimize <;> simp only [hmin, if_true] at this ⊢ <;> simpa using this

/-- **C193.**  What `run()` returns is what `recommend()` returns afterwards. -/
theorem c193_run (width : P → ℕ) (hw : ∀ x, width x ≠ 0) (cfg : Cfg K) (inp : ℕ → StepIn P K) (fuel i n : ℕ) (s s' : OptState P K) (best : Rec P K)
    (h : run cfg inp fuel i s = .returned n s' best) : recommend width cfg s' = .ok best := by
  induction fuel generalizing i s with
  | zero => cases h
  | succ fuel ih =>
    rw [run] at h
    split at h
    · cases h
    · split at h
      · rename_i s1 _ r hx
        cases h
        rw [recommend, hx]
        simp [hw]
      · cases h
    · split_ifs at h
      split at h
      · cases h
      · exact ih _ _ h

/-! ### Writing to the returned objects -/

private theorem play_snoc (cfg : Cfg K) (ops : List (UserOp P K)) (o : UserOp P K) : play cfg (ops ++ [o]) = playOp cfg (play cfg ops) o := by simp [play]

private theorem calls_append (a b : List (UserOp P K)) : optimiserCalls (a ++ b) = optimiserCalls a ++ optimiserCalls b := by
  induction a with
  | nil => rfl
  | cons o a ih => cases o <;> simp [optimiserCalls, ih]

private theorem observe_isSome (warm : Bool) : ∀ (X : List P) (vals : List (Obs K)) (c : ℕ), X.length ≤ vals.length → (observe warm X vals c).2.isSome = true
  | [], _, _, _ => rfl
  | _ :: _, [], _, h => by simp at h
  | x :: xs, v :: vs, c, h => by
    rw [observe]
    simp only [Option.isSome_map]
    exact observe_isSome warm xs vs _ (by simpa using h)

private theorem replaces_of_wellFormed (s : OptState P K) (a : TellArgs P K) (h : WellFormed a) : replacesTable s a = true := by
  obtain ⟨h1, h2, h3⟩ := h
  unfold replacesTable
  rw [observe_isSome _ _ _ _ h2]
  cases hi : a.index with
  | none => simp [h1]
  | some l => simp [h1, h3 l hi]

private theorem play_grow (cfg : Cfg K) (p : PlayState P K) (o : UserOp P K) :
    p.arr ≤ (playOp cfg p o).arr ∧ ∃ more, (playOp cfg p o).refs = p.refs ++ more ∧ ∀ c ∈ more, c.1 = p.arr := by
  cases o with
  | tell a =>
    refine ⟨?_, [], by simp [playOp], by simp⟩
    simp only [playOp]
    split_ifs <;> omega
  | checkStop => exact ⟨le_rfl, [], by simp [playOp], by simp⟩
  | recommend =>
    simp only [playOp]
    split
    · exact ⟨le_rfl, _, rfl, by simp⟩
    · exact ⟨le_rfl, [], by simp, by simp⟩
  | writeX k x =>
    refine ⟨?_, [], ?_, by simp⟩ <;> (simp only [playOp]; split <;> try split_ifs) <;> simp
  | writeF k f =>
    refine ⟨?_, [], ?_, by simp⟩ <;> (simp only [playOp]; split) <;> simp

private theorem refs_bound (cfg : Cfg K) (ops : List (UserOp P K)) : ∀ c ∈ (play cfg ops).refs, c.1 ≤ (play cfg ops).arr := by
  induction ops using List.reverseRecOn with
  | nil => simp [play]
  | append_singleton ops o ih =>
    obtain ⟨h1, more, h2, h3⟩ := play_grow cfg (play cfg ops) o
    rw [play_snoc]
    intro c hc
    rw [h2, List.mem_append] at hc
    rcases hc with hc | hc
    · exact (ih c hc).trans h1
    · exact (h3 c hc).le.trans h1

private theorem play_extend (cfg : Cfg K) (a b : List (UserOp P K)) : (play cfg a).arr ≤ (play cfg (a ++ b)).arr ∧
    ∀ k, k < (play cfg a).refs.length → (play cfg (a ++ b)).refs[k]? = (play cfg a).refs[k]? := by
  induction b using List.reverseRecOn with
  | nil => simp
  | append_singleton b o ih =>
    rw [← List.append_assoc, play_snoc]
    obtain ⟨h1, more, h2, -⟩ := play_grow cfg (play cfg (a ++ b)) o
    refine ⟨ih.1.trans h1, fun k hk => ?_⟩
    have h3 := ih.2 k hk
    rw [List.getElem?_eq_getElem hk] at h3
    obtain ⟨h4, -⟩ := List.getElem?_eq_some_iff.1 h3
    rw [h2, List.getElem?_append_left h4, h3, List.getElem?_eq_getElem hk]

private theorem old_ref (cfg : Cfg K) (before since : List (UserOp P K)) (a : TellArgs P K) (ha : WellFormed a) (k : ℕ) (hk : k < (play cfg before).refs.length) :
    ∃ c, (play cfg (before ++ .tell a :: since)).refs[k]? = some c ∧ c.1 ≠ (play cfg (before ++ .tell a :: since)).arr := by
  have e : before ++ UserOp.tell a :: since = (before ++ [.tell a]) ++ since := by simp
  have hr : (play cfg (before ++ [.tell a])).refs = (play cfg before).refs := by rw [play_snoc]; rfl
  have hA : (play cfg (before ++ [.tell a])).arr = (play cfg before).arr + 1 := by
    rw [play_snoc]
    simp only [playOp]
    rw [if_pos (replaces_of_wellFormed _ a ha)]
  obtain ⟨h1, h2⟩ := play_extend cfg (before ++ [.tell a]) since
  rw [e, h2 k (by rw [hr]; exact hk), hr, List.getElem?_eq_getElem hk]
  refine ⟨_, rfl, ?_⟩
  have := refs_bound cfg before _ (List.getElem_mem hk)
  omega

/-- **C193.**  Writing to recommended objects does not influence the optimiser as long as they are older than the last points told: its data, counters, log and
stop flags are those of the same calls without the recommendations and the writes.  If only coordinates are written, `hist_f` is the same, too. -/
theorem c193_isolated_partial (cfg : Cfg K) (ops : List (UserOp P K)) (h : WritesOldOnly cfg ops) :
    (play cfg ops).opt = execute cfg (optimiserCalls ops) ∧
      ((∀ k f, UserOp.writeF k f ∉ ops) → (play cfg ops).hist.map Prod.snd = (execute cfg (optimiserCalls ops)).histF) := by
  induction ops using List.reverseRecOn with
  | nil => exact ⟨rfl, fun _ => rfl⟩
  | append_singleton ops o ih =>
    obtain ⟨i1, i2⟩ := ih fun pre o' post k e hk => h pre o' (post ++ [o]) k (by rw [e]; simp) hk
    have i2' : (∀ k f, UserOp.writeF k f ∉ ops ++ [o]) → (play cfg ops).hist.map Prod.snd = (execute cfg (optimiserCalls ops)).histF :=
      fun hn => i2 fun k f hm => hn k f (by simp [hm])
    have hold : ∀ k, writesTo o = some k → ∃ c, (play cfg ops).refs[k]? = some c ∧ c.1 ≠ (play cfg ops).arr := by
      intro k hk
      obtain ⟨before, a, since, e, ha, hb⟩ := h ops o [] k rfl hk
      rw [e]
      exact old_ref cfg before since a ha k hb
    rw [play_snoc, calls_append]
    cases o with
    | tell a =>
      have e : optimiserCalls [UserOp.tell (P := P) (K := K) a] = [.tell a] := rfl
      rw [e, execute_snoc, applyOp_tell, ← i1]
      refine ⟨rfl, fun hn => ?_⟩
      have hh := i2' hn
      obtain ⟨-, -, -, -, h5, h6, -, -⟩ := tell_spec cfg (play cfg ops).opt a
      have hpre : ∃ t, (tell cfg (play cfg ops).opt a).1.histF = (play cfg ops).opt.histF ++ t := by
        by_cases hc : isOk (tell cfg (play cfg ops).opt a).2 = true ∧ a.warm = false
        · obtain ⟨-, b, -, hb⟩ := h5 hc
          exact ⟨_, hb⟩
        · exact ⟨[], by rw [(h6 hc).2, List.append_nil]⟩
      obtain ⟨t, ht⟩ := hpre
      simp only [playOp, List.map_append, List.map_map]
      rw [hh, ← i1, ht, List.drop_left]
      congr 1
      exact List.map_id _
    | checkStop =>
      have e : optimiserCalls [UserOp.checkStop (P := P) (K := K)] = [.checkStop] := rfl
      rw [e, execute_snoc, applyOp_checkStop, ← i1]
      refine ⟨rfl, fun hn => ?_⟩
      simp only [playOp]
      rw [i2' hn, ← i1]
      exact (checkStop_frame cfg _).2.2.2.1.symm
    | recommend =>
      simp only [playOp, optimiserCalls, List.append_nil]
      split <;> exact ⟨i1, i2'⟩
    | writeX k x =>
      obtain ⟨⟨a, j⟩, hc, hne⟩ := hold k rfl
      simp only [playOp, optimiserCalls, List.append_nil, hc]
      rw [if_neg hne]
      exact ⟨i1, i2'⟩
    | writeF k f =>
      obtain ⟨⟨a, j⟩, hc, hne⟩ := hold k rfl
      simp only [playOp, optimiserCalls, List.append_nil, hc]
      rw [if_neg hne]
      exact ⟨i1, fun hn => absurd (by simp) (hn k f)⟩

private def rcfg : Cfg ℚ := { minimize := true, maxFEs := none, ftarget := none }

private def rtell : UserOp ℕ ℚ := .tell { X := [1, 2, 3], vals := [.fin 4, .fin 2, .fin 3] }

/-- **C193, refuted in part.**  Writing to the object last returned changes the data of the optimiser: the recorded point, or the recorded value and with it the next
recommendation. -/
theorem c193_shared_refuted :
    ((play rcfg [rtell, .recommend, .writeX 0 9]).opt.data.map fun d => d.map fun r => (r.x, r.f)) = some [(1, 4), (9, 2), (3, 3)] ∧
    ((play rcfg [rtell, .recommend, .writeF 0 7]).opt.data.map fun d => d.map fun r => (r.x, r.f)) = some [(1, 4), (2, 7), (3, 3)] ∧
    (((recommend (fun _ => 1) rcfg (play rcfg [rtell, .recommend]).opt).toOption.map Rec.x) = some 2 ∧
      ((recommend (fun _ => 1) rcfg (play rcfg [rtell, .recommend, .writeF 0 7]).opt).toOption.map Rec.x) = some 3) := by
  decide +kernel

/-- **C193, refuted in part.**  Writing the fitness of an object returned earlier changes the convergence history. -/
theorem c193_history_refuted :
    (play rcfg [rtell, .recommend, .tell { X := [5], vals := [.fin 1] }]).hist.map Prod.snd = [2, 1] ∧
    (play rcfg [rtell, .recommend, .tell { X := [5], vals := [.fin 1] }, .writeF 0 0]).hist.map Prod.snd = [0, 1] := by
  decide +kernel

/-- A program that writes to an old recommendation only. -/
theorem c193_concrete : WritesOldOnly rcfg [rtell, .recommend, .tell { X := [5], vals := [.fin 1] }, .writeX 0 9] ∧
    (play rcfg [rtell, .recommend, .tell { X := [5], vals := [.fin 1] }, .writeX 0 9]).opt.data.map (fun d => d.map fun r => (r.x, r.f)) =
      some [(1, 4), (2, 2), (3, 3), (5, 1)] ∧
    toldAll [Op.tell (P := ℕ) (K := ℚ) { X := [1, 2, 3], vals := [.fin 4, .fin 2, .fin 3] }] ≠ [] := by
  refine ⟨?_, by decide +kernel, ?_⟩
  · intro pre o post k e hk
    match pre, e with
    | [], e => cases e; cases hk
    | [_], e => cases e; cases hk
    | [_, _], e => cases e; cases hk
    | [_, _, _], e =>
      cases e
      cases hk
      exact ⟨[rtell, .recommend], _, [], rfl, ⟨by simp, by simp, by simp⟩, by decide +kernel⟩
    | _ :: _ :: _ :: _ :: _, e => simp at e
  · have hw : WellFormed ({ X := [1, 2, 3], vals := [.fin 4, .fin 2, .fin 3] } : TellArgs ℕ ℚ) := ⟨by simp, by simp, by simp⟩
    simp [toldAll, told, hw, finitePart]

example : recommend (P := ℕ) (fun _ => 1) rcfg (execute rcfg [.checkStop, .tell { X := [1], vals := [] }]) = .error .unavailable :=
  c193_unavailable _ _ _ fun a ha hw => by
    simp only [List.mem_cons, reduceCtorEq, Op.tell.injEq, List.not_mem_nil, or_false, false_or] at ha
    subst ha
    simpa using hw.2.1

example : (match run (P := ℕ) (K := ℚ) { rcfg with maxFEs := some 3 } (fun _ => { batch := [1, 2, 3], vals := [.fin 4, .fin 2, .fin 3] }) 3 0 {} with
    | .returned n _ b => some (n, b.x, b.f)
    | _ => none) = some (1, 2, 2) := by decide +kernel

example : (recommend (P := ℕ) (fun _ => 1) rcfg (execute rcfg (sampleOps.take 1))).toOption.map Rec.f = some 2 ∧
    (recommend (fun _ => 1) rcfg (execute rcfg (sampleOps.take 1 ++ sampleOps.drop 1))).toOption.map Rec.f = some 2 := by decide +kernel

end Verif.Props
