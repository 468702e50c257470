import Verif.Props.Optimizer
import Verif.Props.Ask
import Verif.Spec.Workers
import Mathlib.Data.List.FinRange

/-!
# C186: several workers can share one optimiser
-/
set_option linter.unusedSectionVars false
namespace Verif.Props

open Verif.Model Verif.Spec Verif.Proofs

variable {P K : Type*} [Field K] [LinearOrder K] [IsStrictOrderedRing K] {W : ℕ}

/-- The calls of the optimiser that an event makes; `ask` changes nothing. -/
private def callsOf : WorkerEvent W P K → List (Op P K)
  | .take _ _ => [.checkStop]
  | .rest _ => [.checkStop]
  | .deliver _ X vals o => [.tell { X := X, vals := vals, oracle := o }]
  | .die _ _ => []

private theorem opt_execute {cfg : Cfg K} {asks : OptState P K → List P → Prop} {es : List (WorkerEvent W P K)} {s : Workers W P K} (h : WorkerRun cfg asks es s) :
    s.opt = execute cfg (es.flatMap callsOf) := by
  induction h with
  | start => rfl
  | @step es s e s' _ hst ih =>
    rw [List.flatMap_append]
    cases hst with
    | take h1 h2 h3 h4 =>
      simp only [callsOf, List.flatMap_cons, List.flatMap_nil, List.append_nil]
      rw [execute_snoc, applyOp_checkStop, ← ih, h2]
    | rest h1 =>
      simp only [callsOf, List.flatMap_cons, List.flatMap_nil, List.append_nil]
      rw [execute_snoc, applyOp_checkStop, ← ih]
    | deliver h1 h2 =>
      simp only [callsOf, List.flatMap_cons, List.flatMap_nil, List.append_nil]
      rw [execute_snoc, applyOp_tell, ← ih]
    | die h1 =>
      simpa [callsOf] using ih

/-- Nobody works on an empty list; what is delivered has a value for every point. -/
private theorem hands {cfg : Cfg K} {asks : OptState P K → List P → Prop} {es : List (WorkerEvent W P K)} {s : Workers W P K} (h : WorkerRun cfg asks es s) :
    (∀ w X, s.inHand w = some X → X ≠ []) ∧ ∀ w X vals o, WorkerEvent.deliver w X vals o ∈ es → X ≠ [] ∧ vals.length = X.length := by
  induction h with
  | start => exact ⟨fun w X h => by simp at h, fun w X vals o h => by simp at h⟩
  | @step es s e s' _ hst ih =>
    have hupd : ∀ (w : Fin W) (v : Option (List P)), (∀ X, v = some X → X ≠ []) → ∀ w' X, Function.update s.inHand w v w' = some X → X ≠ [] := by
      intro w v hv w' X hX
      by_cases hw : w' = w
      · subst hw
        rw [Function.update_self] at hX
        exact hv X hX
      · rw [Function.update_of_ne hw] at hX
        exact ih.1 w' X hX
    cases hst with
    | take h1 h2 h3 h4 =>
      refine ⟨hupd _ _ fun Y hY => by rw [← Option.some.inj hY]; exact h4, fun w X vals o hm => ?_⟩
      simp only [List.mem_append, List.mem_singleton, reduceCtorEq, or_false] at hm
      exact ih.2 w X vals o hm
    | rest h1 =>
      refine ⟨ih.1, fun w X vals o hm => ?_⟩
      simp only [List.mem_append, List.mem_singleton, reduceCtorEq, or_false] at hm
      exact ih.2 w X vals o hm
    | deliver h1 h2 =>
      refine ⟨hupd _ _ (fun Y hY => nomatch hY), fun w X vals o hm => ?_⟩
      rcases List.mem_append.mp hm with hm | hm
      · exact ih.2 w X vals o hm
      · simp only [List.mem_singleton, WorkerEvent.deliver.injEq] at hm
        obtain ⟨rfl, rfl, rfl, rfl⟩ := hm
        exact ⟨ih.1 _ _ h1, h2⟩
    | die h1 =>
      refine ⟨hupd _ _ (fun Y hY => nomatch hY), fun w X vals o hm => ?_⟩
      simp only [List.mem_append, List.mem_singleton, reduceCtorEq, or_false] at hm
      exact ih.2 w X vals o hm

private theorem toldAll_calls (es : List (WorkerEvent W P K)) (h : ∀ w X vals o, WorkerEvent.deliver w X vals o ∈ es → X ≠ [] ∧ vals.length = X.length) :
    toldAll (es.flatMap callsOf) = deliveredValues es := by
  induction es with
  | nil => rfl
  | cons e es ih =>
    have ih := ih fun w X vals o hm => h w X vals o (List.mem_cons_of_mem _ hm)
    unfold toldAll deliveredValues at *
    rw [List.flatMap_cons, List.flatMap_append, ih, List.flatMap_cons]
    congr 1
    cases e with
    | take w X => simp [callsOf, told]
    | rest w => simp [callsOf, told]
    | die w X => simp [callsOf]
    | deliver w X vals o =>
      obtain ⟨h1, h2⟩ := h w X vals o (by simp)
      have hwf : WellFormed ({ X := X, vals := vals, oracle := o } : TellArgs P K) := ⟨h1, h2.ge, fun l hl => by simp at hl⟩
      simp [callsOf, told, hwf]

/-- **C186**: whatever the workers do and in whatever order, the optimiser has recorded exactly the finite values delivered, each once, in the order of delivery; the evaluation
counter is the number of points delivered, and the incumbent, if there is one, is the best of them. -/
theorem c186_recorded (cfg : Cfg K) (asks : OptState P K → List P → Prop) (es : List (WorkerEvent W P K)) (s : Workers W P K) (h : WorkerRun cfg asks es s) :
    (s.opt.data.getD []).map (fun r => (r.x, r.f)) = deliveredValues es ∧ s.opt.evalCount = (deliveredPoints es).length ∧
      (deliveredValues es ≠ [] → ∃ r, xopt cfg s.opt = .ok (some r) ∧ (r.x, r.f) ∈ deliveredValues es ∧
        IsBestOf cfg.minimize r.f ((deliveredValues es).map Prod.snd)) := by
  have ho := opt_execute h
  have hh := (hands h).2
  have ht := toldAll_calls es hh
  refine ⟨?_, ?_, fun hne => ?_⟩
  · rw [ho, ← ht]
    exact c13_data_is_what_was_told cfg _
  · rw [ho, c10_eval_count]
    · clear h ho ht
      induction es with
      | nil => rfl
      | cons e es ih =>
        have ih := ih fun w X vals o hm => hh w X vals o (List.mem_cons_of_mem _ hm)
        unfold deliveredPoints at *
        rw [List.flatMap_cons, List.map_append, List.sum_append, ih, List.flatMap_cons, List.length_append]
        congr 1
        cases e <;> simp [callsOf, evaluatedBy]
    · intro a ha
      obtain ⟨e, he, hae⟩ := List.mem_flatMap.mp ha
      cases e with
      | take w X => simp [callsOf] at hae
      | rest w => simp [callsOf] at hae
      | die w X => simp [callsOf] at hae
      | deliver w X vals o =>
        simp only [callsOf, List.mem_singleton, Op.tell.injEq] at hae
        subst hae
        obtain ⟨h1, h2⟩ := hh w X vals o he
        exact ⟨h1, h2.ge, fun l hl => by simp at hl⟩
  · obtain ⟨r, i, h1, h2, h3, -⟩ := c11_incumbent cfg (es.flatMap callsOf) (by rw [ht]; exact hne)
    rw [ht] at h2 h3
    exact ⟨r, by rw [ho]; exact h1, List.mem_of_getElem? h2, h3⟩

/-! ### Where the points are -/

private theorem flatMap_update (l : List (Fin W)) (hl : l.Nodup) (g : Fin W → Option (List P)) (w : Fin W) (hw : w ∈ l) (v : Option (List P)) :
    (l.flatMap fun i => (Function.update g w v i).getD []).Perm (v.getD [] ++ l.flatMap fun i => (Function.update g w none i).getD []) := by
  induction l with
  | nil => cases hw
  | cons a l ih =>
    rw [List.nodup_cons] at hl
    by_cases ha : a = w
    · subst ha
      have hrest : (l.flatMap fun i => (Function.update g a v i).getD []) = l.flatMap fun i => (Function.update g a none i).getD [] := by
        refine List.flatMap_congr fun i hi => ?_
        have : i ≠ a := fun h => hl.1 (h ▸ hi)
        rw [Function.update_of_ne this, Function.update_of_ne this]
      simp only [List.flatMap_cons, Function.update_self, hrest, Option.getD_none, List.nil_append]
      exact List.Perm.refl _
    · have hw' : w ∈ l := by
        rcases List.mem_cons.mp hw with h | h
        · exact absurd h.symm ha
        · exact h
      simp only [List.flatMap_cons, Function.update_of_ne ha]
      refine ((ih hl.2 hw').append_left _).trans ?_
      rw [← List.append_assoc, ← List.append_assoc]
      exact (List.perm_append_comm).append_right _

private theorem work_taken (s : Workers W P K) (s' : OptState P K) (w : Fin W) (X : List P) (h : s.inHand w = none) :
    (inWork (⟨s', Function.update s.inHand w (some X)⟩ : Workers W P K)).Perm (X ++ inWork s) := by
  have := flatMap_update (List.finRange W) (List.nodup_finRange W) s.inHand w (List.mem_finRange w) (some X)
  have e : Function.update s.inHand w none = s.inHand := by rw [← h]; exact Function.update_eq_self w s.inHand
  rw [e] at this
  exact this

private theorem work_done (s : Workers W P K) (s' : OptState P K) (w : Fin W) (X : List P) (h : s.inHand w = some X) :
    (inWork s).Perm (X ++ inWork (⟨s', Function.update s.inHand w none⟩ : Workers W P K)) := by
  have := flatMap_update (List.finRange W) (List.nodup_finRange W) s.inHand w (List.mem_finRange w) (some X)
  have e : Function.update s.inHand w (some X) = s.inHand := by rw [← h]; exact Function.update_eq_self w s.inHand
  rw [e] at this
  exact this

/-- **C186**: no point is duplicated or forgotten: each point taken has been delivered, was lost with its worker or is being evaluated. -/
theorem c186_conserved (cfg : Cfg K) (asks : OptState P K → List P → Prop) (es : List (WorkerEvent W P K)) (s : Workers W P K) (h : WorkerRun cfg asks es s) :
    (takenPoints es).Perm (deliveredPoints es ++ lostPoints es ++ inWork s) := by
  classical
  induction h with
  | start =>
    have : inWork ({} : Workers W P K) = [] := List.flatMap_eq_nil_iff.mpr fun w _ => rfl
    rw [this]
    exact List.Perm.refl _
  | @step es s e s' _ hst ih =>
    rw [List.perm_iff_count] at ih ⊢
    intro a
    have ih := ih a
    simp only [List.count_append] at ih
    have e1 : ∀ e : WorkerEvent W P K, takenPoints (es ++ [e]) = takenPoints es ++ takenPoints [e] := fun e => List.flatMap_append
    have e2 : ∀ e : WorkerEvent W P K, deliveredPoints (es ++ [e]) = deliveredPoints es ++ deliveredPoints [e] := fun e => List.flatMap_append
    have e3 : ∀ e : WorkerEvent W P K, lostPoints (es ++ [e]) = lostPoints es ++ lostPoints [e] := fun e => List.flatMap_append
    rw [e1, e2, e3]
    simp only [List.count_append]
    cases hst with
    | @take s' w X h1 h2 h3 h4 =>
      have hw := (work_taken s s' w X h1).count_eq a
      rw [List.count_append] at hw
      simp only [takenPoints, deliveredPoints, lostPoints, List.flatMap_cons, List.flatMap_nil, List.append_nil, List.count_nil] at *
      omega
    | rest h1 =>
      have hw : inWork (⟨(checkStop cfg s.opt).1, s.inHand⟩ : Workers W P K) = inWork s := rfl
      rw [hw]
      simp only [takenPoints, deliveredPoints, lostPoints, List.flatMap_cons, List.flatMap_nil, List.append_nil, List.count_nil] at *
      omega
    | @deliver w X vals o h1 h2 =>
      have hw := (work_done s (tell cfg s.opt { X := X, vals := vals, oracle := o }).1 w X h1).count_eq a
      rw [List.count_append] at hw
      simp only [takenPoints, deliveredPoints, lostPoints, List.flatMap_cons, List.flatMap_nil, List.append_nil, List.count_nil] at *
      omega
    | @die w X h1 =>
      have hw := (work_done s s.opt w X h1).count_eq a
      rw [List.count_append] at hw
      simp only [takenPoints, deliveredPoints, lostPoints, List.flatMap_cons, List.flatMap_nil, List.append_nil, List.count_nil] at *
      omega

/-! ### The budget -/

private theorem stop_below {cfg : Cfg K} {s s' : OptState P K} {b : ℤ} (hb : cfg.maxFEs = some b) (h : checkStop cfg s = (s', .ok false)) :
    (s.evalCount : ℤ) < b := by
  by_contra hc
  push Not at hc
  have h1 : (checkBudget cfg s).stopMaxFEs = some s.evalCount := by
    unfold checkBudget
    rw [hb]
    simp only [ge_iff_le, hc, ↓reduceIte]
  unfold checkStop at h
  simp only at h
  generalize checkBudget cfg s = s1 at *
  have hflag : ∀ t : Option K, stopFlag ({ s1 with stopFtarget := t } : OptState P K) = true := fun t => by simp [stopFlag, h1]
  have hflag1 : stopFlag s1 = true := by simp [stopFlag, h1]
  split at h
  · simp [hflag1] at h
  · split at h
    · simp at h
    · simp [hflag1] at h
    · split at h
      · simp [hflag] at h
      · simp [hflag1] at h

/-- At most `W` batches are being evaluated. -/
private theorem work_bound {cfg : Cfg K} {asks : OptState P K → List P → Prop} {es : List (WorkerEvent W P K)} {s : Workers W P K} (h : WorkerRun cfg asks es s) (q : ℕ)
    (hq : TakesAtMost q es) : (inWork s).length ≤ W * q := by
  have key : ∀ w, ((s.inHand w).getD []).length ≤ q := by
    induction h with
    | start => intro w; exact Nat.zero_le _
    | @step es s e s' _ hst ih =>
      have ih := ih fun w X hm => hq w X (List.mem_append_left _ hm)
      have hupd : ∀ (w : Fin W) (v : Option (List P)), (v.getD []).length ≤ q → ∀ w', ((Function.update s.inHand w v w').getD []).length ≤ q := by
        intro w v hv w'
        by_cases hw : w' = w
        · subst hw
          rw [Function.update_self]
          exact hv
        · rw [Function.update_of_ne hw]
          exact ih w'
      cases hst with
      | take h1 h2 h3 h4 => exact hupd _ _ (hq _ _ (List.mem_append_right _ (List.mem_singleton.mpr rfl)))
      | rest h1 => exact ih
      | deliver h1 h2 => exact hupd _ _ (Nat.zero_le _)
      | die h1 => exact hupd _ _ (Nat.zero_le _)
  unfold inWork
  rw [List.length_flatMap]
  calc ((List.finRange W).map fun w => ((s.inHand w).getD []).length).sum ≤ ((List.finRange W).map fun _ => q).sum :=
        List.sum_le_sum fun w _ => key w
    _ = W * q := by simp

/-- **C186**: with `max_FEs = b` the evaluations, those that are under way included, exceed the budget by less than one batch for each worker. -/
theorem c186_budget (cfg : Cfg K) (asks : OptState P K → List P → Prop) (es : List (WorkerEvent W P K)) (s : Workers W P K) (h : WorkerRun cfg asks es s) (b : ℤ)
    (hb : cfg.maxFEs = some b) (q : ℕ) (hq : TakesAtMost q es) :
    (((deliveredPoints es).length + (inWork s).length : ℕ) : ℤ) ≤ max 0 (b - 1 + W * q) := by
  induction h with
  | start =>
    have : inWork ({} : Workers W P K) = [] := List.flatMap_eq_nil_iff.mpr fun w _ => rfl
    rw [this]
    simp [deliveredPoints]
  | @step es s e s' hrun hst ih =>
    have ih := ih fun w X hm => hq w X (List.mem_append_left _ hm)
    have hbound := work_bound (hrun.step hst) q hq
    have e2 : deliveredPoints (es ++ [e]) = deliveredPoints es ++ deliveredPoints [e] := List.flatMap_append
    rw [e2, List.length_append]
    cases hst with
    | @take s' w X h1 h2 h3 h4 =>
      have hlt := stop_below hb h2
      rw [(c186_recorded cfg asks es s hrun).2.1] at hlt
      have h0 : (deliveredPoints [(WorkerEvent.take w X : WorkerEvent W P K)]).length = 0 := by simp [deliveredPoints]
      rw [h0]
      have hbound' : (((inWork (⟨s', Function.update s.inHand w (some X)⟩ : Workers W P K)).length : ℕ) : ℤ) ≤ W * q := by exact_mod_cast hbound
      refine le_max_of_le_right ?_
      push_cast
      linarith
    | @rest w h1 =>
      have h0 : (deliveredPoints [(WorkerEvent.rest w : WorkerEvent W P K)]).length = 0 := by simp [deliveredPoints]
      rw [h0]
      exact ih
    | @deliver w X vals o h1 h2 =>
      have hw := (work_done s (tell cfg s.opt { X := X, vals := vals, oracle := o }).1 w X h1).length_eq
      rw [List.length_append] at hw
      have h0 : (deliveredPoints [(WorkerEvent.deliver w X vals o : WorkerEvent W P K)]).length = X.length := by simp [deliveredPoints]
      rw [h0]
      rw [hw] at ih
      rwa [Nat.add_assoc]
    | @die w X h1 =>
      have hw := (work_done s s.opt w X h1).length_eq
      rw [List.length_append] at hw
      have h0 : (deliveredPoints [(WorkerEvent.die w X : WorkerEvent W P K)]).length = 0 := by simp [deliveredPoints]
      rw [h0]
      refine le_trans ?_ ih
      push_cast
      rw [hw]
      push_cast
      linarith

/-- **C186**: the work ends: points are taken at most as often as the budget, one batch for each worker and the points lost with their workers allow. -/
theorem c186_ends (cfg : Cfg K) (asks : OptState P K → List P → Prop) (es : List (WorkerEvent W P K)) (s : Workers W P K) (h : WorkerRun cfg asks es s) (b : ℤ)
    (hb : cfg.maxFEs = some b) (q : ℕ) (hq : TakesAtMost q es) :
    ((takes es : ℕ) : ℤ) ≤ max 0 (b - 1 + W * q) + (lostPoints es).length := by
  have h1 := c186_budget cfg asks es s h b hb q hq
  have h2 := (c186_conserved cfg asks es s h).length_eq
  have h3 : takes es ≤ (takenPoints es).length := by
    clear h1 h2 hq
    induction h with
    | start => exact Nat.zero_le _
    | @step es s e s' hrun hst ih =>
      unfold takes takenPoints at *
      rw [List.filter_append, List.length_append, List.flatMap_append, List.length_append]
      refine Nat.add_le_add ih ?_
      cases hst with
      | take h1 h2 h3 h4 =>
        have := List.length_pos_iff.mpr h4
        simp
        omega
      | rest h1 => simp
      | deliver h1 h2 => simp
      | die h1 => simp
  simp only [List.length_append] at h2
  push_cast at h1
  have h4 : ((takes es : ℕ) : ℤ) ≤ ((takenPoints es).length : ℤ) := by exact_mod_cast h3
  have h5 : ((takenPoints es).length : ℤ) = (deliveredPoints es).length + (lostPoints es).length + (inWork s).length := by exact_mod_cast h2
  linarith

/-! ### Points evaluated twice -/

/-- **C186, partial**: without noise, no worker gets a point whose value has been recorded.  Points that other workers are evaluating are not excluded, see below. -/
theorem c186_new_points_partial (cfg : Cfg K) (vars : Vars) (es : List (WorkerEvent W Row K)) (w : Fin W) (X : List Row) (s : Workers W Row K)
    (h : WorkerRun cfg (boAsks vars) (es ++ [.take w X]) s) : ∀ x ∈ X, ∀ p ∈ deliveredValues es, Differs (vars.map Prod.snd) x p.1 := by
  generalize hes : es ++ [WorkerEvent.take w X] = es' at h
  cases h with
  | start => simp at hes
  | @step es1 s1 e s2 hrun hst =>
    obtain ⟨rfl, he⟩ := List.append_inj' hes rfl
    simp only [List.cons.injEq, and_true] at he
    subst he
    cases hst with
    | take h1 h2 h3 h4 =>
      obtain ⟨st, best, sample, hv, hd, hask⟩ := h3
      intro x hx p hp
      rw [← (c186_recorded cfg _ es s1 hrun).1] at hp
      obtain ⟨r, hr, rfl⟩ := List.mem_map.mp hp
      have hdata := (checkStop_frame cfg s1.opt).1
      rw [h2] at hdata
      have := c15_differs_from_recorded st none none best sample X hask x hx r.x (by
        rw [hd, hdata]
        exact List.mem_map_of_mem hr)
      rwa [hv] at this

/-- **C186 refuted**: that no point is evaluated twice.  Two workers that ask before either delivers can get the same point, and both values are recorded. -/
theorem c186_same_point_refuted :
    ∃ (vars : Vars) (es : List (WorkerEvent 2 Row ℚ)) (s : Workers 2 Row ℚ),
      WorkerRun { minimize := true, maxFEs := some 5, ftarget := none } (boAsks vars) es s ∧ deliveredValues es = [([.int 3], 1), ([.int 3], 1)] := by
  let vars : Vars := [("i", .integer { lo := 0, hi := 9 })]
  let cfg : Cfg ℚ := { minimize := true, maxFEs := some 5, ftarget := none }
  have hask : ∀ s : OptState Row ℚ, s.data = none → boAsks vars s [[.int 3]] := by
    intro s hs
    refine ⟨{ vars := vars, data := [], fitted := false, parallel := false, nPoint := 1, doeSize := 1 }, fun _ => [], fun _ _ => [[.int 3]], rfl, by simp [hs], ?_⟩
    simp [ask, askPoints, liftShape, createDoE, doeLoop, fillin, fillRow, roundRow, roundVal, vars, preEvalCheck_singleton, Except.bind, List.lookup]
  have h0 : WorkerRun cfg (boAsks vars) [] ({} : Workers 2 Row ℚ) := .start
  have h1 := h0.step (.take (w := 0) (X := [[.int 3]]) rfl (by rfl) (hask _ (by rfl)) (by simp))
  have h2 := h1.step (.take (w := 1) (X := [[.int 3]]) (by simp) (by rfl) (hask _ (by rfl)) (by simp))
  have h3 := h2.step (.deliver (w := 0) (X := [[.int 3]]) (vals := [.fin 1]) (o := {}) (by simp [Function.update_of_ne]) rfl)
  have h4 := h3.step (.deliver (w := 1) (X := [[.int 3]]) (vals := [.fin 1]) (o := {}) (by simp [Function.update_of_ne]) rfl)
  exact ⟨vars, _, _, h4, by simp [deliveredValues, finitePart]⟩

/-- Non-vacuity: one worker delivers point 3 while the other one works on point 3 too; then the first gets a new point and the second is lost. -/
theorem c186_concrete :
    ∃ (vars : Vars) (es : List (WorkerEvent 2 Row ℚ)) (s t : Workers 2 Row ℚ),
      WorkerRun { minimize := true, maxFEs := some 5, ftarget := none } (boAsks vars) (es ++ [.take 0 [[.int 4]]]) s ∧
        WorkerRun { minimize := true, maxFEs := some 5, ftarget := none } (boAsks vars) (es ++ [.take 0 [[.int 4]]] ++ [.die 1 [[.int 3]]]) t ∧
        deliveredValues es = [([.int 3], 1)] ∧ inWork s = [[.int 4], [.int 3]] ∧ inWork t = [[.int 4]] := by
  let vars : Vars := [("i", .integer { lo := 0, hi := 9 })]
  let cfg : Cfg ℚ := { minimize := true, maxFEs := some 5, ftarget := none }
  have hask : ∀ s : OptState Row ℚ, s.data = none → boAsks vars s [[.int 3]] := by
    intro s hs
    refine ⟨{ vars := vars, data := [], fitted := false, parallel := false, nPoint := 1, doeSize := 1 }, fun _ => [], fun _ _ => [[.int 3]], rfl, by simp [hs], ?_⟩
    simp [ask, askPoints, liftShape, createDoE, doeLoop, fillin, fillRow, roundRow, roundVal, vars, preEvalCheck_singleton, Except.bind, List.lookup]
  have hcheck : preEvalCheck [Kind.integer { lo := 0, hi := 9 }] [[.int 3]] [[.int 4]] = [[.int 4]] := by
    simp [preEvalCheck, List.range_succ, matchesRow, categoricalIds, typeIds, Kind.vtype]
  have hask' : ∀ s : OptState Row ℚ, (s.data.getD []).map Rec.x = [[.int 3]] → boAsks vars s [[.int 4]] := by
    intro s hs
    refine ⟨{ vars := vars, data := [[.int 3]], fitted := false, parallel := false, nPoint := 1, doeSize := 1 }, fun _ => [], fun _ _ => [[.int 4]], rfl, hs.symm, ?_⟩
    simp [ask, askPoints, liftShape, createDoE, doeLoop, fillin, fillRow, roundRow, roundVal, vars, hcheck, Except.bind, List.lookup]
  have h0 : WorkerRun cfg (boAsks vars) [] ({} : Workers 2 Row ℚ) := .start
  have h1 := h0.step (.take (w := 0) (X := [[.int 3]]) rfl (by rfl) (hask _ (by rfl)) (by simp))
  have h2 := h1.step (.take (w := 1) (X := [[.int 3]]) (by simp) (by rfl) (hask _ (by rfl)) (by simp))
  have h3 := h2.step (.deliver (w := 0) (X := [[.int 3]]) (vals := [.fin 1]) (o := {}) (by simp [Function.update_of_ne]) rfl)
  have h4 := h3.step (.take (w := 0) (X := [[.int 4]]) (by simp) (by rfl) (hask' _ (by rfl)) (by simp))
  have h5 := h4.step (.die (w := 1) (X := [[.int 3]]) (by simp [Function.update_of_ne]))
  exact ⟨vars, _, _, _, h4, h5, by simp [deliveredValues, finitePart], by simp [inWork, List.finRange_succ, Function.update_of_ne],
    by simp [inWork, List.finRange_succ, Function.update_of_ne]⟩

/-! ### The bound is reached -/

/-- **C186**: the bound on the evaluations cannot be improved: for every number of workers, batch size and budget there is an order of events in which exactly `b - 1 + W q` points
are evaluated. -/
theorem c186_budget_reached (W q b : ℕ) (hW : 0 < W) (hq : 0 < q) (hb : 0 < b) :
    ∃ (es : List (WorkerEvent W ℕ ℚ)) (s : Workers W ℕ ℚ), WorkerRun { minimize := true, maxFEs := some (b : ℤ), ftarget := none } (fun _ _ => True) es s ∧ TakesAtMost q es ∧
      (deliveredPoints es).length = b - 1 + W * q := by
  let cfg : Cfg ℚ := { minimize := true, maxFEs := some (b : ℤ), ftarget := none }
  have hstop : ∀ s : OptState ℕ ℚ, s.stopMaxFEs = none → s.stopFtarget = none → s.evalCount < b → checkStop cfg s = (s, .ok false) := by
    intro s h1 h2 h3
    have : ¬ ((s.evalCount : ℤ) ≥ (b : ℤ)) := by push_cast; omega
    have hcb : checkBudget cfg s = s := by simp only [checkBudget, cfg, if_neg this]
    simp [checkStop, hcb, cfg, stopFlag, h1, h2]
  have htell : ∀ (s : OptState ℕ ℚ) (X : List ℕ) (vals : List (Obs ℚ)), s.stopMaxFEs = none → s.stopFtarget = none →
      (tell cfg s { X := X, vals := vals }).1.stopMaxFEs = none ∧ (tell cfg s { X := X, vals := vals }).1.stopFtarget = none := by
    intro s X vals h1 h2
    have := tell_spec cfg s { X := X, vals := vals }
    exact ⟨this.2.1.trans h1, this.2.2.1.trans h2⟩
  have hmem : ∀ {es : List (WorkerEvent W ℕ ℚ)} {w : Fin W} {X : List ℕ}, TakesAtMost q es → X.length ≤ q → TakesAtMost q (es ++ [.take w X]) := by
    intro es w X h hX w' X' hm
    rcases List.mem_append.mp hm with hm | hm
    · exact h w' X' hm
    · simp only [List.mem_singleton, WorkerEvent.take.injEq] at hm
      rw [hm.2]
      exact hX
  have hmem' : ∀ {es : List (WorkerEvent W ℕ ℚ)} {w : Fin W} {X : List ℕ} {vals : List (Obs ℚ)} {o : TellOracle}, TakesAtMost q es → TakesAtMost q (es ++ [.deliver w X vals o]) := by
    intro es w X vals o h w' X' hm
    rcases List.mem_append.mp hm with hm | hm
    · exact h w' X' hm
    · simp at hm
  have hlen : ∀ (es : List (WorkerEvent W ℕ ℚ)) (e : WorkerEvent W ℕ ℚ), (deliveredPoints (es ++ [e])).length = (deliveredPoints es).length + (deliveredPoints [e]).length := by
    intro es e
    unfold deliveredPoints
    rw [List.flatMap_append, List.length_append]
  -- one worker evaluates `b - 1` points, one at a time
  have p1 : ∀ n, n ≤ b - 1 → ∃ (es : List (WorkerEvent W ℕ ℚ)) (s : Workers W ℕ ℚ), WorkerRun cfg (fun _ _ => True) es s ∧ TakesAtMost q es ∧ (deliveredPoints es).length = n ∧
      (∀ w, s.inHand w = none) ∧ s.opt.stopMaxFEs = none ∧ s.opt.stopFtarget = none := by
    intro n
    induction n with
    | zero => intro _; exact ⟨[], {}, .start, fun w X hm => by simp at hm, rfl, fun _ => rfl, rfl, rfl⟩
    | succ n ih =>
      intro hn
      obtain ⟨es, s, h, hq', hl, hw, hs1, hs2⟩ := ih (by omega)
      have hc := (c186_recorded cfg _ es s h).2.1
      have h1 := h.step (.take (w := ⟨0, hW⟩) (X := [0]) (hw _) (hstop s.opt hs1 hs2 (by omega)) trivial (by simp))
      have h2 := h1.step (.deliver (w := ⟨0, hW⟩) (X := [0]) (vals := [.nan]) (o := {}) (by simp) rfl)
      refine ⟨_, _, h2, hmem' (hmem hq' hq), ?_, ?_, (htell _ _ _ hs1 hs2).1, (htell _ _ _ hs1 hs2).2⟩
      · rw [hlen, hlen, hl]
        simp [deliveredPoints]
      · intro w
        simp only [Function.update_idem]
        by_cases hw' : w = ⟨0, hW⟩
        · subst hw'; simp
        · rw [Function.update_of_ne hw']; exact hw w
  obtain ⟨es0, s0, h0, hq0, hl0, hw0, hs1, hs2⟩ := p1 (b - 1) le_rfl
  -- all workers take `q` points
  have p2 : ∀ k, k ≤ W → ∃ (es : List (WorkerEvent W ℕ ℚ)) (s : Workers W ℕ ℚ), WorkerRun cfg (fun _ _ => True) es s ∧ TakesAtMost q es ∧ (deliveredPoints es).length = b - 1 ∧
      (∀ w : Fin W, s.inHand w = if w.val < k then some (List.replicate q 0) else none) ∧ s.opt.stopMaxFEs = none ∧ s.opt.stopFtarget = none := by
    intro k
    induction k with
    | zero => intro _; exact ⟨es0, s0, h0, hq0, hl0, fun w => by simpa using hw0 w, hs1, hs2⟩
    | succ k ih =>
      intro hk
      obtain ⟨es, s, h, hq', hl, hw, hs1, hs2⟩ := ih (by omega)
      have hc := (c186_recorded cfg _ es s h).2.1
      have h1 := h.step (.take (w := ⟨k, hk⟩) (X := List.replicate q 0) (by simp [hw]) (hstop s.opt hs1 hs2 (by omega)) trivial (by simp; omega))
      refine ⟨_, _, h1, hmem hq' (by simp), ?_, ?_, hs1, hs2⟩
      · rw [hlen, hl]
        simp [deliveredPoints]
      · intro w
        by_cases hw' : w = ⟨k, hk⟩
        · subst hw'; simp
        · simp only [Function.update_of_ne hw']
          rw [hw]
          have : w.val ≠ k := fun h => hw' (Fin.ext h)
          by_cases hlt : w.val < k
          · rw [if_pos hlt, if_pos (by omega)]
          · rw [if_neg hlt, if_neg (by omega)]
  obtain ⟨es1, s1, h1, hq1, hl1, hw1, hs1, hs2⟩ := p2 W le_rfl
  -- and deliver them
  have p3 : ∀ k, k ≤ W → ∃ (es : List (WorkerEvent W ℕ ℚ)) (s : Workers W ℕ ℚ), WorkerRun cfg (fun _ _ => True) es s ∧ TakesAtMost q es ∧ (deliveredPoints es).length = b - 1 + k * q ∧
      ∀ w : Fin W, k ≤ w.val → s.inHand w = some (List.replicate q 0) := by
    intro k
    induction k with
    | zero => intro _; exact ⟨es1, s1, h1, hq1, by simpa using hl1, fun w _ => by rw [hw1, if_pos w.isLt]⟩
    | succ k ih =>
      intro hk
      obtain ⟨es, s, h, hq', hl, hw⟩ := ih (by omega)
      have h1 := h.step (.deliver (w := ⟨k, hk⟩) (X := List.replicate q 0) (vals := List.replicate q .nan) (o := {}) (hw _ le_rfl) (by simp))
      refine ⟨_, _, h1, hmem' hq', ?_, fun w hkw => ?_⟩
      · rw [hlen, hl]
        simp [deliveredPoints, Nat.succ_mul]
        omega
      · have hw' : w ≠ ⟨k, hk⟩ := fun h => by rw [h] at hkw; simp at hkw
        simp only [Function.update_of_ne hw']
        exact hw w (by omega)
  obtain ⟨es, s, h, hq', hl, -⟩ := p3 W le_rfl
  exact ⟨es, s, h, hq', hl⟩

/-- **C186, one worker**: `run()` is the program with a single worker: whatever state a run reaches or ends in, that worker can bring the optimiser into it.  So all of the above holds for
`run()`. -/
theorem c186_run_is_one_worker (cfg : Cfg K) (inp : ℕ → StepIn P K) (hin : ∀ i, (inp i).vals.length = (inp i).batch.length) (fuel : ℕ) :
    ∃ es : List (WorkerEvent 1 P K), WorkerRun cfg (fun _ X => ∃ i, X = (inp i).batch) es ⟨finalState (run cfg inp fuel 0 {}), fun _ => none⟩ := by
  have key : ∀ (fuel i : ℕ) (s : OptState P K) (es : List (WorkerEvent 1 P K)), WorkerRun cfg (fun _ X => ∃ i, X = (inp i).batch) es ⟨s, fun _ => none⟩ →
      ∃ es' : List (WorkerEvent 1 P K), WorkerRun cfg (fun _ X => ∃ i, X = (inp i).batch) es' ⟨finalState (run cfg inp fuel i s), fun _ => none⟩ := by
    intro fuel
    induction fuel with
    | zero => intro i s es h; exact ⟨es, h⟩
    | succ fuel ih =>
      intro i s es h
      have hrest := h.step (.rest (w := 0) rfl)
      unfold run
      rcases hc : checkStop cfg s with ⟨s', r⟩
      simp only [hc] at hrest
      cases r with
      | error e => exact ⟨_, hrest⟩
      | ok b =>
        cases b with
        | true =>
          simp only
          cases xopt cfg s' with
          | error e => exact ⟨_, hrest⟩
          | ok o => cases o <;> exact ⟨_, hrest⟩
        | false =>
          simp only
          by_cases hb : (inp i).batch.isEmpty = true
          · rw [if_pos hb]
            exact ⟨_, hrest⟩
          · rw [if_neg hb]
            have htake := h.step (.take (w := 0) (X := (inp i).batch) rfl hc ⟨i, rfl⟩ (by simpa using hb))
            have hdel := htake.step (.deliver (w := 0) (X := (inp i).batch) (vals := (inp i).vals) (o := (inp i).oracle) (by simp) (hin i))
            have hn : Function.update (Function.update (fun _ : Fin 1 => (none : Option (List P))) 0 (some (inp i).batch)) 0 none = fun _ => none := by
              funext w
              rw [Subsingleton.elim w 0]
              simp
            simp only [hn] at hdel
            rcases ht : tell cfg s' { X := (inp i).batch, vals := (inp i).vals, oracle := (inp i).oracle } with ⟨s'', r⟩
            rw [ht] at hdel
            cases r with
            | error e => exact ⟨_, hdel⟩
            | ok u => exact ih (i + 1) s'' _ hdel
  exact key fuel 0 {} [] .start

end Verif.Props
