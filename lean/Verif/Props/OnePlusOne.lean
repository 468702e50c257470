import Verif.Spec.OnePlusOne
import Verif.Proofs.BoxConstraint
import Verif.Proofs.Variables
import Verif.Proofs.Sampling

/-! # C32, C64: the (1+1)-CMA-ES -/
namespace Verif.Props
open Verif.Model Verif.Spec Verif.Proofs

variable {n : ℕ}

private theorem good_iff (cfg : CmaCfg n) (a b : ℝ) : cfg.better a b = true ↔ CmaGood cfg.minimize a b := by
  unfold CmaCfg.better CmaGood
  cases cfg.minimize <;> simp

private theorem good_refl (m : Bool) (a : ℝ) : CmaGood m a a := by unfold CmaGood; cases m <;> simp
private theorem good_trans {m : Bool} {a b c : ℝ} (h1 : CmaGood m a b) (h2 : CmaGood m b c) :
    CmaGood m a c := by
  unfold CmaGood at *
  cases m
  · simp only [Bool.false_eq_true, if_false] at *; linarith
  · simp only [if_true] at *; linarith
private theorem good_total {m : Bool} {a b : ℝ} (h : ¬ CmaGood m a b) : CmaGood m b a := by
  unfold CmaGood at *
  cases m
  · simp only [Bool.false_eq_true, if_false] at *; linarith
  · simp only [if_true] at *; linarith

/-- Everything that is preserved by telling a point of the box. -/
private structure Inv (cfg : CmaCfg n) (s : CmaState n) : Prop where
  box : InBox cfg s.x ∧ ∀ e ∈ s.told, InBox cfg e.x
  best : ∃ xopt fopt fpen first rest, s.best = some (xopt, fopt, fpen) ∧ s.told = first :: rest ∧
    (∀ e ∈ s.told, CmaGood cfg.minimize fpen (e.y + e.pen)) ∧ (∃ e ∈ s.told, fpen = e.y + e.pen) ∧
    (∃ e ∈ s.told, xopt = e.x ∧ fopt = e.y ∧ (e.pen = 0 ∨ e = first))
  values : ∀ e ∈ s.told, e.y = cfg.objective e.x ∧ ∃ t, e.pen = cfg.penalty t e.x

private theorem tell_inv (cfg : CmaCfg n) (s : CmaState n) (x : Fin n → ℝ) (y pen : ℝ) (hx : InBox cfg x)
    (hy : y = cfg.objective x) (hp : ∃ t, pen = cfg.penalty t x) (hs : Inv cfg s) :
    Inv cfg (cmaTell cfg s x y pen) := by
  unfold cmaTell
  by_cases hst : s.stop = true
  · rw [if_pos hst]; exact hs
  rw [if_neg hst]
  obtain ⟨xopt, fopt, fpen, first, rest, hb, ht, hall, hex, hxo⟩ := hs.best
  simp only [hb]
  refine ⟨⟨?_, ?_⟩, ?_, ?_⟩
  · dsimp only
    split
    · exact hx
    · exact hs.box.1
  · intro e he
    rcases List.mem_append.mp he with h | h
    · exact hs.box.2 e h
    · rw [List.mem_singleton] at h; rw [h]; exact hx
  · refine ⟨_, _, _, first, rest ++ [⟨x, y, pen⟩], rfl, by simp [ht], ?_, ?_, ?_⟩
    · intro e he
      by_cases hsu : cfg.better (y + pen) fpen = true
      · rw [if_pos hsu]
        rcases List.mem_append.mp he with h | h
        · exact good_trans ((good_iff _ _ _).mp hsu) (hall e h)
        · rw [List.mem_singleton] at h; rw [h]; exact good_refl _ _
      · rw [if_neg hsu]
        rcases List.mem_append.mp he with h | h
        · exact hall e h
        · rw [List.mem_singleton] at h; rw [h]
          rw [good_iff] at hsu
          exact good_total hsu
    · by_cases hsu : cfg.better (y + pen) fpen = true
      · simp only [if_pos hsu]
        exact ⟨⟨x, y, pen⟩, by simp, rfl⟩
      · simp only [if_neg hsu]
        obtain ⟨e, he, h⟩ := hex
        exact ⟨e, by simp [he], h⟩
    · by_cases hsu : cfg.better (y + pen) fpen = true ∧ pen = 0
      · rw [if_pos hsu, if_pos hsu]
        exact ⟨⟨x, y, pen⟩, by simp, rfl, rfl, Or.inl hsu.2⟩
      · rw [if_neg hsu, if_neg hsu]
        obtain ⟨e, he, h⟩ := hxo
        exact ⟨e, by simp [he], h⟩
  · intro e he
    rcases List.mem_append.mp he with h | h
    · exact hs.values e h
    · rw [List.mem_singleton] at h; rw [h]; exact ⟨hy, hp⟩

private theorem evaluate_inv (cfg : CmaCfg n) (s : CmaState n) (x : Fin n → ℝ) (hx : InBox cfg x) (hs : Inv cfg s) :
    Inv cfg (cmaEvaluate cfg s x) :=
  tell_inv cfg _ x _ _ hx rfl ⟨_, rfl⟩ ⟨hs.box, hs.best, hs.values⟩

private theorem checkStop_same (cfg : CmaCfg n) (b : Bool) (s : CmaState n) :
    (cmaCheckStop cfg b s).x = s.x ∧ (cmaCheckStop cfg b s).best = s.best ∧ (cmaCheckStop cfg b s).told = s.told ∧
    (cmaCheckStop cfg b s).evalCount = s.evalCount ∧ (cmaCheckStop cfg b s).nRestart = s.nRestart ∧
    (cmaCheckStop cfg b s).restarts = s.restarts := by
  unfold cmaCheckStop
  dsimp only
  split
  · simp
  · split <;> simp

private theorem checkStop_inv (cfg : CmaCfg n) (b : Bool) (s : CmaState n) (hs : Inv cfg s) :
    Inv cfg (cmaCheckStop cfg b s) := by
  obtain ⟨h1, h2, h3, -⟩ := checkStop_same cfg b s
  exact ⟨by rw [h1, h3]; exact hs.box, by rw [h2, h3]; exact hs.best, by rw [h3]; exact hs.values⟩

private theorem ask_inBox (cfg : CmaCfg n) (hb : ∀ i, (cfg.vars i).lo < (cfg.vars i).hi) (m : Fin n → ℝ) :
    InBox cfg (cmaAsk cfg m) :=
  fun i => round_contains (cfg.vars i) (hb i).le (reflect_mem (hb i) (m i))

private theorem sample_inBox (cfg : CmaCfg n) (hb : ∀ i, (cfg.vars i).lo < (cfg.vars i).hi) (u : Fin n → ℝ)
    (hu : ∀ i, 0 ≤ u i ∧ u i ≤ 1) : InBox cfg (cmaSample cfg u) := by
  intro i
  have h1 := hb i
  obtain ⟨h2, h3⟩ := hu i
  unfold cmaSample
  constructor <;> nlinarith

private theorem step_inv (cfg : CmaCfg n) (hb : ∀ i, (cfg.vars i).lo < (cfg.vars i).hi) (w : CmaNoise n)
    (hw : CmaNoiseOk w) (s : CmaState n) (hs : Inv cfg s) : Inv cfg (cmaStep cfg w s) := by
  have h := checkStop_inv cfg w.stag _ (evaluate_inv cfg s _ (ask_inBox cfg hb (w.mutant s.x)) hs)
  unfold cmaStep cmaRestart
  split
  · have h' := evaluate_inv cfg _ _ (sample_inBox cfg hb w.u hw)
      (⟨⟨sample_inBox cfg hb w.u hw, h.box.2⟩, h.best, h.values⟩ :
        Inv cfg { cmaCheckStop cfg w.stag (cmaEvaluate cfg s (cmaAsk cfg (w.mutant s.x))) with
          x := cmaSample cfg w.u })
    exact ⟨h'.box, h'.best, h'.values⟩
  · exact h

private theorem init_inv (cfg : CmaCfg n) (x0 : Fin n → ℝ) (r : ℤ) (s0 : CmaState n)
    (h : cmaInit cfg x0 r = some s0) : Inv cfg s0 := by
  unfold cmaInit at h
  split at h
  · rename_i hx
    obtain rfl := Option.some.inj h
    refine ⟨⟨hx, ?_⟩, ?_, ?_⟩
    · intro e he
      simp only [cmaSetX, cmaEvaluate, cmaTell, cmaEmpty] at he
      simp at he
      rw [he]; exact hx
    · exact ⟨x0, _, _, ⟨x0, cfg.objective x0, cfg.penalty 1 x0⟩, [], rfl, rfl, by
        intro e he
        simp only [cmaSetX, cmaEvaluate, cmaTell, cmaEmpty] at he
        simp at he
        rw [he]; exact good_refl _ _, ⟨_, List.mem_singleton.mpr rfl, rfl⟩,
        ⟨_, List.mem_singleton.mpr rfl, rfl, rfl, Or.inr rfl⟩⟩
    · intro e he
      simp only [cmaSetX, cmaEvaluate, cmaTell, cmaEmpty] at he
      simp at he
      rw [he]; exact ⟨rfl, _, rfl⟩
  · cases h

private theorem steps_inv (cfg : CmaCfg n) (hb : ∀ i, (cfg.vars i).lo < (cfg.vars i).hi) (ws : List (CmaNoise n))
    (hw : ∀ w ∈ ws, CmaNoiseOk w) (s : CmaState n) (hs : Inv cfg s) : Inv cfg (cmaSteps cfg ws s) := by
  induction ws generalizing s with
  | nil => exact hs
  | cons w ws ih =>
    exact ih (fun w' h => hw w' (List.mem_cons_of_mem _ h)) _ (step_inv cfg hb w (hw w List.mem_cons_self) s hs)

private theorem reach_inv (cfg : CmaCfg n) (hb : ∀ i, (cfg.vars i).lo < (cfg.vars i).hi) (r : ℤ) (s : CmaState n)
    (h : CmaReachable cfg r s) : Inv cfg s := by
  obtain ⟨x0, s0, ws, h0, hw, rfl⟩ := h
  exact steps_inv cfg hb ws hw s0 (init_inv cfg x0 r s0 h0)

/-- C32: whatever mutant is drawn, the asked point lies in the box, and so do the parent and every processed point in every
reachable state; each processed point carries its own objective value. -/
theorem c32_in_box (cfg : CmaCfg n) (hb : ∀ i, (cfg.vars i).lo < (cfg.vars i).hi) (r : ℤ) (s : CmaState n)
    (h : CmaReachable cfg r s) :
    (∀ m, InBox cfg (cmaAsk cfg m)) ∧ InBox cfg s.x ∧ (∀ e ∈ s.told, InBox cfg e.x ∧ e.y = cfg.objective e.x) := by
  have hi := reach_inv cfg hb r s h
  exact ⟨ask_inBox cfg hb, hi.box.1, fun e he => ⟨hi.box.2 e he, (hi.values e he).1⟩⟩

/-- C32: in every reachable state, restarts included, the recorded penalised value is attained by a processed point and is at
least as good as the penalised value of every processed point, so it never gets worse. -/
theorem c32_elitist (cfg : CmaCfg n) (hb : ∀ i, (cfg.vars i).lo < (cfg.vars i).hi) (r : ℤ) (s : CmaState n)
    (h : CmaReachable cfg r s) :
    ∃ xopt fopt fpen, s.best = some (xopt, fopt, fpen) ∧ (∃ e ∈ s.told, fpen = e.y + e.pen) ∧
      ∀ e ∈ s.told, CmaGood cfg.minimize fpen (e.y + e.pen) := by
  obtain ⟨xopt, fopt, fpen, first, rest, hb, ht, hall, hex, hxo⟩ := (reach_inv cfg hb r s h).best
  exact ⟨xopt, fopt, fpen, hb, hex, hall⟩

/-- C32: in every reachable state, `xopt` and `fopt` are a processed point and its objective value, and unless it is the
very first point its penalty was zero. -/
theorem c32_xopt_feasible (cfg : CmaCfg n) (hb : ∀ i, (cfg.vars i).lo < (cfg.vars i).hi) (r : ℤ) (s : CmaState n)
    (h : CmaReachable cfg r s) :
    ∃ xopt fopt fpen, s.best = some (xopt, fopt, fpen) ∧ InBox cfg xopt ∧ fopt = cfg.objective xopt ∧
      ∃ e ∈ s.told, xopt = e.x ∧ fopt = e.y ∧ (e.pen = 0 ∨ s.told.head? = some e) := by
  have hi := reach_inv cfg hb r s h
  obtain ⟨xopt, fopt, fpen, first, rest, hbe, ht, hall, hex, e, he, h1, h2, h3⟩ := hi.best
  refine ⟨xopt, fopt, fpen, hbe, ?_, ?_, e, he, h1, h2, ?_⟩
  · rw [h1]; exact hi.box.2 e he
  · rw [h1, h2]; exact (hi.values e he).1
  · rcases h3 with h3 | h3
    · exact Or.inl h3
    · right; rw [ht, h3]; rfl

/-- C32: one call of `tell`: the recorded penalised value does not get worse, and `xopt`, `fopt` stay as they are unless the
told point has penalty zero and is at least as good as the recorded penalised value; the parent moves only to a point that
is at least as good. -/
theorem c32_tell (cfg : CmaCfg n) (s : CmaState n) (x xopt : Fin n → ℝ) (y pen fopt fpen : ℝ)
    (hb : s.best = some (xopt, fopt, fpen)) :
    ∃ xopt' fopt' fpen', (cmaTell cfg s x y pen).best = some (xopt', fopt', fpen') ∧
      CmaGood cfg.minimize fpen' fpen ∧
      ((xopt' = xopt ∧ fopt' = fopt) ∨
        (xopt' = x ∧ fopt' = y ∧ pen = 0 ∧ CmaGood cfg.minimize y fpen)) ∧
      ((cmaTell cfg s x y pen).x = s.x ∨
        ((cmaTell cfg s x y pen).x = x ∧ fpen' = y + pen ∧ CmaGood cfg.minimize (y + pen) fpen)) := by
  unfold cmaTell
  by_cases hst : s.stop = true
  · rw [if_pos hst]
    exact ⟨xopt, fopt, fpen, hb, good_refl _ _, Or.inl ⟨rfl, rfl⟩, Or.inl rfl⟩
  · rw [if_neg hst]
    simp only [hb]
    refine ⟨_, _, _, rfl, ?_, ?_, ?_⟩
    · split
      · rename_i h; exact (good_iff _ _ _).mp h
      · exact good_refl _ _
    · by_cases hsu : cfg.better (y + pen) fpen = true ∧ pen = 0
      · rw [if_pos hsu, if_pos hsu]
        have := (good_iff _ _ _).mp hsu.1
        rw [hsu.2, add_zero] at this
        exact Or.inr ⟨rfl, rfl, hsu.2, this⟩
      · rw [if_neg hsu, if_neg hsu]
        exact Or.inl ⟨rfl, rfl⟩
    · by_cases hsu : cfg.better (y + pen) fpen = true
      · simp only [if_pos hsu]
        exact Or.inr ⟨trivial, trivial, (good_iff _ _ _).mp hsu⟩
      · simp only [if_neg hsu]
        exact Or.inl trivial

/-- C32: without constraints (all penalties zero) `xopt`, `fopt` are the best processed point and its value. -/
theorem c32_unconstrained_best (cfg : CmaCfg n) (hb : ∀ i, (cfg.vars i).lo < (cfg.vars i).hi)
    (hp : ∀ t x, cfg.penalty t x = 0) (r : ℤ) (s : CmaState n) (h : CmaReachable cfg r s) :
    ∃ xopt fopt fpen, s.best = some (xopt, fopt, fpen) ∧ fopt = cfg.objective xopt ∧ (∃ e ∈ s.told, xopt = e.x) ∧
      ∀ e ∈ s.told, CmaGood cfg.minimize fopt (cfg.objective e.x) := by
  have key : ∀ s : CmaState n, Inv cfg s → (∃ xopt fopt, s.best = some (xopt, fopt, fopt)) →
      ∀ x, InBox cfg x → ∃ xopt fopt, (cmaEvaluate cfg s x).best = some (xopt, fopt, fopt) := by
    rintro s hi ⟨xopt, fopt, hs⟩ x hx
    unfold cmaEvaluate cmaTell
    dsimp only
    split
    · exact ⟨xopt, fopt, hs⟩
    · simp only [hs, hp, add_zero, and_true]
      by_cases hsu : cfg.better (cfg.objective x) fopt = true
      · exact ⟨x, cfg.objective x, by simp [hsu]⟩
      · exact ⟨xopt, fopt, by simp [hsu]⟩
  have hstep : ∀ (ws : List (CmaNoise n)), (∀ w ∈ ws, CmaNoiseOk w) → ∀ s : CmaState n, Inv cfg s →
      (∃ xopt fopt, s.best = some (xopt, fopt, fopt)) →
      ∃ xopt fopt, (cmaSteps cfg ws s).best = some (xopt, fopt, fopt) := by
    intro ws
    induction ws with
    | nil => intro _ s _ h; exact h
    | cons w ws ih =>
      intro hw s hi h
      refine ih (fun w' h => hw w' (List.mem_cons_of_mem _ h)) _
        (step_inv cfg hb w (hw w List.mem_cons_self) s hi) ?_
      have h1 := key s hi h (cmaAsk cfg (w.mutant s.x)) (ask_inBox cfg hb _)
      have hi1 := evaluate_inv cfg s _ (ask_inBox cfg hb (w.mutant s.x)) hi
      have hi2 := checkStop_inv cfg w.stag _ hi1
      obtain ⟨-, h2, -⟩ := checkStop_same cfg w.stag (cmaEvaluate cfg s (cmaAsk cfg (w.mutant s.x)))
      have hu := sample_inBox cfg hb w.u (hw w List.mem_cons_self)
      unfold cmaStep cmaRestart
      split
      · exact key { cmaCheckStop cfg w.stag (cmaEvaluate cfg s (cmaAsk cfg (w.mutant s.x))) with
            x := cmaSample cfg w.u } ⟨⟨hu, hi2.box.2⟩, hi2.best, hi2.values⟩ (by rw [← h2] at h1; exact h1) _ hu
      · rw [h2]; exact h1
  obtain ⟨x0, s0, ws, h0, hw, rfl⟩ := h
  have hi0 := init_inv cfg x0 r s0 h0
  have hs0 : ∃ xopt fopt, s0.best = some (xopt, fopt, fopt) := by
    unfold cmaInit at h0
    split at h0
    · obtain rfl := Option.some.inj h0
      refine ⟨x0, cfg.objective x0, ?_⟩
      simp [cmaSetX, cmaEvaluate, cmaTell, cmaEmpty, hp]
    · cases h0
  have hi := steps_inv cfg hb ws hw s0 hi0
  obtain ⟨xo, fo, hbest⟩ := hstep ws hw s0 hi0 hs0
  obtain ⟨xopt, fopt, fpen, first, rest, hbe, ht, hall, hex, e, he, h1, h2, h3⟩ := hi.best
  rw [hbest] at hbe
  obtain ⟨rfl, rfl, rfl⟩ : xo = xopt ∧ fo = fopt ∧ fo = fpen := by simpa using hbe
  refine ⟨xo, fo, fo, hbest, ?_, ⟨e, he, h1⟩, ?_⟩
  · rw [h1, h2]; exact (hi.values e he).1
  · intro e' he'
    have := hall e' he'
    obtain ⟨hy, t, hpen⟩ := hi.values e' he'
    rwa [hpen, hp, add_zero, hy] at this

/-- What one step does to the recorded values, for any preorder-like invariant of them. -/
private theorem steps_best (cfg : CmaCfg n) (P : (Fin n → ℝ) → ℝ → ℝ → Prop)
    (hP : ∀ xo fo fp x y pen, P xo fo fp → CmaGood cfg.minimize (y + pen) fp →
      P (if pen = 0 then x else xo) (if pen = 0 then y else fo) (y + pen))
    (ws : List (CmaNoise n)) (s : CmaState n) (h : ∃ xo fo fp, s.best = some (xo, fo, fp) ∧ P xo fo fp) :
    ∃ xo fo fp, (cmaSteps cfg ws s).best = some (xo, fo, fp) ∧ P xo fo fp := by
  have key : ∀ (s : CmaState n) x, (∃ xo fo fp, s.best = some (xo, fo, fp) ∧ P xo fo fp) →
      ∃ xo fo fp, (cmaEvaluate cfg s x).best = some (xo, fo, fp) ∧ P xo fo fp := by
    rintro s x ⟨xo, fo, fp, hs, hp⟩
    unfold cmaEvaluate cmaTell
    dsimp only
    split
    · exact ⟨xo, fo, fp, hs, hp⟩
    · simp only [hs]
      by_cases hsu : cfg.better (cfg.objective x + cfg.penalty (s.iterCount + 1) x) fp = true
      · simp only [hsu, true_and, if_true]
        exact ⟨_, _, _, rfl, hP _ _ _ _ _ _ hp ((good_iff _ _ _).mp hsu)⟩
      · simp only [hsu, false_and, if_false]
        exact ⟨_, _, _, rfl, hp⟩
  induction ws generalizing s with
  | nil => exact h
  | cons w ws ih =>
    refine ih _ ?_
    have h1 := key s (cmaAsk cfg (w.mutant s.x)) h
    obtain ⟨-, h2, -⟩ := checkStop_same cfg w.stag (cmaEvaluate cfg s (cmaAsk cfg (w.mutant s.x)))
    unfold cmaStep cmaRestart
    split
    · exact key { cmaCheckStop cfg w.stag (cmaEvaluate cfg s (cmaAsk cfg (w.mutant s.x))) with
        x := cmaSample cfg w.u } (cmaSample cfg w.u) (by rw [← h2] at h1; exact h1)
    · rw [h2]; exact h1

/-- C32: once `fopt` is not better than the recorded penalised value, which is the case after the first feasible improvement
(then both are equal), no later step, restarts included, makes `fopt` worse. -/
theorem c32_fopt_monotone (cfg : CmaCfg n) (ws : List (CmaNoise n)) (s : CmaState n) (xopt : Fin n → ℝ)
    (fopt fpen : ℝ) (hb : s.best = some (xopt, fopt, fpen)) (hf : CmaGood cfg.minimize fpen fopt) :
    ∃ xopt' fopt' fpen', (cmaSteps cfg ws s).best = some (xopt', fopt', fpen') ∧
      CmaGood cfg.minimize fopt' fopt ∧ CmaGood cfg.minimize fpen' fpen := by
  obtain ⟨xo, fo, fp, h1, h2, h3, h4⟩ := steps_best cfg
    (fun _ fo fp => CmaGood cfg.minimize fo fopt ∧ CmaGood cfg.minimize fp fpen ∧
      CmaGood cfg.minimize fp fo) (by
      rintro xo fo fp x y pen ⟨h1, h2, h3⟩ h4
      by_cases hp : pen = 0
      · subst hp
        rw [add_zero] at h4
        simp only [if_true, add_zero]
        exact ⟨good_trans h4 (good_trans h3 h1), good_trans h4 h2, good_refl _ _⟩
      · simp only [hp, if_false]
        exact ⟨h1, good_trans h4 h2, good_trans h4 h3⟩) ws s
    ⟨xopt, fopt, fpen, hb, good_refl _ _, good_refl _ _, hf⟩
  exact ⟨xo, fo, fp, h1, h2, h3⟩

/-! ## Witnesses -/

private noncomputable def wvars : Fin 1 → RealVar := fun _ => { lo := 0, hi := 10 }

private theorem wask (cfg : CmaCfg 1) (hv : cfg.vars = wvars) (v : ℝ) (h0 : 0 ≤ v) (h1 : v ≤ 10) :
    cmaAsk cfg (fun _ => v) = fun _ => v := by
  funext i
  simp only [cmaAsk, hv, wvars, RealVar.round]
  exact reflect_id (by norm_num) h0 h1

private theorem winit (cfg : CmaCfg 1) (hv : cfg.vars = wvars) (r : ℤ) (v : ℝ) (h0 : 0 ≤ v) (h1 : v ≤ 10) :
    cmaInit cfg (fun _ => v) r = some (cmaSetX cfg (cmaEmpty (fun _ => v) r) (fun _ => v)) := by
  unfold cmaInit
  exact if_pos (by intro i; simp only [hv, wvars]; exact ⟨h0, h1⟩)

/-- C32, the natural strengthening fails: a feasible point better than `fopt` can be evaluated without being recorded, because
an infeasible parent with a better penalised value hides it.  Here points 0, 1, 2 are evaluated in this order with
values 5, 0, 2, only point 1 has a penalty (of 1), and the run reports point 0 with value 5 although the feasible point 2 has
value 2. -/
theorem c32_feasible_point_lost :
    ∃ (cfg : CmaCfg 1) (s : CmaState 1), CmaReachable cfg 0 s ∧ cfg.minimize = true ∧
      ∃ xopt fopt fpen, s.best = some (xopt, fopt, fpen) ∧ ∃ e ∈ s.told, e.pen = 0 ∧ e.y < fopt := by
  let cfg : CmaCfg 1 :=
    { vars := wvars, objective := fun x => if x 0 = 0 then 5 else if x 0 = 1 then 0 else 2,
      penalty := fun _ x => if x 0 = 1 then 1 else 0, minimize := true, ftarget := none, maxFEs := 100 }
  let ws : List (CmaNoise 1) := [⟨fun _ _ => 1, false, fun _ => 0⟩, ⟨fun _ _ => 2, false, fun _ => 0⟩]
  have h0 := winit cfg rfl 0 0 le_rfl (by norm_num)
  have h1 := wask cfg rfl 1 (by norm_num) (by norm_num)
  have h2 := wask cfg rfl 2 (by norm_num) (by norm_num)
  refine ⟨cfg, cmaSteps cfg ws (cmaSetX cfg (cmaEmpty (fun _ => 0) 0) (fun _ => 0)),
    ⟨_, _, ws, h0, ?_, rfl⟩, rfl, ?_⟩
  · intro w hw i
    simp only [ws, List.mem_cons, List.not_mem_nil, or_false] at hw
    rcases hw with rfl | rfl <;> norm_num
  · refine ⟨fun _ => 0, 5, 1, ?_, ⟨fun _ => 2, 2, 0⟩, ?_, rfl, by norm_num⟩
    · simp only [ws, cmaSteps, cmaStep, h1, h2]
      norm_num [cfg, cmaSetX, cmaEmpty, cmaEvaluate, cmaTell, cmaCheckStop, cmaHit, cmaFull, cmaRestart, CmaCfg.better]
    · simp only [ws, cmaSteps, cmaStep, h1, h2]
      norm_num [cfg, cmaSetX, cmaEmpty, cmaEvaluate, cmaTell, cmaCheckStop, cmaHit, cmaFull, cmaRestart, CmaCfg.better]

/-- C32, partial (no restarts): the parent is a processed point whose penalised value is the recorded one. -/
theorem c32_parent_partial (cfg : CmaCfg n) (r : ℤ) (hr : r ≤ 0) (s : CmaState n) (h : CmaReachable cfg r s) :
    ∃ xopt fopt fpen, s.best = some (xopt, fopt, fpen) ∧ ∃ e ∈ s.told, e.x = s.x ∧ fpen = e.y + e.pen := by
  have key : ∀ (ws : List (CmaNoise n)) (s : CmaState n), s.restartFlag = false → s.nRestart ≤ 0 →
      (∃ xopt fopt fpen, s.best = some (xopt, fopt, fpen) ∧ ∃ e ∈ s.told, e.x = s.x ∧ fpen = e.y + e.pen) →
      ∃ xopt fopt fpen, (cmaSteps cfg ws s).best = some (xopt, fopt, fpen) ∧
        ∃ e ∈ (cmaSteps cfg ws s).told, e.x = (cmaSteps cfg ws s).x ∧ fpen = e.y + e.pen := by
    intro ws
    induction ws with
    | nil => intro s _ _ h; exact h
    | cons w ws ih =>
      rintro s hf hn ⟨xopt, fopt, fpen, hb, e, he, hex, hfp⟩
      have hstep : cmaStep cfg w s = cmaCheckStop cfg w.stag (cmaEvaluate cfg s (cmaAsk cfg (w.mutant s.x))) := by
        unfold cmaStep cmaRestart
        rw [if_neg]
        have e1 : (cmaEvaluate cfg s (cmaAsk cfg (w.mutant s.x))).restartFlag = false := by
          unfold cmaEvaluate cmaTell
          dsimp only
          split
          · exact hf
          · simp only [hb]; exact hf
        have e2 : ¬ 0 < (cmaEvaluate cfg s (cmaAsk cfg (w.mutant s.x))).nRestart := by
          unfold cmaEvaluate cmaTell
          dsimp only
          split
          · simp only; omega
          · simp only [hb]; omega
        unfold cmaCheckStop
        dsimp only
        split
        · simp [e1]
        · simp [e1]
      have hc := checkStop_same cfg w.stag (cmaEvaluate cfg s (cmaAsk cfg (w.mutant s.x)))
      have hflag : (cmaStep cfg w s).restartFlag = false ∧ (cmaStep cfg w s).nRestart ≤ 0 := by
        rw [hstep]
        have e1 : (cmaEvaluate cfg s (cmaAsk cfg (w.mutant s.x))).restartFlag = false ∧
            (cmaEvaluate cfg s (cmaAsk cfg (w.mutant s.x))).nRestart = s.nRestart := by
          unfold cmaEvaluate cmaTell
          dsimp only
          split
          · exact ⟨hf, rfl⟩
          · simp only [hb]; exact ⟨hf, trivial⟩
        refine ⟨?_, by rw [hc.2.2.2.2.1, e1.2]; exact hn⟩
        unfold cmaCheckStop
        dsimp only
        split
        · exact e1.1
        · rw [if_neg (by omega)]; exact e1.1
      refine ih _ hflag.1 hflag.2 ?_
      rw [hstep, hc.1, hc.2.1, hc.2.2.1]
      unfold cmaEvaluate cmaTell
      dsimp only
      split
      · exact ⟨xopt, fopt, fpen, hb, e, he, hex, hfp⟩
      · simp only [hb]
        refine ⟨_, _, _, rfl, ?_⟩
        by_cases hsu : cfg.better (cfg.objective (cmaAsk cfg (w.mutant s.x)) +
            cfg.penalty (s.iterCount + 1) (cmaAsk cfg (w.mutant s.x))) fpen = true
        · simp only [if_pos hsu]
          exact ⟨⟨_, _, _⟩, List.mem_append_right _ (List.mem_singleton.mpr rfl), rfl, rfl⟩
        · simp only [if_neg hsu]
          exact ⟨e, List.mem_append_left _ he, hex, hfp⟩
  obtain ⟨x0, s0, ws, h0, -, rfl⟩ := h
  unfold cmaInit at h0
  split at h0
  · obtain rfl := Option.some.inj h0
    refine key ws _ rfl (by simp [cmaSetX, cmaEvaluate, cmaTell, cmaEmpty, hr]) ?_
    exact ⟨x0, _, _, rfl, ⟨x0, _, _⟩, List.mem_singleton.mpr rfl, rfl, rfl⟩
  · cases h0

/-- C32 refuted for restarts: after a restart the parent is a random point, but the recorded penalised value is still the old
one, so the parent need not have the recorded value; here it is 5, the recorded one 0. -/
theorem c32_restart_parent_mismatch :
    ∃ (cfg : CmaCfg 1) (s : CmaState 1), CmaReachable cfg 1 s ∧ (∀ t x, cfg.penalty t x = 0) ∧
      ∃ xopt fopt fpen, s.best = some (xopt, fopt, fpen) ∧ cfg.minimize = true ∧ fpen < cfg.objective s.x := by
  let cfg : CmaCfg 1 :=
    { vars := wvars, objective := fun x => x 0, penalty := fun _ _ => 0, minimize := true, ftarget := none,
      maxFEs := 100 }
  let ws : List (CmaNoise 1) := [⟨fun _ _ => 1, true, fun _ => 1 / 2⟩]
  have h0 := winit cfg rfl 1 0 le_rfl (by norm_num)
  have h1 := wask cfg rfl 1 (by norm_num) (by norm_num)
  refine ⟨cfg, cmaSteps cfg ws (cmaSetX cfg (cmaEmpty (fun _ => 0) 1) (fun _ => 0)),
    ⟨_, _, ws, h0, ?_, rfl⟩, fun _ _ => rfl, fun _ => 0, 0, 0, ?_, rfl, ?_⟩
  · intro w hw i
    simp only [ws, List.mem_cons, List.not_mem_nil, or_false] at hw
    rw [hw]
    norm_num
  · simp only [ws, cmaSteps, cmaStep, h1]
    norm_num [cfg, cmaSetX, cmaEmpty, cmaEvaluate, cmaTell, cmaCheckStop, cmaHit, cmaFull, cmaRestart, CmaCfg.better,
      cmaSample, wvars]
  · simp only [ws, cmaSteps, cmaStep, h1]
    norm_num [cfg, cmaSetX, cmaEmpty, cmaEvaluate, cmaTell, cmaCheckStop, cmaHit, cmaFull, cmaRestart, CmaCfg.better,
      cmaSample, wvars]

/-! ## C64: evaluations and restarts -/

private theorem tell_counts (cfg : CmaCfg n) (s : CmaState n) (x : Fin n → ℝ) (y pen : ℝ) :
    (cmaTell cfg s x y pen).evalCount = s.evalCount ∧ (cmaTell cfg s x y pen).nRestart = s.nRestart ∧
    (cmaTell cfg s x y pen).restartFlag = s.restartFlag ∧ (cmaTell cfg s x y pen).stop = s.stop ∧
    (cmaTell cfg s x y pen).dict = s.dict ∧ (cmaTell cfg s x y pen).restarts = s.restarts := by
  unfold cmaTell
  split
  · simp
  · split <;> simp

private theorem evaluate_counts (cfg : CmaCfg n) (s : CmaState n) (x : Fin n → ℝ) :
    (cmaEvaluate cfg s x).evalCount = s.evalCount + 1 ∧ (cmaEvaluate cfg s x).nRestart = s.nRestart ∧
    (cmaEvaluate cfg s x).restartFlag = s.restartFlag ∧ (cmaEvaluate cfg s x).stop = s.stop ∧
    (cmaEvaluate cfg s x).dict = s.dict ∧ (cmaEvaluate cfg s x).restarts = s.restarts :=
  tell_counts cfg _ x _ _

/-- One step that is not the last one, or the last one. -/
private theorem step_counts (cfg : CmaCfg n) (w : CmaNoise n) (s : CmaState n) :
    s.evalCount + 1 ≤ (cmaStep cfg w s).evalCount ∧ (cmaStep cfg w s).evalCount ≤ s.evalCount + 2 ∧
    ((cmaStep cfg w s).stop = false → s.evalCount + 1 < cfg.maxFEs) ∧
    (s.restartFlag = false → s.nRestart ≤ 0 → (cmaStep cfg w s).restartFlag = false ∧
      (cmaStep cfg w s).nRestart ≤ 0 ∧ (cmaStep cfg w s).evalCount = s.evalCount + 1) := by
  obtain ⟨h1, h2, h3, h4, h5, h6⟩ := evaluate_counts cfg s (cmaAsk cfg (w.mutant s.x))
  obtain ⟨-, -, -, k1, k2, k3⟩ := checkStop_same cfg w.stag (cmaEvaluate cfg s (cmaAsk cfg (w.mutant s.x)))
  have hstop : (cmaCheckStop cfg w.stag (cmaEvaluate cfg s (cmaAsk cfg (w.mutant s.x)))).stop = false →
      s.evalCount + 1 < cfg.maxFEs := by
    intro h
    by_contra hc
    have hfull : cmaFull cfg (cmaEvaluate cfg s (cmaAsk cfg (w.mutant s.x))) = true := by
      simp only [cmaFull, h1, decide_eq_true_eq]; omega
    unfold cmaCheckStop at h
    simp [hfull] at h
  have hflag : s.restartFlag = false → s.nRestart ≤ 0 →
      (cmaCheckStop cfg w.stag (cmaEvaluate cfg s (cmaAsk cfg (w.mutant s.x)))).restartFlag = false := by
    intro hf hn
    unfold cmaCheckStop
    dsimp only
    split
    · rw [← hf, ← h3]
    · rw [if_neg (by omega)]; rw [← hf, ← h3]
  unfold cmaStep cmaRestart
  split
  · rename_i hfl
    obtain ⟨m1, m2, m3, m4, m5, m6⟩ := evaluate_counts cfg
      { cmaCheckStop cfg w.stag (cmaEvaluate cfg s (cmaAsk cfg (w.mutant s.x))) with x := cmaSample cfg w.u }
      (cmaSample cfg w.u)
    simp only at m1 m4
    refine ⟨?_, ?_, ?_, ?_⟩
    · show _ ≤ (cmaEvaluate cfg _ _).evalCount
      rw [m1, k1, h1]; omega
    · show (cmaEvaluate cfg _ _).evalCount ≤ _
      rw [m1, k1, h1]
    · intro h
      exact hstop (m4 ▸ h)
    · intro hf hn
      rw [hflag hf hn] at hfl
      cases hfl
  · refine ⟨?_, ?_, hstop, ?_⟩
    · rw [k1, h1]
    · rw [k1, h1]; omega
    · intro hf hn
      exact ⟨hflag hf hn, by rw [k2, h2]; exact hn, by rw [k1, h1]⟩

/-- C64: `run` terminates, whatever is drawn and whatever the tests for stagnation say: at most `max_FEs + 1` steps. -/
theorem c64_terminates (cfg : CmaCfg n) (noise : ℕ → CmaNoise n) (s : CmaState n) (k fuel : ℕ)
    (hf : cfg.maxFEs + 1 ≤ fuel) : (cmaRun cfg noise fuel k s).2 = true := by
  have key : ∀ (fuel k : ℕ) (s : CmaState n), (s.stop = true ∨ (1 ≤ fuel ∧ cfg.maxFEs ≤ s.evalCount + fuel)) →
      (cmaRun cfg noise fuel k s).2 = true := by
    intro fuel
    induction fuel with
    | zero => intro k s h; rcases h with h | h
              · exact h
              · omega
    | succ fuel ih =>
      intro k s h
      unfold cmaRun
      by_cases hs : s.stop = true
      · rw [if_pos hs]
      · rw [if_neg hs]
        apply ih
        have h := h.resolve_left hs
        obtain ⟨h1, h2, h3, -⟩ := step_counts cfg (noise k) s
        by_cases hst : (cmaStep cfg (noise k) s).stop = true
        · exact Or.inl hst
        · right
          have := h3 (by simpa using hst)
          omega
  exact key fuel k s (Or.inr ⟨by omega, by omega⟩)

/-- C64: the number of evaluations of a run exceeds `max_FEs` by at most two, and does not exceed it at all when no restarts are
asked for (apart from the two evaluations that are always made). -/
theorem c64_budget (cfg : CmaCfg n) (x0 : Fin n → ℝ) (r : ℤ) (s0 : CmaState n) (h0 : cmaInit cfg x0 r = some s0)
    (noise : ℕ → CmaNoise n) (fuel : ℕ) :
    (cmaRun cfg noise fuel 0 s0).1.evalCount ≤ max cfg.maxFEs 1 + 2 ∧
    (r ≤ 0 → (cmaRun cfg noise fuel 0 s0).1.evalCount ≤ max cfg.maxFEs 2) := by
  have hs : s0.evalCount = 1 ∧ s0.stop = false ∧ s0.restartFlag = false ∧ s0.nRestart = max 0 r := by
    unfold cmaInit at h0
    split at h0
    · obtain rfl := Option.some.inj h0
      simp [cmaSetX, cmaEvaluate, cmaTell, cmaEmpty]
    · cases h0
  have key : ∀ (fuel k : ℕ) (s : CmaState n), (s.stop = false → s.evalCount ≤ max cfg.maxFEs 1) →
      s.evalCount ≤ max cfg.maxFEs 1 + 2 → (cmaRun cfg noise fuel k s).1.evalCount ≤ max cfg.maxFEs 1 + 2 := by
    intro fuel
    induction fuel with
    | zero => intro k s _ h; exact h
    | succ fuel ih =>
      intro k s hc h
      unfold cmaRun
      by_cases hst : s.stop = true
      · rw [if_pos hst]; exact h
      · rw [if_neg hst]
        have hc := hc (by simpa using hst)
        obtain ⟨h1, h2, h3, -⟩ := step_counts cfg (noise k) s
        apply ih
        · intro h'
          have := h3 h'
          omega
        · omega
  have key2 : ∀ (fuel k : ℕ) (s : CmaState n), s.restartFlag = false → s.nRestart ≤ 0 →
      (s.stop = false → s.evalCount < max cfg.maxFEs 2) → s.evalCount ≤ max cfg.maxFEs 2 →
      (cmaRun cfg noise fuel k s).1.evalCount ≤ max cfg.maxFEs 2 := by
    intro fuel
    induction fuel with
    | zero => intro k s _ _ _ h; exact h
    | succ fuel ih =>
      intro k s hf hn hc h
      unfold cmaRun
      by_cases hst : s.stop = true
      · rw [if_pos hst]; exact h
      · rw [if_neg hst]
        have hc := hc (by simpa using hst)
        obtain ⟨h1, h2, h3, h4⟩ := step_counts cfg (noise k) s
        obtain ⟨h5, h6, h7⟩ := h4 hf hn
        apply ih _ _ h5 h6
        · intro h'
          have := h3 h'
          omega
        · omega
  refine ⟨key fuel 0 s0 (fun _ => by omega) (by omega), fun hr => key2 fuel 0 s0 hs.2.2.1 (by omega)
    (fun _ => by omega) (by omega)⟩

private noncomputable def rcfg (m : ℕ) : CmaCfg 1 :=
  { vars := wvars, objective := fun x => x 0, penalty := fun _ _ => 0, minimize := true, ftarget := none, maxFEs := m }

/-- From a state whose restart flag is stuck every step restarts. -/
private theorem stuck_step (m : ℕ) (w : CmaNoise 1) (hw : w.stag = false) (s : CmaState 1) (hf : s.restartFlag = true)
    (hn : s.nRestart ≤ 0) (hst : s.stop = false) (hd : s.dict = false) (hm : s.evalCount + 1 < m) :
    (cmaStep (rcfg m) w s).restartFlag = true ∧ (cmaStep (rcfg m) w s).nRestart = s.nRestart - 1 ∧
    (cmaStep (rcfg m) w s).stop = false ∧ (cmaStep (rcfg m) w s).dict = false ∧
    (cmaStep (rcfg m) w s).evalCount = s.evalCount + 2 ∧ (cmaStep (rcfg m) w s).restarts = s.restarts + 1 := by
  obtain ⟨h1, h2, h3, h4, h5, h6⟩ := evaluate_counts (rcfg m) s (cmaAsk (rcfg m) (w.mutant s.x))
  have hfull : cmaFull (rcfg m) (cmaEvaluate (rcfg m) s (cmaAsk (rcfg m) (w.mutant s.x))) = false := by
    unfold cmaFull
    rw [h1, decide_eq_false_iff_not]
    show ¬ m ≤ _
    omega
  have hhit : cmaHit (rcfg m) (cmaEvaluate (rcfg m) s (cmaAsk (rcfg m) (w.mutant s.x))) = false := rfl
  have hchk : cmaCheckStop (rcfg m) w.stag (cmaEvaluate (rcfg m) s (cmaAsk (rcfg m) (w.mutant s.x))) =
      { cmaEvaluate (rcfg m) s (cmaAsk (rcfg m) (w.mutant s.x)) with dict := false, stop := false } := by
    unfold cmaCheckStop
    simp [hfull, hhit, h2, h5, hd, hw, hn]
  obtain ⟨m1, m2, m3, m4, m5, m6⟩ := evaluate_counts (rcfg m)
    { cmaEvaluate (rcfg m) s (cmaAsk (rcfg m) (w.mutant s.x)) with
      dict := false, stop := false, x := cmaSample (rcfg m) w.u } (cmaSample (rcfg m) w.u)
  unfold cmaStep cmaRestart
  rw [hchk, if_pos (by show (cmaEvaluate _ _ _).restartFlag = true; rw [h3, hf])]
  refine ⟨?_, ?_, ?_, rfl, ?_, ?_⟩
  · exact m3.trans (h3.trans hf)
  · show (cmaEvaluate _ _ _).nRestart - 1 = _
    rw [h2]
  · exact m4
  · exact m1.trans (by show (cmaEvaluate _ _ _).evalCount + 1 = _; rw [h1])
  · show (cmaEvaluate _ _ _).restarts + 1 = _
    rw [h6]

private theorem first_restart (m : ℕ) (hm : 2 < m) :
    let s := cmaStep (rcfg m) ⟨fun _ _ => 1, true, fun _ => 0⟩
      (cmaSetX (rcfg m) (cmaEmpty (fun _ => 0) 1) (fun _ => 0))
    s.restartFlag = true ∧ s.nRestart = 0 ∧ s.stop = false ∧ s.dict = false ∧ s.evalCount = 3 ∧ s.restarts = 1 := by
  have h1 := wask (rcfg m) rfl 1 (by norm_num) (by norm_num)
  have hm' : ¬ m ≤ 2 := by omega
  simp only [cmaStep, h1]
  norm_num [rcfg, cmaSetX, cmaEmpty, cmaEvaluate, cmaTell, cmaCheckStop, cmaHit, cmaFull, cmaRestart, CmaCfg.better,
    cmaSample, wvars, hm']

/-- C64 refuted: `n_restart` is documented as the maximal number of restarts, but the restart flag is not cleared when the
counter reaches zero.  With `n_restart = 1`, one stagnation, and a budget that is large enough, there are runs with any number
of restarts, and the counter becomes negative. -/
theorem c64_restart_limit_ignored (k : ℕ) (hk : 1 ≤ k) :
    ∃ (cfg : CmaCfg 1) (s : CmaState 1), CmaReachable cfg 1 s ∧ s.restarts = k ∧ s.nRestart = 1 - (k : ℤ) := by
  have key : ∀ (j m : ℕ) (s : CmaState 1), s.restartFlag = true → s.nRestart ≤ 0 → s.stop = false → s.dict = false →
      s.evalCount + 2 * j < m → ∃ ws : List (CmaNoise 1), (∀ w ∈ ws, CmaNoiseOk w) ∧
        (cmaSteps (rcfg m) ws s).restarts = s.restarts + j ∧ (cmaSteps (rcfg m) ws s).nRestart = s.nRestart - j := by
    intro j
    induction j with
    | zero => intro m s _ _ _ _ _; exact ⟨[], by simp, rfl, by simp [cmaSteps]⟩
    | succ j ih =>
      intro m s h1 h2 h3 h4 h5
      obtain ⟨k1, k2, k3, k4, k5, k6⟩ := stuck_step m ⟨fun _ _ => 1, false, fun _ => 0⟩ rfl s h1 h2 h3 h4 (by omega)
      obtain ⟨ws, hw, e1, e2⟩ := ih m _ k1 (by omega) k3 k4 (by rw [k5]; omega)
      refine ⟨⟨fun _ _ => 1, false, fun _ => 0⟩ :: ws, ?_, ?_, ?_⟩
      · intro w hw'
        rcases List.mem_cons.mp hw' with rfl | h
        · intro i; simp
        · exact hw w h
      · show (cmaSteps (rcfg m) ws _).restarts = _
        rw [e1, k6]; omega
      · show (cmaSteps (rcfg m) ws _).nRestart = _
        rw [e2, k2]; push_cast; omega
  obtain ⟨f1, f2, f3, f4, f5, f6⟩ := first_restart (2 * k + 10) (by omega)
  obtain ⟨ws, hw, e1, e2⟩ := key (k - 1) (2 * k + 10) _ f1 (by omega) f3 f4 (by rw [f5]; omega)
  refine ⟨rcfg (2 * k + 10), _, ⟨_, _, ⟨fun _ _ => 1, true, fun _ => 0⟩ :: ws,
    winit (rcfg (2 * k + 10)) rfl 1 0 le_rfl (by norm_num), ?_, rfl⟩, ?_, ?_⟩
  · intro w hw'
    rcases List.mem_cons.mp hw' with rfl | h
    · intro i; simp
    · exact hw w h
  · show (cmaSteps (rcfg (2 * k + 10)) ws _).restarts = _
    rw [e1, f6]; omega
  · show (cmaSteps (rcfg (2 * k + 10)) ws _).nRestart = _
    rw [e2, f2]; omega

/-- C64: the overshoot of two evaluations does occur. -/
theorem c64_overshoot :
    ∃ (cfg : CmaCfg 1) (x0 : Fin 1 → ℝ) (s0 : CmaState 1) (noise : ℕ → CmaNoise 1), cmaInit cfg x0 1 = some s0 ∧
      (cmaRun cfg noise 10 0 s0).2 = true ∧ (cmaRun cfg noise 10 0 s0).1.evalCount = cfg.maxFEs + 2 := by
  obtain ⟨f1, f2, f3, f4, f5, f6⟩ := first_restart 3 (by omega)
  refine ⟨rcfg 3, fun _ => 0, _, fun _ => ⟨fun _ _ => 1, true, fun _ => 0⟩,
    winit (rcfg 3) rfl 1 0 le_rfl (by norm_num), c64_terminates _ _ _ _ _ (by simp [rcfg]), ?_⟩
  have hs0 : (cmaSetX (rcfg 3) (cmaEmpty (fun _ => 0) 1) (fun _ => 0)).stop = false := by
    simp [cmaSetX, cmaEvaluate, cmaTell, cmaEmpty]
  rw [cmaRun, if_neg (by simp [hs0]), cmaRun, if_neg (by simp [f3])]
  generalize cmaStep (rcfg 3) ⟨fun _ _ => 1, true, fun _ => 0⟩
      (cmaSetX (rcfg 3) (cmaEmpty (fun _ => 0) 1) (fun _ => 0)) = s at f1 f2 f3 f4 f5 f6
  obtain ⟨h1, h2, h3, h4, h5, h6⟩ := evaluate_counts (rcfg 3) s (cmaAsk (rcfg 3) (fun _ => 1))
  have hfull : cmaFull (rcfg 3) (cmaEvaluate (rcfg 3) s (cmaAsk (rcfg 3) (fun _ => 1))) = true := by
    unfold cmaFull
    rw [h1, f5]
    rfl
  have hstep : (cmaStep (rcfg 3) ⟨fun _ _ => 1, true, fun _ => 0⟩ s).stop = true ∧
      (cmaStep (rcfg 3) ⟨fun _ _ => 1, true, fun _ => 0⟩ s).evalCount = 5 := by
    have hchk : cmaCheckStop (rcfg 3) true (cmaEvaluate (rcfg 3) s (cmaAsk (rcfg 3) (fun _ => 1))) =
        { cmaEvaluate (rcfg 3) s (cmaAsk (rcfg 3) (fun _ => 1)) with dict := true, stop := true } := by
      unfold cmaCheckStop
      simp [hfull]
    obtain ⟨m1, m2, m3, m4, m5, m6⟩ := evaluate_counts (rcfg 3)
      { cmaEvaluate (rcfg 3) s (cmaAsk (rcfg 3) (fun _ => 1)) with
        dict := true, stop := true, x := cmaSample (rcfg 3) (fun _ => 0) } (cmaSample (rcfg 3) (fun _ => 0))
    unfold cmaStep cmaRestart
    simp only
    rw [hchk, if_pos (by show (cmaEvaluate _ _ _).restartFlag = true; rw [h3, f1])]
    exact ⟨m4, m1.trans (by show (cmaEvaluate _ _ _).evalCount + 1 = _; rw [h1, f5])⟩
  rw [cmaRun, if_pos hstep.1]
  exact hstep.2

/-- A reachable state for the theorems of C32: the box is proper and the constructor accepts its corner. -/
example : (∀ i, ((rcfg 5).vars i).lo < ((rcfg 5).vars i).hi) ∧ ∃ s, CmaReachable (rcfg 5) 0 s :=
  ⟨fun i => by norm_num [rcfg, wvars],
    _, _, _, [⟨fun x i => x i + 3, false, fun _ => 0⟩], winit (rcfg 5) rfl 0 0 le_rfl (by norm_num),
    by intro w hw i; rw [List.mem_singleton.mp hw]; simp, rfl⟩

end Verif.Props
