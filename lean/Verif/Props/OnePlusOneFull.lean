import Verif.Spec.OnePlusOneFull
import Verif.Props.OnePlusOne
import Verif.Props.Stagnation
import Verif.Props.Cholesky

/-!
# C172: the (1+1)-CMA-ES as one program
-/
namespace Verif.Props

open Matrix Verif.Model Verif.Spec Verif.Proofs

variable {n : ℕ} {cfg : OpoCfg n} {g u : ℕ → Fin n → ℝ} {x0 : Fin n → ℝ} {r : ℤ}

/-! ### The points -/

private theorem better_points (m : ℕ) (a b : ℝ) : (pointsCfg cfg m).better a b = true ↔ cfg.stag.better a b := by
  unfold CmaCfg.better StagCfg.better pointsCfg
  cases cfg.stag.minimize <;> simp

private theorem tell_points (m : ℕ) {s s' : OpoState n} {t : CmaState n} (h : SamePoints s t) (x : Fin n → ℝ) (y pen : ℝ)
    (hs : opoTell cfg s x y pen = some s') : SamePoints s' (cmaTell (pointsCfg cfg m) t x y pen) := by
  obtain ⟨h1, h2, h3, h4, h5, h6, h7, h8⟩ := h
  unfold opoTell at hs
  unfold cmaTell
  by_cases hst : s.stop = true
  · rw [if_pos hst] at hs
    cases hs
    rw [if_pos (h7.trans hst)]
    exact ⟨h1, h2, h3, h4, h5, h6, h7, h8⟩
  · rw [if_neg hst] at hs
    rw [if_neg (by rw [h7]; exact hst), h2]
    obtain ⟨c, _, rfl⟩ := Option.map_eq_some_iff.1 hs
    refine ⟨?_, ?_, h3, congrArg (· + 1) h4, h5, h6, h7, h8⟩
    · by_cases hb : cfg.stag.better (y + pen) s.fpen
      · simp [(better_points m _ _).2 hb, hb]
      · simp [mt (better_points m _ _).1 hb, hb, h1]
    · by_cases hb : cfg.stag.better (y + pen) s.fpen
      · simp [(better_points m _ _).2 hb, hb]
      · simp [mt (better_points m _ _).1 hb, hb]

private theorem check_points {m : ℕ} (hm : cfg.stag.maxFEs = some m) {s : OpoState n} {t : CmaState n} (h : SamePoints s t) :
    SamePoints (opoCheck cfg s) (cmaCheckStop (pointsCfg cfg m) (opoStagnates cfg s) t) := by
  obtain ⟨h1, h2, h3, h4, h5, h6, h7, h8⟩ := h
  have hf : opoFinal cfg s = (cmaHit (pointsCfg cfg m) t || cmaFull (pointsCfg cfg m) t) := by
    unfold opoFinal cmaHit cmaFull
    rw [h2, h3, hm]
    rw [Bool.eq_iff_iff, Bool.or_eq_true, Bool.or_eq_true]
    simp only [decide_eq_true_eq]
    refine or_congr ?_ (by simp [pointsCfg])
    cases ht : cfg.stag.ftarget with
    | none =>
      have : (pointsCfg cfg m).ftarget = none := ht
      simp [this]
    | some q =>
      have : (pointsCfg cfg m).ftarget = some q := ht
      simp only [this, Option.mem_def, Option.some.injEq, exists_eq_left']
      exact (better_points m _ _).symm
  unfold opoCheck cmaCheckStop
  rw [← hf, h5, h8, show (s.dict || cmaHit (pointsCfg cfg m) t || cmaFull (pointsCfg cfg m) t || opoStagnates cfg s) =
    (s.dict || opoFinal cfg s || opoStagnates cfg s) by rw [hf, ← Bool.or_assoc]]
  split_ifs
  · exact ⟨h1, h2, h3, h4, rfl, h6, rfl, rfl⟩
  · exact ⟨h1, h2, h3, h4, rfl, rfl, h7, rfl⟩
  · exact ⟨h1, h2, h3, h4, rfl, h6, rfl, rfl⟩

private theorem evaluate_points (m : ℕ) {s s' : OpoState n} {t : CmaState n} (h : SamePoints s t) (x : Fin n → ℝ)
    (hs : opoEvaluate cfg s x = some s') : SamePoints s' (cmaEvaluate (pointsCfg cfg m) t x) := by
  obtain ⟨h1, h2, h3, h4, h5, h6, h7, h8⟩ := h
  have h' : SamePoints { s with evalCount := s.evalCount + 1 } { t with evalCount := t.evalCount + 1 } :=
    ⟨h1, h2, by simp [h3], h4, h5, h6, h7, h8⟩
  have := tell_points m h' x _ _ hs
  unfold cmaEvaluate
  rw [← h4] at this
  exact this

private theorem step_points {m : ℕ} (hm : cfg.stag.maxFEs = some m) {s s' : OpoState n} {t : CmaState n} (h : SamePoints s t) (a b : Fin n → ℝ)
    (hs : opoStep cfg a b s = some s') :
    ∃ w : CmaNoise n, w.u = b ∧ SamePoints s' (cmaStep (pointsCfg cfg m) w t) := by
  obtain ⟨s1, h1, h2⟩ := Option.bind_eq_some_iff.1 hs
  refine ⟨⟨fun _ => opoMutant s a, opoStagnates cfg s1, b⟩, rfl, ?_⟩
  have e1 := check_points hm (evaluate_points m h _ h1)
  unfold cmaStep
  simp only
  change SamePoints s' (cmaRestart (pointsCfg cfg m) b (cmaCheckStop (pointsCfg cfg m) (opoStagnates cfg s1)
    (cmaEvaluate (pointsCfg cfg m) t (opoRepair cfg (opoMutant s a)))))
  generalize cmaCheckStop (pointsCfg cfg m) (opoStagnates cfg s1) (cmaEvaluate (pointsCfg cfg m) t (opoRepair cfg (opoMutant s a))) = t2 at e1
  unfold opoRestart at h2
  unfold cmaRestart
  by_cases hf : (opoCheck cfg s1).restartFlag = true
  · rw [if_pos hf] at h2
    obtain ⟨s2, h3, rfl⟩ := Option.map_eq_some_iff.1 h2
    rw [if_pos (e1.2.2.2.2.2.1.trans hf)]
    obtain ⟨g1, g2, g3, g4, g5, g6, g7, g8⟩ := e1
    have e2 := evaluate_points m (s := { opoCheck cfg s1 with x := opoSample cfg b }) (t := { t2 with x := opoSample cfg b })
      ⟨rfl, g2, g3, g4, g5, g6, g7, g8⟩ _ h3
    obtain ⟨k1, k2, k3, k4, k5, k6, k7, k8⟩ := e2
    have hn : s2.nRestart = t2.nRestart := by
      have : s2.nRestart = (opoCheck cfg s1).nRestart := by
        unfold opoEvaluate opoTell at h3
        split_ifs at h3
        · cases h3; rfl
        · obtain ⟨c, _, rfl⟩ := Option.map_eq_some_iff.1 h3; rfl
      rw [this, g5]
    exact ⟨k1, k2, k3, k4, by simp [hn], k6, k7, rfl⟩
  · rw [if_neg hf] at h2
    cases h2
    rw [if_neg (by rw [e1.2.2.2.2.2.1]; exact hf)]
    exact e1

private theorem cmaSteps_append (c : CmaCfg n) (ws : List (CmaNoise n)) (w : CmaNoise n) (t : CmaState n) :
    cmaSteps c (ws ++ [w]) t = cmaStep c w (cmaSteps c ws t) := by
  induction ws generalizing t with
  | nil => rfl
  | cons a ws ih => exact ih _

/-- **C172, points.**  In every state of a run of the whole program, parent, best point, counters and flags are those of a reachable state of the model in which
C32 and C64 are proved. -/
theorem c172_points {m : ℕ} (hm : cfg.stag.maxFEs = some m) (hp : ProperCall cfg u x0) {k : ℕ} {s : OpoState n} (hs : opoRun cfg g u x0 r k = some s) :
    ∃ t, CmaReachable (pointsCfg cfg m) r t ∧ SamePoints s t := by
  induction k generalizing s with
  | zero =>
    cases hs
    refine ⟨cmaSetX (pointsCfg cfg m) (cmaEmpty x0 r) x0, ⟨x0, _, [], ?_, by simp, rfl⟩, ?_⟩
    · unfold cmaInit
      rw [if_pos (show ∀ i, ((pointsCfg cfg m).vars i).lo ≤ x0 i ∧ x0 i ≤ ((pointsCfg cfg m).vars i).hi from hp.2.1)]
      rfl
    · exact ⟨rfl, rfl, rfl, rfl, rfl, rfl, rfl, rfl⟩
  | succ k ih =>
    obtain ⟨s1, h1, h2⟩ := Option.bind_eq_some_iff.1 hs
    obtain ⟨t, ⟨x1, t0, ws, h3, h4, rfl⟩, h5⟩ := ih h1
    split_ifs at h2
    · cases h2
      exact ⟨_, ⟨x1, t0, ws, h3, h4, rfl⟩, h5⟩
    · obtain ⟨w, hw, h6⟩ := step_points hm h5 _ _ h2
      refine ⟨_, ⟨x1, t0, ws ++ [w], h3, ?_, rfl⟩, by rw [cmaSteps_append]; exact h6⟩
      intro w' hw'
      rcases List.mem_append.1 hw' with h | h
      · exact h4 _ h
      · rw [List.mem_singleton] at h
        rw [h]
        intro i
        rw [hw]
        exact hp.2.2 k i

/-! ### The scalars -/

private theorem tell_scalars (q : ℕ) {s s' : OpoState n} (x : Fin n → ℝ) (y pen : ℝ) (hs : opoTell cfg s x y pen = some s') :
    scalarsOf q s' = stagTell (scalarsCfg cfg) ⟨y, pen, opoDist s.x x, false⟩ (scalarsOf q s) := by
  unfold opoTell at hs
  unfold stagTell
  by_cases hst : s.stop = true
  · rw [if_pos hst] at hs
    cases hs
    rw [if_pos (show (scalarsOf q s).stop = true from hst)]
  · rw [if_neg hst] at hs
    rw [if_neg (show ¬ (scalarsOf q s).stop = true from hst)]
    obtain ⟨c, _, rfl⟩ := Option.map_eq_some_iff.1 hs
    rw [scalarsOf, StagState.mk.injEq]
    refine ⟨rfl, ?_, rfl, rfl, rfl, rfl, rfl, rfl, rfl, rfl, rfl, rfl⟩
    by_cases ho : OutOfRange (stagSigma (scalarsCfg cfg) (stagRate (scalarsCfg cfg) ((scalarsCfg cfg).better (y + pen) s.fpen) s.rate) s.sigma)
    · exact (if_pos ho).trans (if_pos (Or.inl ho)).symm
    · exact (if_neg ho).trans (if_neg (by rintro (h | ⟨_, h⟩); exacts [ho h, Bool.noConfusion h])).symm

private theorem check_scalars (q : ℕ) (s : OpoState n) : scalarsOf q (opoCheck cfg s) = stagCheck (scalarsCfg cfg) (scalarsOf q s) := by
  have h1 : stagFinal (scalarsCfg cfg) (scalarsOf q s) = opoFinal cfg s := rfl
  have h2 : stagTests (scalarsCfg cfg) (scalarsOf q s) = opoStagnates cfg s := rfl
  unfold opoCheck stagCheck
  simp only [h1, h2]
  simp only [show (scalarsOf q s).nRestart = s.nRestart from rfl]
  split_ifs <;> rfl

private theorem dist_self (x : Fin n → ℝ) : opoDist x x = 0 := by simp [opoDist]

private theorem step_scalars (q : ℕ) {s s' : OpoState n} (a b : Fin n → ℝ) (hs : opoStep cfg a b s = some s') :
    ∃ q' i, scalarsOf q' s' = stagStep (scalarsCfg cfg) i (scalarsOf q s) := by
  obtain ⟨s1, h1, h2⟩ := Option.bind_eq_some_iff.1 hs
  have e1 := tell_scalars q (s := { s with evalCount := s.evalCount + 1 }) _ _ _ h1
  unfold opoRestart at h2
  by_cases hf : (opoCheck cfg s1).restartFlag = true
  · rw [if_pos hf] at h2
    obtain ⟨s2, h3, rfl⟩ := Option.map_eq_some_iff.1 h2
    have e2 := tell_scalars q (s := { opoCheck cfg s1 with x := opoSample cfg b, evalCount := (opoCheck cfg s1).evalCount + 1 }) _ _ _ h3
    rw [dist_self] at e2
    refine ⟨q + 1, (⟨cfg.objective (opoRepair cfg (opoMutant s a)), cfg.penalty (s.iterCount + 1) (opoRepair cfg (opoMutant s a)),
      opoDist s.x (opoRepair cfg (opoMutant s a)), false⟩, ⟨cfg.objective (opoSample cfg b), cfg.penalty ((opoCheck cfg s1).iterCount + 1) (opoSample cfg b), 0, false⟩), ?_⟩
    unfold stagStep
    simp only
    change _ = stagRestart _ _ (stagCheck _ (stagTell _ _ (scalarsOf q { s with evalCount := s.evalCount + 1 })))
    rw [← e1, ← check_scalars]
    unfold stagRestart
    rw [if_pos (show (scalarsOf q (opoCheck cfg s1)).restartFlag = true from hf)]
    have hn : (scalarsOf q (opoCheck cfg s1)).nRestart = s2.nRestart := by
      have : s2.nRestart = (opoCheck cfg s1).nRestart := by
        unfold opoEvaluate opoTell at h3
        split_ifs at h3
        · cases h3; rfl
        · obtain ⟨c, _, rfl⟩ := Option.map_eq_some_iff.1 h3; rfl
      rw [this]
      rfl
    generalize hh : stagTell (scalarsCfg cfg) _ _ = w
    rw [hn]
    obtain rfl : w = scalarsOf q s2 := hh.symm.trans e2.symm
    rfl
  · rw [if_neg hf] at h2
    cases h2
    refine ⟨q, (⟨cfg.objective (opoRepair cfg (opoMutant s a)), cfg.penalty (s.iterCount + 1) (opoRepair cfg (opoMutant s a)),
      opoDist s.x (opoRepair cfg (opoMutant s a)), false⟩, ⟨0, 0, 0, false⟩), ?_⟩
    unfold stagStep
    simp only
    change _ = stagRestart _ _ (stagCheck _ (stagTell _ _ (scalarsOf q { s with evalCount := s.evalCount + 1 })))
    rw [← e1, ← check_scalars]
    unfold stagRestart
    rw [if_neg (show ¬ (scalarsOf q (opoCheck cfg s1)).restartFlag = true from hf)]

/-- **C172, scalars.**  In every state of a run of the whole program, step size, success rate and the stopping tests are those of a reachable state of the model
in which C136 and C137 are proved. -/
theorem c172_scalars {k : ℕ} {s : OpoState n} (hs : opoRun cfg g u x0 r k = some s) : ∃ q, StagReachable (scalarsCfg cfg) (scalarsOf q s) := by
  induction k generalizing s with
  | zero =>
    cases hs
    exact ⟨0, StagReachable.init r ⟨cfg.objective x0, cfg.penalty 1 x0, 0, false⟩⟩
  | succ k ih =>
    obtain ⟨s1, h1, h2⟩ := Option.bind_eq_some_iff.1 hs
    obtain ⟨q, hq⟩ := ih h1
    split_ifs at h2 with hst
    · cases h2
      exact ⟨q, hq⟩
    · obtain ⟨q', i, h3⟩ := step_scalars q _ _ h2
      refine ⟨q', ?_⟩
      rw [h3]
      exact .step _ i hq (show s1.stop = false by simpa using hst)

/-- **C172, step size.**  Step size and success rate stay in their ranges, whatever the objective does. -/
theorem c172_step_size (hc : 0 ≤ cfg.stag.cp ∧ cfg.stag.cp ≤ 1) (hp : 0 ≤ cfg.stag.pTarget ∧ cfg.stag.pTarget ≤ 1) (h0 : 1e-8 ≤ cfg.stag.sigma0 ∧ cfg.stag.sigma0 ≤ 1e8)
    {k : ℕ} {s : OpoState n} (hs : opoRun cfg g u x0 r k = some s) : (1e-8 ≤ s.sigma ∧ s.sigma ≤ 1e8) ∧ 0 ≤ s.rate ∧ s.rate ≤ 1 := by
  obtain ⟨q, hq⟩ := c172_scalars hs
  have h1 : ¬ OutOfRange s.sigma := (c137_range (scalarsCfg cfg) (by rintro (h | h); exacts [absurd h (not_lt.2 h0.1), absurd h (not_lt.2 h0.2)]) _ hq).1
  refine ⟨⟨?_, ?_⟩, c137_rate (scalarsCfg cfg) hc hp _ hq⟩
  · by_contra h; exact h1 (.inl (not_le.1 h))
  · by_contra h; exact h1 (.inr (not_le.1 h))

/-! ### Box, best point and budget -/

private theorem restart_cases {s s' : OpoState n} {b : Fin n → ℝ} (h : opoRestart cfg b s = some s') :
    (s.restartFlag = false ∧ s' = s) ∨ (s.restartFlag = true ∧ ∃ s2, opoEvaluate cfg { s with x := opoSample cfg b } (opoSample cfg b) = some s2 ∧
      s' = { s2 with
        sigma := cfg.stag.sigma0, chol := cholReset s2.chol, deltaX := cfg.stag.xtol * 200, deltaF := cfg.stag.ftol * 200, dict := false,
        nRestart := s2.nRestart - 1 }) := by
  unfold opoRestart at h
  by_cases hf : s.restartFlag = true
  · rw [if_pos hf] at h
    obtain ⟨s2, h3, rfl⟩ := Option.map_eq_some_iff.1 h
    exact .inr ⟨hf, s2, h3, rfl⟩
  · rw [if_neg hf] at h
    cases h
    exact .inl ⟨by simpa using hf, rfl⟩

private theorem check_same (s : OpoState n) :
    (opoCheck cfg s).x = s.x ∧ (opoCheck cfg s).xopt = s.xopt ∧ (opoCheck cfg s).fopt = s.fopt ∧ (opoCheck cfg s).fpen = s.fpen ∧
      (opoCheck cfg s).evalCount = s.evalCount ∧ (opoCheck cfg s).chol = s.chol ∧ (opoCheck cfg s).iterCount = s.iterCount ∧
      (opoCheck cfg s).rate = s.rate ∧ (opoCheck cfg s).sigma = s.sigma := by
  unfold opoCheck
  dsimp only
  split_ifs <;> exact ⟨rfl, rfl, rfl, rfl, rfl, rfl, rfl, rfl, rfl⟩

/-- What `tell` does to points and values. -/
private theorem evaluate_cases {s s' : OpoState n} {x : Fin n → ℝ} (h : opoEvaluate cfg s x = some s') :
    s'.evalCount = s.evalCount + 1 ∧ s'.stop = s.stop ∧
      ((s.stop = true ∧ s'.x = s.x ∧ s'.xopt = s.xopt ∧ s'.fopt = s.fopt ∧ s'.fpen = s.fpen ∧ s'.chol = s.chol) ∨
       (s.stop = false ∧ ¬ cfg.stag.better (cfg.objective x + cfg.penalty (s.iterCount + 1) x) s.fpen ∧
          s'.x = s.x ∧ s'.xopt = s.xopt ∧ s'.fopt = s.fopt ∧ s'.fpen = s.fpen) ∨
       (s.stop = false ∧ cfg.stag.better (cfg.objective x + cfg.penalty (s.iterCount + 1) x) s.fpen ∧ s'.x = x ∧
          s'.fpen = cfg.objective x + cfg.penalty (s.iterCount + 1) x ∧
          ((cfg.penalty (s.iterCount + 1) x ≠ 0 ∧ s'.xopt = s.xopt ∧ s'.fopt = s.fopt) ∨
           (cfg.penalty (s.iterCount + 1) x = 0 ∧ s'.xopt = x ∧ s'.fopt = cfg.objective x)))) := by
  unfold opoEvaluate opoTell at h
  by_cases hst : s.stop = true
  · rw [if_pos (show ({ s with evalCount := s.evalCount + 1 } : OpoState n).stop = true from hst)] at h
    cases h
    exact ⟨rfl, rfl, .inl ⟨hst, rfl, rfl, rfl, rfl, rfl⟩⟩
  · rw [if_neg (show ¬ ({ s with evalCount := s.evalCount + 1 } : OpoState n).stop = true from hst)] at h
    obtain ⟨c, _, rfl⟩ := Option.map_eq_some_iff.1 h
    refine ⟨rfl, rfl, .inr ?_⟩
    have hst' : s.stop = false := by simpa using hst
    by_cases hb : cfg.stag.better (cfg.objective x + cfg.penalty (s.iterCount + 1) x) s.fpen
    · refine .inr ⟨hst', hb, if_pos hb, if_pos hb, ?_⟩
      by_cases hp : cfg.penalty (s.iterCount + 1) x = 0
      · exact .inr ⟨hp, if_pos ⟨hb, hp⟩, if_pos ⟨hb, hp⟩⟩
      · exact .inl ⟨hp, if_neg fun h => hp h.2, if_neg fun h => hp h.2⟩
    · exact .inl ⟨hst', hb, if_neg hb, if_neg fun h => hb h.1, if_neg fun h => hb h.1, if_neg hb⟩

private theorem sample_inside (hp : ProperCall cfg u x0) (k : ℕ) : Inside cfg (opoSample cfg (u k)) := fun i => by
  have h1 := hp.1 i
  have h2 := hp.2.2 k i
  unfold opoSample
  constructor <;> nlinarith [h2.1, h2.2]

private theorem repair_inside (hb : ∀ i, (cfg.vars i).lo < (cfg.vars i).hi) (m : Fin n → ℝ) : Inside cfg (opoRepair cfg m) :=
  fun i => round_contains (cfg.vars i) (hb i).le (reflect_mem (hb i) (m i))

/-- **C172, box.**  Parent and reported point of every state lie in the box, as does every point that a step proposes, and the reported value is the value of the
reported point. -/
theorem c172_box (hp : ProperCall cfg u x0) {k : ℕ} {s : OpoState n} (hs : opoRun cfg g u x0 r k = some s) :
    Inside cfg s.x ∧ Inside cfg s.xopt ∧ s.fopt = cfg.objective s.xopt ∧ ∀ a, Inside cfg (opoRepair cfg (opoMutant s a)) := by
  suffices h : Inside cfg s.x ∧ Inside cfg s.xopt ∧ s.fopt = cfg.objective s.xopt from ⟨h.1, h.2.1, h.2.2, fun a => repair_inside hp.1 _⟩
  have key : ∀ {s s' : OpoState n} {x : Fin n → ℝ}, Inside cfg x → opoEvaluate cfg s x = some s' →
      (Inside cfg s.x ∧ Inside cfg s.xopt ∧ s.fopt = cfg.objective s.xopt) → Inside cfg s'.x ∧ Inside cfg s'.xopt ∧ s'.fopt = cfg.objective s'.xopt := by
    intro s s' x hx h ⟨a, b, c⟩
    obtain ⟨_, _, h⟩ := evaluate_cases h
    rcases h with ⟨_, h1, h2, h3, _⟩ | ⟨_, _, h1, h2, h3, _⟩ | ⟨_, _, h1, _, ⟨_, h2, h3⟩ | ⟨_, h2, h3⟩⟩
    · rw [h1, h2, h3]; exact ⟨a, b, c⟩
    · rw [h1, h2, h3]; exact ⟨a, b, c⟩
    · rw [h1, h2, h3]; exact ⟨hx, b, c⟩
    · rw [h1, h2, h3]; exact ⟨hx, hx, rfl⟩
  induction k generalizing s with
  | zero => cases hs; exact ⟨hp.2.1, hp.2.1, rfl⟩
  | succ k ih =>
    obtain ⟨s1, h1, h2⟩ := Option.bind_eq_some_iff.1 hs
    have := ih h1
    split_ifs at h2
    · cases h2; exact this
    · obtain ⟨s2, h3, h4⟩ := Option.bind_eq_some_iff.1 h2
      have e := key (repair_inside hp.1 _) h3 this
      obtain ⟨c1, c2, c3, _⟩ := check_same (cfg := cfg) s2
      rcases restart_cases h4 with ⟨_, rfl⟩ | ⟨_, s3, h5, rfl⟩
      · rw [c1, c2, c3]; exact e
      · have := key (sample_inside hp k) h5 ⟨sample_inside hp k, by simp only [c2]; exact e.2.1, by simp only [c3, c2]; exact e.2.2⟩
        exact this

/-- **C172, budget.**  With a budget of `m` evaluations, the loop has ended after `max m 1` passes, and at most two evaluations more than the budget have been made. -/
theorem c172_budget_partial {m : ℕ} (hm : cfg.stag.maxFEs = some m) {k : ℕ} {s : OpoState n} (hs : opoRun cfg g u x0 r k = some s) :
    s.evalCount ≤ max m 1 + 2 ∧ (max m 1 ≤ k → s.stop = true) := by
  have hfin : ∀ s : OpoState n, (opoCheck cfg s).stop = false → s.evalCount < m := by
    intro s h
    by_contra hc
    have : opoFinal cfg s = true := by
      unfold opoFinal
      rw [Bool.or_eq_true]
      right
      simp only [decide_eq_true_eq]
      exact ⟨m, hm, by omega⟩
    unfold opoCheck at h
    rw [if_pos this] at h
    cases h
  suffices h : s.evalCount ≤ max m 1 + 2 ∧ (s.stop = false → s.evalCount ≤ max m 1 ∧ k + 1 ≤ s.evalCount) by
    refine ⟨h.1, fun hk => ?_⟩
    by_contra hc
    have := h.2 (by simpa using hc)
    omega
  induction k generalizing s with
  | zero => cases hs; exact ⟨by simp only [opoInit]; omega, fun _ => ⟨by simp only [opoInit]; omega, by simp [opoInit]⟩⟩
  | succ k ih =>
    obtain ⟨s1, h1, h2⟩ := Option.bind_eq_some_iff.1 hs
    have := ih h1
    split_ifs at h2 with hst
    · cases h2; exact ⟨this.1, fun h => by rw [hst] at h; cases h⟩
    · obtain ⟨s2, h3, h4⟩ := Option.bind_eq_some_iff.1 h2
      obtain ⟨e1, e2, _⟩ := evaluate_cases h3
      obtain ⟨_, _, _, _, c5, _⟩ := check_same (cfg := cfg) s2
      have h0 := this.2 (by simpa using hst)
      rcases restart_cases h4 with ⟨_, rfl⟩ | ⟨_, s3, h5, rfl⟩
      · refine ⟨by omega, fun h => ⟨?_, by omega⟩⟩
        have := hfin _ h
        omega
      · obtain ⟨e3, e4, _⟩ := evaluate_cases h5
        simp only at e3 e4
        refine ⟨by simp only; omega, fun h => ⟨?_, by simp only; omega⟩⟩
        simp only at h ⊢
        have := hfin s2 (by rw [← e4]; exact h)
        omega

private theorem good_trans {mi : Bool} {a b c : ℝ} (h1 : CmaGood mi a b) (h2 : CmaGood mi b c) : CmaGood mi a c := by
  unfold CmaGood at *
  split_ifs at * <;> linarith

/-- **C172, best point.**  Without constraints the reported point is one of the points told, and none of these is better. -/
theorem c172_best_partial (hpen : ∀ t x, cfg.penalty t x = 0) {k : ℕ} {s : OpoState n} (hs : opoRun cfg g u x0 r k = some s) :
    Told cfg g u x0 r k s.xopt ∧ s.fopt = cfg.objective s.xopt ∧ ∀ p, Told cfg g u x0 r k p → CmaGood cfg.stag.minimize s.fopt (cfg.objective p) := by
  have refl : ∀ a, CmaGood cfg.stag.minimize a a := fun a => by unfold CmaGood; split_ifs <;> exact le_rfl
  have tot : ∀ a b, ¬ cfg.stag.better a b → CmaGood cfg.stag.minimize b a := fun a b h => by
    unfold StagCfg.better at h
    unfold CmaGood
    split_ifs at * <;> linarith
  have key : ∀ {s s' : OpoState n} {x : Fin n → ℝ}, opoEvaluate cfg s x = some s' → s.fpen = s.fopt → s.fopt = cfg.objective s.xopt →
      s'.fpen = s'.fopt ∧ s'.fopt = cfg.objective s'.xopt ∧ (s'.xopt = s.xopt ∨ (s.stop = false ∧ s'.xopt = x)) ∧ CmaGood cfg.stag.minimize s'.fopt s.fopt ∧
        (s.stop = false → CmaGood cfg.stag.minimize s'.fopt (cfg.objective x)) := by
    intro s s' x h a b
    obtain ⟨_, _, h⟩ := evaluate_cases h
    simp only [hpen, add_zero] at h
    rcases h with ⟨h0, h1, h2, h3, h4, _⟩ | ⟨h0, hb, h1, h2, h3, h4⟩ | ⟨h0, hb, h1, h4, ⟨h, _⟩ | ⟨_, h2, h3⟩⟩
    · rw [h2, h3, h4]
      exact ⟨a, b, .inl rfl, refl _, fun h => by rw [h0] at h; cases h⟩
    · rw [h2, h3, h4]
      exact ⟨a, b, .inl rfl, refl _, fun _ => by rw [← a]; exact tot _ _ hb⟩
    · exact absurd rfl h
    · rw [h2, h3, h4]
      exact ⟨rfl, rfl, .inr ⟨h0, rfl⟩, by rw [← a]; exact hb, fun _ => refl _⟩
  suffices h : s.fpen = s.fopt ∧ Told cfg g u x0 r k s.xopt ∧ s.fopt = cfg.objective s.xopt ∧
      ∀ p, Told cfg g u x0 r k p → CmaGood cfg.stag.minimize s.fopt (cfg.objective p) from h.2
  induction k generalizing s with
  | zero =>
    cases hs
    refine ⟨by simp [opoInit, hpen], .inl rfl, rfl, ?_⟩
    rintro p (rfl | ⟨j, hj, _⟩)
    · exact refl _
    · omega
  | succ k ih =>
    obtain ⟨s1, h1, h2⟩ := Option.bind_eq_some_iff.1 hs
    obtain ⟨a1, a2, a3, a4⟩ := ih h1
    have mono : ∀ p, Told cfg g u x0 r k p → Told cfg g u x0 r (k + 1) p := by
      rintro p (rfl | ⟨j, hj, rest⟩)
      · exact .inl rfl
      · exact .inr ⟨j, by omega, rest⟩
    have last : ∀ p, Told cfg g u x0 r (k + 1) p → Told cfg g u x0 r k p ∨ (s1.stop = false ∧
        (p = opoRepair cfg (opoMutant s1 (g k)) ∨
        ∃ s2, opoEvaluate cfg s1 (opoRepair cfg (opoMutant s1 (g k))) = some s2 ∧ (opoCheck cfg s2).restartFlag = true ∧ (opoCheck cfg s2).stop = false ∧
          p = opoSample cfg (u k))) := by
      rintro p (rfl | ⟨j, hj, sj, hj1, hj2, rest⟩)
      · exact .inl (.inl rfl)
      · by_cases hjk : j = k
        · subst hjk
          rw [h1] at hj1
          cases hj1
          exact .inr ⟨hj2, rest⟩
        · exact .inl (.inr ⟨j, by omega, sj, hj1, hj2, rest⟩)
    split_ifs at h2 with hst
    · cases h2
      refine ⟨a1, mono _ a2, a3, fun p hp => ?_⟩
      rcases last p hp with h | ⟨h, _⟩
      · exact a4 p h
      · rw [hst] at h; cases h
    · have hst' : s1.stop = false := by simpa using hst
      obtain ⟨s2, h3, h4⟩ := Option.bind_eq_some_iff.1 h2
      obtain ⟨b1, b2, b3, b4, b5⟩ := key h3 a1 a3
      obtain ⟨c1, c2, c3, c4, _⟩ := check_same (cfg := cfg) s2
      have hm : Told cfg g u x0 r (k + 1) s2.xopt := by
        rcases b3 with h | ⟨_, h⟩
        · rw [h]; exact mono _ a2
        · exact .inr ⟨k, by omega, s1, h1, hst', .inl h⟩
      have hall : ∀ p, Told cfg g u x0 r (k + 1) p → CmaGood cfg.stag.minimize s2.fopt (cfg.objective p) ∨
          ((opoCheck cfg s2).restartFlag = true ∧ (opoCheck cfg s2).stop = false ∧ p = opoSample cfg (u k)) := by
        intro p hp
        rcases last p hp with h | ⟨_, rfl | ⟨s2', e1, e2, e3, e4⟩⟩
        · exact .inl (good_trans b4 (a4 p h))
        · exact .inl (b5 hst')
        · rw [h3] at e1
          cases e1
          exact .inr ⟨e2, e3, e4⟩
      rcases restart_cases h4 with ⟨hf, rfl⟩ | ⟨hf, s3, h5, rfl⟩
      · refine ⟨by rw [c4, c3]; exact b1, by rw [c2]; exact hm, by rw [c3, c2]; exact b2, fun p hp => ?_⟩
        rcases hall p hp with h | ⟨h, _⟩
        · rw [c3]; exact h
        · rw [hf] at h; cases h
      · obtain ⟨d1, d2, d3, d4, d5⟩ := key h5 (by simp only [c4, c3]; exact b1) (by simp only [c3, c2]; exact b2)
        simp only [c3, c2] at d3 d4 d5
        refine ⟨d1, ?_, d2, fun p hp => ?_⟩
        · rcases d3 with h | ⟨h0, h⟩
          · simp only [h]; exact hm
          · exact .inr ⟨k, by omega, s1, h1, hst', .inr ⟨s2, h3, hf, h0, h⟩⟩
        · rcases hall p hp with h | ⟨_, h, rfl⟩
          · exact good_trans d4 h
          · exact d5 h

/-! ### NaN -/

/-- The matrix `A_inv` stays regular, even after resets. -/
private def Regular (c : CholState n) : Prop := ∀ v, c.Ainv *ᵥ v = 0 → v = 0

private theorem ca_pos {par : CholPar} (hr : RatesOk par) (rate : ℝ) : 0 < caOf par rate := by
  obtain ⟨h1, h2, h3, h4⟩ := hr
  unfold caOf
  split_ifs
  · linarith
  · have : 0 ≤ par.ccov * par.cc * (2 - par.cc) := mul_nonneg (mul_nonneg h1.le h3) (by linarith)
    linarith

private theorem update_regular {par : CholPar} (hr : RatesOk par) {rate : ℝ} {z : Fin n → ℝ} {c c' : CholState n} (hc : Regular c)
    (h : cholUpdate par rate z c = some c') : Regular c' := by
  unfold cholUpdate at h
  dsimp only at h
  set pc := pathUpdate par rate c.pc z
  set w := c.Ainv *ᵥ pc with hw
  split_ifs at h with hL
  cases h
  set L := ∑ i, w i ^ 2 with hLd
  have hLpos : 0 < L := lt_of_le_of_ne (Finset.sum_nonneg fun i _ => sq_nonneg _) (Ne.symm hL)
  have hca := ca_pos hr rate
  have hroot : 1 < Real.sqrt (1 + L * par.ccov / caOf par rate) := by
    rw [Real.lt_sqrt (by norm_num)]
    have : 0 < L * par.ccov / caOf par rate := div_pos (mul_pos hLpos hr.1) hca
    linarith
  set q := Real.sqrt (1 + L * par.ccov / caOf par rate)
  intro v hv
  simp only at hv
  have h1 : (1 / Real.sqrt (caOf par rate)) ≠ 0 := by have := Real.sqrt_pos.2 hca; positivity
  rw [smul_mulVec, smul_eq_zero, or_iff_right h1, sub_mulVec, smul_mulVec] at hv
  have h2 : vecMulVec w (w ᵥ* c.Ainv) *ᵥ v = (w ⬝ᵥ (c.Ainv *ᵥ v)) • w := by
    rw [vecMulVec_mulVec, ← dotProduct_mulVec]
    ext i
    simp [mul_comm]
  rw [h2] at hv
  set y := c.Ainv *ᵥ v with hy
  have h3 : y = (((1 - 1 / q) / L) * (w ⬝ᵥ y)) • w := by rw [mul_smul]; exact sub_eq_zero.1 hv
  have h4 : w ⬝ᵥ w = L := by simp [dotProduct, hLd, sq]
  have h5 : w ⬝ᵥ y = (1 - 1 / q) * (w ⬝ᵥ y) := by
    conv_lhs => rw [h3, dotProduct_smul, h4, smul_eq_mul]
    field_simp
  have h6 : w ⬝ᵥ y = 0 := by
    have : 0 < 1 / q := by positivity
    by_contra hne
    have : (1 : ℝ) = 1 - 1 / q := mul_right_cancel₀ hne (by rw [one_mul]; exact h5)
    linarith
  exact hc v (by rw [← hy, h3, h6]; simp)

private theorem update_none {par : CholPar} {rate : ℝ} {z : Fin n → ℝ} {c : CholState n} (hc : Regular c) :
    cholUpdate par rate z c = none ↔ pathUpdate par rate c.pc z = 0 := by
  unfold cholUpdate
  dsimp only
  constructor
  · intro h
    split_ifs at h with hL
    have := (Finset.sum_eq_zero_iff_of_nonneg (fun i _ => sq_nonneg _)).1 hL
    exact hc _ (funext fun i => by simpa using this i (Finset.mem_univ i))
  · intro h
    rw [if_pos (by simp [h])]

private theorem evaluate_regular (hr : RatesOk cfg.par) {s s' : OpoState n} {x : Fin n → ℝ} (hc : Regular s.chol) (h : opoEvaluate cfg s x = some s') :
    Regular s'.chol := by
  unfold opoEvaluate opoTell at h
  by_cases hst : s.stop = true
  · rw [if_pos (show ({ s with evalCount := s.evalCount + 1 } : OpoState n).stop = true from hst)] at h
    cases h
    exact hc
  · rw [if_neg (show ¬ ({ s with evalCount := s.evalCount + 1 } : OpoState n).stop = true from hst)] at h
    obtain ⟨c, h1, rfl⟩ := Option.map_eq_some_iff.1 h
    have : Regular c := by
      split_ifs at h1
      · exact update_regular hr hc h1
      · cases h1; exact hc
    simp only
    split_ifs
    · exact this
    · exact this

private theorem run_regular (hr : RatesOk cfg.par) {k : ℕ} {s : OpoState n} (hs : opoRun cfg g u x0 r k = some s) : Regular s.chol := by
  induction k generalizing s with
  | zero => cases hs; intro v hv; simpa [opoInit, cholInit] using hv
  | succ k ih =>
    obtain ⟨s1, h1, h2⟩ := Option.bind_eq_some_iff.1 hs
    have := ih h1
    split_ifs at h2
    · cases h2; exact this
    · obtain ⟨s2, h3, h4⟩ := Option.bind_eq_some_iff.1 h2
      have e := evaluate_regular hr this h3
      obtain ⟨_, _, _, _, _, c6, _⟩ := check_same (cfg := cfg) s2
      rw [← c6] at e
      rcases restart_cases h4 with ⟨_, rfl⟩ | ⟨_, s3, h5, rfl⟩
      · exact e
      · have := evaluate_regular hr (s := { opoCheck cfg s2 with x := opoSample cfg (u k) }) e h5
        exact this

private theorem evaluate_none {s : OpoState n} {x : Fin n → ℝ} (hc : Regular s.chol) :
    opoEvaluate cfg s x = none ↔ s.stop = false ∧ cfg.stag.better (cfg.objective x + cfg.penalty (s.iterCount + 1) x) s.fpen ∧
      pathUpdate cfg.par (stagRate cfg.stag True s.rate) s.chol.pc (fun i => (x i - s.x i) / s.sigma) = 0 := by
  unfold opoEvaluate opoTell
  by_cases hst : s.stop = true
  · rw [if_pos (show ({ s with evalCount := s.evalCount + 1 } : OpoState n).stop = true from hst)]
    simp [hst]
  · rw [if_neg (show ¬ ({ s with evalCount := s.evalCount + 1 } : OpoState n).stop = true from hst)]
    rw [Option.map_eq_none_iff]
    by_cases hb : cfg.stag.better (cfg.objective x + cfg.penalty (s.iterCount + 1) x) s.fpen
    · rw [if_pos hb, eq_true hb, update_none hc]
      simp [hst]
    · rw [if_neg hb]
      simp [hb]

/-- **C172, when NaN appears.**  With admissible learning rates, and in a state without NaN whose loop has not ended, the next pass produces NaN exactly if a success leaves the
evolution path at zero: either at the proposed point, or at the starting point of a restart, which counts as a step of length zero. -/
theorem c172_nan_partial (hr : RatesOk cfg.par) {k : ℕ} {s : OpoState n} (hs : opoRun cfg g u x0 r k = some s) (hrun : s.stop = false)
    (p : Fin n → ℝ) (hp : p = opoRepair cfg (opoMutant s (g k))) :
    opoRun cfg g u x0 r (k + 1) = none ↔
      (cfg.stag.better (cfg.objective p + cfg.penalty (s.iterCount + 1) p) s.fpen ∧
        pathUpdate cfg.par (stagRate cfg.stag True s.rate) s.chol.pc (fun i => (p i - s.x i) / s.sigma) = 0) ∨
      ∃ t, opoEvaluate cfg s p = some t ∧ (opoCheck cfg t).restartFlag = true ∧ (opoCheck cfg t).stop = false ∧
        cfg.stag.better (cfg.objective (opoSample cfg (u k)) + cfg.penalty (t.iterCount + 1) (opoSample cfg (u k))) t.fpen ∧ (1 - cfg.par.cc) • t.chol.pc = 0 := by
  subst hp
  set p := opoRepair cfg (opoMutant s (g k))
  have hc := run_regular hr hs
  have h1 : opoRun cfg g u x0 r (k + 1) = opoStep cfg (g k) (u k) s := by
    rw [opoRun, hs, Option.bind_some, if_neg (by simp [hrun])]
  rw [h1]
  unfold opoStep
  change ((opoEvaluate cfg s p).bind fun s' => opoRestart cfg (u k) (opoCheck cfg s')) = none ↔ _
  cases he : opoEvaluate cfg s p with
  | none =>
    have := (evaluate_none hc).1 he
    simp only [Option.bind_none, true_iff]
    exact .inl this.2
  | some t =>
    have hne : ¬ (cfg.stag.better (cfg.objective p + cfg.penalty (s.iterCount + 1) p) s.fpen ∧
        pathUpdate cfg.par (stagRate cfg.stag True s.rate) s.chol.pc (fun i => (p i - s.x i) / s.sigma) = 0) := by
      intro h
      have := (evaluate_none (cfg := cfg) hc).2 ⟨hrun, h⟩
      rw [he] at this
      cases this
    rw [or_iff_right hne, Option.bind_some]
    simp only [Option.some.injEq, exists_eq_left']
    obtain ⟨c1, c2, c3, c4, c5, c6, c7, c8, c9⟩ := check_same (cfg := cfg) t
    unfold opoRestart
    by_cases hf : (opoCheck cfg t).restartFlag = true
    · rw [if_pos hf, Option.map_eq_none_iff,
        evaluate_none (s := { opoCheck cfg t with x := opoSample cfg (u k) }) (by rw [c6]; exact evaluate_regular hr hc he)]
      simp only [c4, c6, c7, hf, true_and]
      have hz : ∀ rate, pathUpdate cfg.par rate t.chol.pc (fun i => (opoSample cfg (u k) i - opoSample cfg (u k) i) / (opoCheck cfg t).sigma) =
          (1 - cfg.par.cc) • t.chol.pc := by
        intro rate
        have : (fun i => (opoSample cfg (u k) i - opoSample cfg (u k) i) / (opoCheck cfg t).sigma) = 0 := by funext i; simp
        unfold pathUpdate
        rw [this]
        split_ifs <;> simp
      rw [hz]
    · rw [if_neg hf]
      simp [hf]

/-! ### A run with a restart, in dimension one -/

/-- Default parameters in dimension one on the interval `[0, 2]`; the value is 1 at 0, 2 between 0 and 1, and 0 from 1 on. -/
private noncomputable def valley (maxFEs : Option ℕ) : OpoCfg 1 where
  stag := { minimize := true, ftarget := none, maxFEs := maxFEs, xtol := 1e-4, ftol := 1e-4, sigma0 := 1 / 2, pTarget := 2 / 11, cp := 1 / 12, damp := 3 / 2, dim := 1 }
  par := CholPar.default 1
  vars := fun _ => { lo := 0, hi := 2 }
  objective := fun x => if x 0 ≤ 0 then 1 else if x 0 < 1 then 2 else 0
  penalty := fun _ _ => 0

private structure Failing (e : ℕ) (k : ℕ) (s : OpoState 1) : Prop where
  x : s.x = 0
  xopt : s.xopt = 0
  fopt : s.fopt = 1
  fpen : s.fpen = 1
  chol : s.chol = cholInit 1
  rate : 0 ≤ s.rate ∧ s.rate ≤ 2 / 11
  sigma : 0 < s.sigma ∧ s.sigma ≤ 1 / 2
  range : ¬ OutOfRange s.sigma
  deltaX : s.deltaX = 1e-4 / 0.9 ^ 5 * 0.9 ^ k
  deltaF : s.deltaF = 1e-4 / 0.9 ^ 5 * 0.9 ^ k
  evalCount : s.evalCount = e
  nRestart : s.nRestart = 1
  restartFlag : s.restartFlag = false
  stop : s.stop = false
  dict : s.dict = false

private theorem valley_mutant {mf : Option ℕ} {e k : ℕ} {s : OpoState 1} (h : Failing e k s) :
    opoRepair (valley mf) (opoMutant s fun _ => 1) = fun _ => s.sigma := by
  funext i
  have h1 : opoMutant s (fun _ => 1) i = s.sigma := by
    unfold opoMutant
    rw [h.x, h.chol]
    simp [cholInit]
  unfold opoRepair
  simp only [h1, valley, RealVar.round]
  exact reflect_id (by norm_num) h.sigma.1.le (by linarith [h.sigma.2])

/-- A point that is not as good as the best one changes only counters, step size and the averages. -/
private theorem failure_step {cfg : OpoCfg n} {s : OpoState n} {x : Fin n → ℝ} (hst : s.stop = false)
    (hb : ¬ cfg.stag.better (cfg.objective x + cfg.penalty (s.iterCount + 1) x) s.fpen) :
    ∃ sg c, ((sg = cfg.stag.sigma0 ∧ c = cholReset s.chol) ∨ (sg = stagSigma cfg.stag ((1 - cfg.stag.cp) * s.rate) s.sigma ∧ ¬ OutOfRange sg ∧ c = s.chol)) ∧
      opoEvaluate cfg s x = some { s with
        evalCount := s.evalCount + 1, rate := (1 - cfg.stag.cp) * s.rate, deltaF := s.deltaF * 0.9, deltaX := s.deltaX * 0.9, sigma := sg, chol := c,
        iterCount := s.iterCount + 1 } := by
  have hr : stagRate cfg.stag (cfg.stag.better (cfg.objective x + cfg.penalty (s.iterCount + 1) x) s.fpen) s.rate = (1 - cfg.stag.cp) * s.rate := by
    unfold stagRate
    rw [if_neg hb]
    ring
  unfold opoEvaluate opoTell
  rw [if_neg (show ¬ ({ s with evalCount := s.evalCount + 1 } : OpoState n).stop = true by simp [hst])]
  simp only [hr, if_neg hb, if_neg (fun h => hb (And.left h)), Option.map_some, add_zero]
  by_cases ho : OutOfRange (stagSigma cfg.stag (stagRate cfg.stag (cfg.stag.better (cfg.objective x + cfg.penalty (s.iterCount + 1) x) s.fpen) s.rate) s.sigma)
  · exact ⟨_, _, .inl ⟨rfl, rfl⟩, by rw [if_pos ho, if_pos ho]⟩
  · exact ⟨_, _, .inr ⟨rfl, hr ▸ ho, rfl⟩, by rw [if_neg ho, if_neg ho]⟩

private theorem valley_evaluate {mf : Option ℕ} {e k : ℕ} {s : OpoState 1} (h : Failing e k s) :
    ∃ t, opoEvaluate (valley mf) s (opoRepair (valley mf) (opoMutant s fun _ => 1)) = some t ∧ Failing (e + 1) (k + 1) t := by
  rw [valley_mutant h]
  obtain ⟨sg, c, hsc, he⟩ := failure_step (cfg := valley mf) (x := fun _ => s.sigma) h.stop (by
    rw [h.fpen]
    simp only [valley, StagCfg.better, if_true]
    rw [if_neg (not_le.2 h.sigma.1), if_pos (by linarith [h.sigma.2])]
    norm_num)
  refine ⟨_, he, h.x, h.xopt, h.fopt, h.fpen, ?_, ?_, ?_, ?_, ?_, ?_, by simp [h.evalCount], h.nRestart, h.restartFlag, h.stop, h.dict⟩
  · rcases hsc with ⟨_, rfl⟩ | ⟨_, _, rfl⟩
    · simp [h.chol, cholReset, cholInit]
    · exact h.chol
  · have := h.rate
    simp only [valley]
    constructor <;> linarith
  · rcases hsc with ⟨rfl, _⟩ | ⟨rfl, _, _⟩
    · simp only [valley]; norm_num
    · simp only [stagSigma, valley]
      refine ⟨mul_pos h.sigma.1 (Real.exp_pos _), ?_⟩
      have h1 : Real.exp (((1 - 1 / 12) * s.rate - 2 / 11) / (1 - 2 / 11) / (3 / 2)) ≤ 1 := by
        rw [Real.exp_le_one_iff]
        have : (1 - 1 / 12) * s.rate - 2 / 11 ≤ 0 := by linarith [h.rate.1, h.rate.2]
        have h2 : ((1 - 1 / 12) * s.rate - 2 / 11) / (1 - 2 / 11) / (3 / 2) = ((1 - 1 / 12) * s.rate - 2 / 11) * (22 / 27) := by ring
        rw [h2]
        nlinarith
      calc _ ≤ s.sigma * 1 := mul_le_mul_of_nonneg_left h1 h.sigma.1.le
        _ ≤ 1 / 2 := by linarith [h.sigma.2]
  · rcases hsc with ⟨rfl, _⟩ | ⟨_, ho, _⟩
    · norm_num [valley, OutOfRange]
    · exact ho
  · simp only [h.deltaX, pow_succ]; ring
  · simp only [h.deltaF, pow_succ]; ring

private theorem valley_final {mf : Option ℕ} {s : OpoState 1} (hm : ∀ m ∈ mf, s.evalCount < m) : opoFinal (valley mf) s = false := by
  unfold opoFinal
  rw [Bool.or_eq_false_iff]
  constructor
  · simp [valley]
  · rw [decide_eq_false_iff_not]
    rintro ⟨m, hm', h⟩
    have := hm m hm'
    omega

private theorem valley_five (mf : Option ℕ) (hm : ∀ m ∈ mf, 8 ≤ m) (g u : ℕ → Fin 1 → ℝ) (hg : ∀ k < 5, g k = fun _ => 1) :
    ∃ s, opoRun (valley mf) g u 0 1 5 = some s ∧ Failing 6 5 s := by
  suffices h : ∀ k ≤ 5, ∃ s, opoRun (valley mf) g u 0 1 k = some s ∧ Failing (1 + k) k s from h 5 le_rfl
  intro k
  induction k with
  | zero =>
    intro _
    refine ⟨_, rfl, rfl, rfl, ?_, ?_, rfl, ?_, ?_, ?_, ?_, ?_, rfl, ?_, rfl, rfl, rfl⟩
    all_goals norm_num [opoInit, valley, OutOfRange]
  | succ k ih =>
    intro hk
    obtain ⟨s, h1, h2⟩ := ih (by omega)
    obtain ⟨t, h3, h4⟩ := valley_evaluate (mf := mf) h2
    have hfin : opoFinal (valley mf) t = false := valley_final fun m hm' => by
      have := hm m hm'
      rw [h4.evalCount]
      omega
    have hpow : (1e-4 : ℝ) ≤ 1e-4 / 0.9 ^ 5 * 0.9 ^ (k + 1) := by
      have : (0.9 : ℝ) ^ 5 ≤ 0.9 ^ (k + 1) := pow_le_pow_of_le_one (by norm_num) (by norm_num) hk
      rw [div_mul_eq_mul_div, le_div_iff₀ (by norm_num)]
      exact mul_le_mul_of_nonneg_left this (by norm_num)
    have hstag : opoStagnates (valley mf) t = false := by
      unfold opoStagnates
      simp only [Bool.or_eq_false_iff, decide_eq_false_iff_not]
      refine ⟨⟨?_, ?_⟩, ?_⟩
      · exact h4.range
      · rw [h4.deltaF]; exact not_lt.2 hpow
      · rw [h4.deltaX]; exact not_lt.2 hpow
    refine ⟨t, ?_, by rw [show 1 + (k + 1) = 1 + k + 1 by ring]; exact h4⟩
    rw [opoRun, h1, Option.bind_some, if_neg (by simp [h2.stop]), opoStep, hg k (by omega), h3, Option.bind_some]
    have hc : opoCheck (valley mf) t = t := by
      have hn : 0 < t.nRestart := by rw [h4.nRestart]; norm_num
      unfold opoCheck
      simp only [hfin, hstag, h4.dict, Bool.or_false, Bool.false_eq_true, if_false, if_pos hn]
      have e1 := h4.dict
      have e2 := h4.restartFlag
      cases t
      simp_all
    rw [hc]
    unfold opoRestart
    rw [if_neg (by simp [h4.restartFlag])]

private theorem valley_sixth {mf : Option ℕ} {t : OpoState 1} (h : Failing 7 6 t) (hm : ∀ m ∈ mf, 8 ≤ m) :
    opoCheck (valley mf) t = { t with dict := true, restartFlag := true } := by
  have hfin : opoFinal (valley mf) t = false := valley_final fun m hm' => by
    have := hm m hm'
    rw [h.evalCount]
    omega
  have hstag : opoStagnates (valley mf) t = true := by
    unfold opoStagnates
    simp only [Bool.or_eq_true, decide_eq_true_eq]
    right
    rw [h.deltaX]
    norm_num [valley]
  have hn : 0 < t.nRestart := by rw [h.nRestart]; norm_num
  unfold opoCheck
  simp only [hfin, hstag, Bool.or_true, Bool.false_eq_true, if_false, if_pos hn]

private theorem valley_sample (mf : Option ℕ) (b : Fin 1 → ℝ) : opoSample (valley mf) b = fun i => 2 * b i := by
  funext i
  simp [opoSample, valley]

private theorem valley_proper (mf : Option ℕ) (u : ℕ → Fin 1 → ℝ) (hu : ∀ k i, 0 ≤ u k i ∧ u k i ≤ 1) : ProperCall (valley mf) u 0 :=
  ⟨fun i => by simp [valley], fun i => by simp [valley], hu⟩

private theorem restart_flag {s s2 : OpoState n} {b : Fin n → ℝ} (hf : s.restartFlag = true)
    (h : opoEvaluate cfg { s with x := opoSample cfg b } (opoSample cfg b) = some s2) :
    opoRestart cfg b s = some { s2 with
      sigma := cfg.stag.sigma0, chol := cholReset s2.chol, deltaX := cfg.stag.xtol * 200, deltaF := cfg.stag.ftol * 200, dict := false, nRestart := s2.nRestart - 1 } := by
  unfold opoRestart
  rw [if_pos hf, h, Option.map_some]

private theorem stopped_evaluate {s : OpoState n} {x : Fin n → ℝ} (h : s.stop = true) : opoEvaluate cfg s x = some { s with evalCount := s.evalCount + 1 } := by
  unfold opoEvaluate opoTell
  exact if_pos h

/-- **C172, a restart can break the run.**  With the default parameters, after six steps without success, a restart at a point that is better than all before puts NaN into the
matrices: its starting point is told as a successful step of length zero. -/
theorem c172_restart_nan :
    ∃ (cfg : OpoCfg 1) (g u : ℕ → Fin 1 → ℝ) (x0 : Fin 1 → ℝ), ProperCall cfg u x0 ∧ cfg.par = CholPar.default 1 ∧ cfg.stag.maxFEs = some 1000 ∧
      (∃ s, opoRun cfg g u x0 1 5 = some s ∧ s.stop = false) ∧ opoRun cfg g u x0 1 6 = none := by
  obtain ⟨s, h1, h2⟩ := valley_five (some 1000) (by simp) (fun _ _ => 1) (fun _ _ => 1) (fun _ _ => rfl)
  refine ⟨valley (some 1000), fun _ _ => 1, fun _ _ => 1, 0, valley_proper _ _ (fun _ _ => by norm_num), rfl, rfl, ⟨s, h1, h2.stop⟩, ?_⟩
  obtain ⟨t, h3, h4⟩ := valley_evaluate (mf := some 1000) h2
  refine (c172_nan_partial (c33_default_rates 1) h1 h2.stop _ rfl).2 (.inr ⟨t, h3, ?_⟩)
  rw [valley_sixth h4 (by simp)]
  refine ⟨rfl, h4.stop, ?_, ?_⟩
  · rw [valley_sample, h4.fpen]
    simp [valley, StagCfg.better]
    norm_num
  · rw [h4.chol]
    simp [cholInit]

/-- **C172, an evaluated point that is not considered.**  When the budget is used up in a step after a restart, one more point is evaluated and not looked at; here it is better than the
point that is reported. -/
theorem c172_last_point_ignored :
    ∃ (cfg : OpoCfg 1) (g u : ℕ → Fin 1 → ℝ) (x0 : Fin 1 → ℝ) (s : OpoState 1), ProperCall cfg u x0 ∧ (∀ t x, cfg.penalty t x = 0) ∧
      cfg.stag.minimize = true ∧ cfg.stag.maxFEs = some 9 ∧ opoRun cfg g u x0 1 7 = some s ∧ s.stop = true ∧ s.evalCount = 10 ∧ s.x = opoSample cfg (u 6) ∧
      cfg.objective s.x < s.fopt := by
  have hu : ∀ k (i : Fin 1), 0 ≤ (fun (k : ℕ) (_ : Fin 1) => if k = 5 then (1 / 4 : ℝ) else 1) k i ∧ (fun (k : ℕ) (_ : Fin 1) => if k = 5 then (1 / 4 : ℝ) else 1) k i ≤ 1 := by
    intro k i
    dsimp only
    split_ifs <;> norm_num
  set u : ℕ → Fin 1 → ℝ := fun k _ => if k = 5 then 1 / 4 else 1 with hud
  set g : ℕ → Fin 1 → ℝ := fun k _ => if k < 6 then 1 else 0 with hgd
  obtain ⟨s, h1, h2⟩ := valley_five (some 9) (by simp) g u (fun k hk => by funext i; simp [hgd]; omega)
  obtain ⟨t, h3, h4⟩ := valley_evaluate (mf := some 9) h2
  have hg5 : g 5 = fun _ => 1 := by funext i; simp [hgd]
  have hs5 : opoSample (valley (some 9)) (u 5) = fun _ => 1 / 2 := by rw [valley_sample]; funext i; norm_num [hud]
  have hbad : (valley (some 9)).objective (fun _ => 1 / 2) = 2 := by norm_num [valley]
  -- the restart
  obtain ⟨sg, c, hsc, he⟩ := failure_step (cfg := valley (some 9)) (s := { opoCheck (valley (some 9)) t with x := fun _ => 1 / 2 }) (x := fun _ => 1 / 2)
    (by rw [valley_sixth h4 (by simp)]; exact h4.stop) (by
      rw [valley_sixth h4 (by simp)]
      simp only [h4.fpen, hbad, StagCfg.better]
      norm_num [valley])
  rw [valley_sixth h4 (by simp)] at he
  have h6 : ∃ s6, opoRun (valley (some 9)) g u 0 1 6 = some s6 ∧ s6.x = (fun _ => 1 / 2) ∧ s6.fopt = 1 ∧ s6.fpen = 1 ∧ s6.evalCount = 8 ∧ s6.stop = false ∧
      s6.restartFlag = true := by
    have hr6 : opoRun (valley (some 9)) g u 0 1 6 = opoRestart (valley (some 9)) (u 5) { t with dict := true, restartFlag := true } := by
      rw [opoRun, h1, Option.bind_some, if_neg (by simp [h2.stop]), opoStep, hg5, h3, Option.bind_some, valley_sixth h4 (by simp)]
    rw [← hs5] at he
    rw [hr6]
    refine ⟨_, restart_flag rfl he, ?_⟩
    · exact ⟨hs5, h4.fopt, h4.fpen, by simp [h4.evalCount], h4.stop, rfl⟩
  obtain ⟨s6, h6, e1, e2, e3, e4, e5, e6⟩ := h6
  -- the last step
  have hmut : opoRepair (valley (some 9)) (opoMutant s6 (g 6)) = fun _ => 1 / 2 := by
    funext i
    have h : opoMutant s6 (g 6) i = 1 / 2 := by
      have : g 6 = 0 := by funext j; simp [hgd]
      rw [this]
      simp [opoMutant, e1]
    unfold opoRepair
    simp only [h, valley, RealVar.round]
    exact reflect_id (by norm_num) (by norm_num) (by norm_num)
  obtain ⟨sg', c', hsc', he'⟩ := failure_step (cfg := valley (some 9)) (s := s6) (x := fun _ => 1 / 2) e5 (by
      simp only [e3, hbad, StagCfg.better]
      norm_num [valley])
  have hs6 : opoSample (valley (some 9)) (u 6) = fun _ => 2 := by rw [valley_sample]; funext i; norm_num [hud]
  have hgood : (valley (some 9)).objective (fun _ => 2) = 0 := by norm_num [valley]
  set t6 : OpoState 1 := { s6 with
        evalCount := s6.evalCount + 1, rate := (1 - (valley (some 9)).stag.cp) * s6.rate, deltaF := s6.deltaF * 0.9, deltaX := s6.deltaX * 0.9, sigma := sg', chol := c',
        iterCount := s6.iterCount + 1 } with ht6
  have hfin : opoFinal (valley (some 9)) t6 = true := by
    unfold opoFinal
    rw [Bool.or_eq_true]
    right
    simp only [decide_eq_true_eq]
    exact ⟨9, rfl, by simp [ht6, e4]⟩
  have h7 : ∃ s7, opoRun (valley (some 9)) g u 0 1 7 = some s7 ∧ s7.stop = true ∧ s7.evalCount = 10 ∧ s7.x = (fun _ => 2) ∧ s7.fopt = 1 := by
    have hr7 : opoRun (valley (some 9)) g u 0 1 7 =
        opoRestart (valley (some 9)) (u 6) { t6 with dict := t6.dict || opoFinal (valley (some 9)) t6 || opoStagnates (valley (some 9)) t6, stop := true } := by
      rw [opoRun, h6, Option.bind_some, if_neg (by simp [e5]), opoStep, hmut, he', Option.bind_some]
      unfold opoCheck
      rw [if_pos hfin]
    rw [hr7]
    exact ⟨_, restart_flag e6 (stopped_evaluate rfl), rfl, by simp [ht6, e4], hs6, e2⟩
  obtain ⟨s7, h7, d1, d2, d3, d4⟩ := h7
  exact ⟨valley (some 9), g, u, 0, s7, valley_proper _ _ hu, fun _ _ => rfl, rfl, rfl, h7, d1, d2, by rw [d3, hs6], by rw [d3, d4, hgood]; norm_num⟩

/-- The hypotheses of the theorems above hold in this example, which ends by itself. -/
example : ∃ (cfg : OpoCfg 1) (g u : ℕ → Fin 1 → ℝ) (x0 : Fin 1 → ℝ) (s : OpoState 1), ProperCall cfg u x0 ∧ (∀ t x, cfg.penalty t x = 0) ∧ RatesOk cfg.par ∧
    cfg.stag.maxFEs = some 9 ∧ opoRun cfg g u x0 1 5 = some s ∧ s.stop = false := by
  obtain ⟨s, h1, h2⟩ := valley_five (some 9) (by simp) (fun _ _ => 1) (fun _ _ => 1) (fun _ _ => rfl)
  exact ⟨valley (some 9), _, _, 0, s, valley_proper _ _ (fun _ _ => by norm_num), fun _ _ => rfl, c33_default_rates 1, rfl, h1, h2.stop⟩

end Verif.Props
