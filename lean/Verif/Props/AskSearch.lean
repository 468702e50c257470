import Verif.Spec.AskSearch
import Verif.Props.AskFull

/-! # C155: the proposed point is the best one the acquisition search has evaluated -/
namespace Verif.Props
open Verif.Model Verif.Spec Verif.Proofs

variable {G : Type*}

/-! ### The (1+1)-CMA-ES -/

private structure Running {n : ℕ} (s : CmaState n) : Prop where
  flag : s.restartFlag = false
  restarts : s.nRestart ≤ 0
  dict : s.stop = false → s.dict = false
  count : s.told.length = s.evalCount

private theorem told_evaluate {n : ℕ} (cfg : CmaCfg n) (s : CmaState n) (x : Fin n → ℝ) (hs : s.stop = false) :
    (cmaEvaluate cfg s x).told = s.told ++ [⟨x, cfg.objective x, cfg.penalty (s.iterCount + 1) x⟩] ∧ (cmaEvaluate cfg s x).evalCount = s.evalCount + 1 ∧
      (cmaEvaluate cfg s x).restartFlag = s.restartFlag ∧ (cmaEvaluate cfg s x).nRestart = s.nRestart ∧ (cmaEvaluate cfg s x).dict = s.dict ∧
      (cmaEvaluate cfg s x).stop = false := by
  unfold cmaEvaluate cmaTell
  rw [if_neg (by simp [hs])]
  cases hb : s.best with
  | none => simp [hs]
  | some b => simp [hs]

private theorem running_step {n : ℕ} (cfg : CmaCfg n) (ht : cfg.ftarget = none) (w : CmaNoise n) (s : CmaState n) (hs : s.stop = false) (h : Running s) :
    Running (cmaStep cfg w s) ∧ ((cmaStep cfg w s).stop = true → cfg.maxFEs ≤ (cmaStep cfg w s).evalCount ∨ w.stag = true) := by
  obtain ⟨h1, h2, h3, h4, h5, h6⟩ := told_evaluate cfg s (cmaAsk cfg (w.mutant s.x)) hs
  have hhit : ∀ t : CmaState n, cmaHit cfg t = false := by intro t; unfold cmaHit; rw [ht]
  have hn : ¬ 0 < s.nRestart := by have := h.restarts; omega
  unfold cmaStep
  set t := cmaEvaluate cfg s (cmaAsk cfg (w.mutant s.x)) with htd
  have hflag : (cmaCheckStop cfg w.stag t).restartFlag = false := by
    unfold cmaCheckStop
    simp only [hhit, h4, hn, if_false, Bool.false_or]
    split <;> exact h3.trans h.flag
  have hr : cmaRestart cfg w.u (cmaCheckStop cfg w.stag t) = cmaCheckStop cfg w.stag t := by
    unfold cmaRestart
    rw [hflag]
    rfl
  rw [hr]
  have hd : t.dict = false := by rw [h5]; exact h.dict hs
  have hcount : t.told.length = t.evalCount := by rw [h1, h2, List.length_append, h.count]; rfl
  unfold cmaCheckStop
  simp only [hhit, h4, hn, if_false, hd, Bool.false_or, Bool.or_false]
  by_cases hf : cmaFull cfg t = true
  · rw [if_pos hf]
    refine ⟨⟨h3.trans h.flag, h.restarts, (by intro hc; cases hc), hcount⟩, fun _ => Or.inl ?_⟩
    unfold cmaFull at hf
    simpa using hf
  · rw [if_neg hf]
    refine ⟨⟨h3.trans h.flag, h.restarts, fun hc => hc, hcount⟩, fun hc => ?_⟩
    right
    have hf' : cmaFull cfg t = false := by simpa using hf
    simpa [hf'] using hc

private theorem running_run {n : ℕ} (cfg : CmaCfg n) (ht : cfg.ftarget = none) (noise : ℕ → CmaNoise n) : ∀ (fuel k : ℕ) (s : CmaState n), Running s →
    (s.stop = true → cfg.maxFEs ≤ s.evalCount ∨ ∃ t, (noise t).stag = true) →
    Running (cmaRun cfg noise fuel k s).1 ∧
      ((cmaRun cfg noise fuel k s).1.stop = true → cfg.maxFEs ≤ (cmaRun cfg noise fuel k s).1.evalCount ∨ ∃ t, (noise t).stag = true) := by
  intro fuel
  induction fuel with
  | zero => intro k s h h'; exact ⟨h, h'⟩
  | succ fuel ih =>
    intro k s h h'
    unfold cmaRun
    by_cases hs : s.stop = true
    · rw [if_pos hs]; exact ⟨h, h'⟩
    · rw [if_neg hs]
      obtain ⟨h1, h2⟩ := running_step cfg ht (noise k) s (by simpa using hs) h
      exact ih (k + 1) _ h1 (fun hc => (h2 hc).imp id (fun hx => ⟨k, hx⟩))

private theorem run_ends {n : ℕ} (cfg : CmaCfg n) (noise : ℕ → CmaNoise n) : ∀ (fuel k : ℕ) (s : CmaState n),
    (cmaRun cfg noise fuel k s).2 = true → (cmaRun cfg noise fuel k s).1.stop = true := by
  intro fuel
  induction fuel with
  | zero => intro k s h; exact h
  | succ fuel ih =>
    intro k s h
    unfold cmaRun at h ⊢
    by_cases hs : s.stop = true
    · rw [if_pos hs]; exact hs
    · rw [if_neg hs] at h ⊢; exact ih _ _ h

/-! ### MIES -/

private theorem values_after (cfg : MiesCfg ℝ) (f : Row → ℝ) (hf : ∀ t r, cfg.fit t r = f r) (sample : List Row) (noise : ℕ → ℕ → MNoise) : ∀ (t : ℕ) (s : MiesState ℝ),
    miesAfter cfg sample noise t = some s → ∀ x ∈ s.evaluated, x.2 = f x.1 := by
  intro t
  induction t with
  | zero =>
    intro s h x hx
    unfold miesAfter miesInit at h
    simp only [Option.map_eq_some_iff] at h
    obtain ⟨c, -, rfl⟩ := h
    simp only [List.mem_map] at hx
    obtain ⟨r, -, rfl⟩ := hx
    exact hf 0 r
  | succ t ih =>
    intro s h x hx
    unfold miesAfter at h
    rw [Option.bind_eq_some_iff] at h
    obtain ⟨s', h1, h2⟩ := h
    unfold miesStep at h2
    rw [Option.bind_eq_some_iff] at h2
    obtain ⟨rows, -, h3⟩ := h2
    simp only [Option.map_eq_some_iff] at h3
    obtain ⟨c, -, rfl⟩ := h3
    rcases List.mem_append.mp hx with hx | hx
    · exact ih s' h1 x hx
    · obtain ⟨r, -, rfl⟩ := List.mem_map.mp hx
      exact hf _ r

private theorem loop_ends (cfg : MiesCfg ℝ) (flat : ℕ → Bool) (noise : ℕ → ℕ → MNoise) : ∀ (fuel : ℕ) (s r : MiesState ℝ),
    miesLoop cfg flat noise fuel s = .done r → cfg.maxEval < r.evalCount ∨ ∃ t, flat t = true := by
  intro fuel
  induction fuel with
  | zero => intro s r h; cases h
  | succ fuel ih =>
    intro s r h
    unfold miesLoop at h
    split at h
    · rename_i hc
      cases h
      exact hc.imp id (fun hx => ⟨_, hx.2⟩)
    · cases hst : miesStep cfg s (noise s.iterCount) with
      | none => rw [hst] at h; cases h
      | some s' => rw [hst] at h; exact ih s' r h

/-! ### A restart -/

/-- **C155, one restart** of the (1+1)-CMA-ES or of MIES without constraints: it returns a point it has evaluated, with its acquisition value, and no point it has
evaluated has a larger one; it reports the number of its evaluations, exceeds its budget by at most `overshoot`, and uses it up unless it stagnates. -/
theorem c155_restart (e : AskEnv G) (ks : List Kind) (hl : LibrariesOk e ks) (hs : SpaceOk e ks) (halgo : e.algo ≠ .bfgs) (hpen : ∀ t x, e.penalty t x = 0)
    (i k : ℕ) (b : ℤ) : ∃ o, innerRun e ks i k b = some o ∧ o.f = some (e.value i o.x) ∧ o.x ∈ innerLog e ks i k b ∧
      (∀ y ∈ innerLog e ks i k b, PointOf ks y ∧ e.value i y ≤ e.value i o.x) ∧ o.funcalls = (innerLog e ks i k b).length ∧
      (1 ≤ b → (o.funcalls : ℤ) ≤ b + overshoot e.algo) ∧ (¬ Stagnates e ks.length i k → b ≤ o.funcalls) := by
  cases ha : e.algo with
  | bfgs => exact absurd ha halgo
  | onePlusOne =>
    have hreal := hs.real (by rw [ha]; decide)
    unfold innerRun innerLog Stagnates
    simp only [ha]
    set cfg := cmaCfgOf e ks i b with hcfg
    have hlt : ∀ j, (cfg.vars j).lo < (cfg.vars j).hi := cma_bounds e ks hs hreal i b
    set d := e.draws ks.length i k with hd
    have hinit : cmaInit cfg (cmaSample cfg d.start) 0 =
        some (cmaSetX cfg (cmaEmpty (cmaSample cfg d.start) 0) (cmaSample cfg d.start)) := by
      unfold cmaInit
      rw [if_pos (cma_start cfg hlt d.start (hl.start i k))]
    rw [hinit, Option.bind_some, Option.map_some, Option.getD_some]
    set s0 := cmaSetX cfg (cmaEmpty (cmaSample cfg d.start) 0) (cmaSample cfg d.start) with hs0
    obtain ⟨ws, h1, h2⟩ := cma_run_steps cfg d.steps (cfg.maxFEs + 1) 0 s0
    have hreach : CmaReachable cfg 0 (cmaRun cfg d.steps (cfg.maxFEs + 1) 0 s0).1 :=
      ⟨_, _, ws, hinit, fun w hw => by obtain ⟨t, rfl⟩ := h1 w hw; exact hl.steps i k t, h2⟩
    obtain ⟨xopt, fopt, fpen, h3, h4, ⟨c, hc, h5⟩, h6⟩ := c32_unconstrained_best cfg hlt (fun t x => hpen t _) 0 _ hreach
    obtain ⟨-, -, h7⟩ := c32_in_box cfg hlt 0 _ hreach
    have hrun0 : Running s0 := by
      obtain ⟨g1, g2, g3, g4, g5, g6⟩ := told_evaluate cfg { cmaEmpty (cmaSample cfg d.start) 0 with x := cmaSample cfg d.start } (cmaSample cfg d.start) rfl
      refine ⟨g3, ?_, fun _ => g5, ?_⟩
      · show (cmaEvaluate _ _ _).nRestart ≤ 0
        rw [g4]; simp [cmaEmpty]
      · show (cmaEvaluate _ _ _).told.length = (cmaEvaluate _ _ _).evalCount
        rw [g1, g2]; rfl
    have hstop0 : s0.stop = false := (told_evaluate cfg { cmaEmpty (cmaSample cfg d.start) 0 with x := cmaSample cfg d.start } (cmaSample cfg d.start) rfl).2.2.2.2.2
    obtain ⟨h8, h9⟩ := running_run cfg rfl d.steps (cfg.maxFEs + 1) 0 s0 hrun0 (fun hx => by rw [hstop0] at hx; cases hx)
    have hend := run_ends cfg d.steps (cfg.maxFEs + 1) 0 s0 (c64_terminates cfg d.steps s0 0 (cfg.maxFEs + 1) le_rfl)
    have hbud := (c64_budget cfg _ 0 s0 hinit d.steps (cfg.maxFEs + 1)).2 le_rfl
    have hval : fopt = e.value i (vectorRow xopt) := h4
    have hmax : cfg.maxFEs = b.toNat := rfl
    rw [h3]
    refine ⟨_, rfl, by rw [hval], ?_, ?_, ?_, ?_, ?_⟩
    · rw [h5]; exact List.mem_map.mpr ⟨c, hc, rfl⟩
    · intro y hy
      obtain ⟨c', hc', rfl⟩ := List.mem_map.mp hy
      refine ⟨cma_point e ks i b hreal c'.x (h7 c' hc').1, ?_⟩
      have := h6 c' hc'
      rw [hval] at this
      exact this
    · rw [List.length_map]; exact h8.count.symm
    · intro hb
      show ((cmaRun cfg d.steps (cfg.maxFEs + 1) 0 s0).1.evalCount : ℤ) ≤ b + 1
      omega
    · intro hst
      have := (h9 hend).resolve_right hst
      show b ≤ ((cmaRun cfg d.steps (cfg.maxFEs + 1) 0 s0).1.evalCount : ℤ)
      omega
  | mies =>
    unfold innerRun innerLog Stagnates
    simp only [ha]
    set d := e.draws ks.length i k with hd
    obtain ⟨rows, g', h1, -, h3, h4⟩ := sampled_points e ks hl.rng hs 4 (by omega) d.gen
    rw [h1, Option.bind_some, Option.bind_some]
    have hok : MiesOk (miesCfgOf e ks i b) (sampledRows rows) d.noise := mies_ok e ks hl hs i k b rows h3 h4
    obtain ⟨s0, e0, -⟩ := c31_invariant_partial _ _ _ hok 0
    have e0' : miesInit (miesCfgOf e ks i b) (sampledRows rows) = some s0 := e0
    obtain ⟨r, t, h5, h6⟩ := c63_terminates _ _ _ hok (by simp [miesCfgOf]) d.flat s0 e0' ((miesCfgOf e ks i b).maxEval + 2) le_rfl
    obtain ⟨s, h7, -, -, h8, -, h9, h10, -, h11⟩ := c31_invariant_partial _ _ _ hok t
    rw [h6] at h7
    obtain rfl := Option.some.inj h7
    have hval := values_after (miesCfgOf e ks i b) (e.value i) (fun t r => by show e.penalty (t + 1) r + e.value i r = _; rw [hpen, zero_add]) _ _ t r h6
    have hbud := c63_budget _ _ _ hok d.flat s0 e0' _ r h5
    have hend := loop_ends _ _ _ _ _ _ h5
    have hmax : (miesCfgOf e ks i b).maxEval = b.toNat := rfl
    have hmu : (miesCfgOf e ks i b).mu = 4 := rfl
    have hlam : (miesCfgOf e ks i b).lam = 10 := rfl
    simp only [e0', Option.bind_some, Option.map_some, Option.getD_some, h5, miesOutcome]
    have hx : r.fopt = e.value i r.xopt := hval _ h9
    refine ⟨_, rfl, by rw [hx], List.mem_map.mpr ⟨_, h9, rfl⟩, ?_, ?_, ?_, ?_⟩
    · intro y hy
      obtain ⟨c, hc, rfl⟩ := List.mem_map.mp hy
      refine ⟨h8 c hc, ?_⟩
      have := h10 c hc
      rw [hval c hc, hx] at this
      exact this
    · rw [List.length_map]; exact h11
    · intro hb
      show (r.evalCount : ℤ) ≤ b + 10
      omega
    · intro hst
      have := hend.resolve_right hst
      show b ≤ (r.evalCount : ℤ)
      omega

/-! ### The whole search -/

/-- **C155** for a search without constraints: the point proposed for an acquisition function has been evaluated in one of the restarts performed, and no point
evaluated in any of them has a larger acquisition value.  Restart `k` gets the budget `B k` that the ones before it have left, each but the first starts with a positive one, and all
together make at most `overshoot` evaluations more than allowed. -/
theorem c155_search_best_partial (e : AskEnv G) (vars : Vars) (fixed : List (String × Val)) (hl : LibrariesOk e (freeKinds vars fixed))
    (hs : SpaceOk e (freeKinds vars fixed)) (halgo : e.algo ≠ .bfgs) (hpen : ∀ t x, e.penalty t x = 0) (hh : e.h = none) (hg : e.g = none)
    (hn : 1 ≤ e.nRestart) (hb : 1 ≤ e.budget) (i : ℕ) :
    ∃ (n : ℕ) (B : ℕ → ℤ), 1 ≤ n ∧ n ≤ e.nRestart ∧ B 0 = e.budget ∧
      (∀ k < n, 0 < B k ∧ B (k + 1) = B k - (innerLog e (freeKinds vars fixed) i k (B k)).length) ∧ - overshoot e.algo ≤ B n ∧
      (∃ k < n, acquisitionBest e vars fixed i ∈ innerLog e (freeKinds vars fixed) i k (B k)) ∧
      ∀ k < n, ∀ y ∈ innerLog e (freeKinds vars fixed) i k (B k), e.value i y ≤ e.value i (acquisitionBest e vars fixed i) := by
  set ks := freeKinds vars fixed with hks
  unfold acquisitionBest
  simp only [hh, hg, Option.map_none, ← hks]
  set restart : ℕ → ℤ → Outcome Row ℝ := fun k b => (innerRun e ks i k b).getD ⟨[], none, 0⟩ with hre
  have hrest : ∀ k b, (restart k b).f = some (e.value i (restart k b).x) ∧ (restart k b).x ∈ innerLog e ks i k b ∧
      (∀ y ∈ innerLog e ks i k b, e.value i y ≤ e.value i (restart k b).x) ∧ (restart k b).funcalls = (innerLog e ks i k b).length ∧
      (1 ≤ b → ((restart k b).funcalls : ℤ) ≤ b + overshoot e.algo) := by
    intro k b
    obtain ⟨o, h1, h2, h3, h4, h5, h6, -⟩ := c155_restart e ks hl hs halgo hpen i k b
    have : restart k b = o := by simp only [hre, h1, Option.getD_some]
    rw [this]
    exact ⟨h2, h3, fun y hy => (h4 y hy).2, h5, h6⟩
  obtain ⟨r1, r0, r2, r3, r4⟩ := c30_early_stop_partial restart none none e.waitIter e.nRestart e.budget
  have hempty := c30_empty_iff_infeasible e.argsort hl.argsort restart none none e.waitIter e.nRestart e.budget
  have hbest := c30_best_value_partial e.argsort hl.argsort restart none none e.waitIter e.nRestart e.budget
  have hfeas : ∀ x : Row, FeasibleUpTo (K := ℝ) none none x := fun x => ⟨by simp, by simp⟩
  have hall : ∀ l : List (Outcome Row ℝ), feasibleRuns none none l = l := by
    intro l
    unfold feasibleRuns
    rw [List.filter_eq_self]
    intro o _
    simpa using hfeas o.x
  set runs := (restartRun restart none none e.waitIter e.nRestart e.budget).runs with hruns
  simp only [hall] at r2 r3 r4
  have hpos : 1 ≤ runs.length := r0 hn
  have hk : ∀ k < runs.length, runs[k]? = some (restart k (e.budget - ((runs.take k).map (fun o => (o.funcalls : ℤ))).sum)) := r2
  have hsome : ∀ o ∈ runs, ∃ k < runs.length, o = restart k (e.budget - ((runs.take k).map (fun o => (o.funcalls : ℤ))).sum) := by
    intro o ho
    obtain ⟨k, h⟩ := List.getElem?_of_mem ho
    have hlt := (List.getElem?_eq_some_iff.mp h).1
    rw [hk k hlt] at h
    exact ⟨k, hlt, (Option.some.inj h).symm⟩
  have hB : ∀ k < runs.length, 0 < e.budget - ((runs.take k).map (fun o => (o.funcalls : ℤ))).sum := by
    intro k hlt
    rcases Nat.eq_zero_or_pos k with rfl | hpk
    · simp; omega
    · have := (r3 k hpk hlt).1
      unfold Exhausted at this
      omega
  have hstep : ∀ k < runs.length, ((runs.take (k + 1)).map (fun o => (o.funcalls : ℤ))).sum = ((runs.take k).map (fun o => (o.funcalls : ℤ))).sum +
      (restart k (e.budget - ((runs.take k).map (fun o => (o.funcalls : ℤ))).sum)).funcalls := by
    intro k hlt
    have h1 := hk k hlt
    rw [List.getElem?_eq_getElem hlt] at h1
    rw [List.take_add_one, List.getElem?_eq_getElem hlt, Option.some.inj h1]
    simp
  obtain ⟨⟨x, f⟩, hx⟩ : ∃ p, argmaxRestart e.argsort restart none none e.waitIter e.nRestart e.budget = some p := by
    rw [← Option.ne_none_iff_exists']
    intro hc
    exact hempty.1.mp hc runs[0] (List.getElem_mem hpos) (hfeas _)
  obtain ⟨o, ho, -, hox, hof⟩ := hempty.2 x f hx
  obtain ⟨v, hv, hmax⟩ := hbest (fun o ho _ => by obtain ⟨k, -, rfl⟩ := hsome o ho; rw [(hrest k _).1]; simp) x f hx
  have hvx : v = e.value i x := by
    obtain ⟨k, -, rfl⟩ := hsome o ho
    rw [(hrest k _).1, hox, hv] at hof
    exact (Option.some.inj hof).symm
  rw [hx, Option.map_some, Option.getD_some]
  refine ⟨runs.length, fun k => e.budget - ((runs.take k).map (fun o => (o.funcalls : ℤ))).sum, hpos, r1, by simp, ?_, ?_, ?_, ?_⟩
  · intro k hlt
    refine ⟨hB k hlt, ?_⟩
    simp only
    rw [hstep k hlt, ← (hrest k _).2.2.2.1]
    ring
  · obtain ⟨m, hm⟩ : ∃ m, runs.length = m + 1 := ⟨runs.length - 1, by omega⟩
    have hlt : m < runs.length := by omega
    simp only
    rw [hm, hstep m hlt]
    have h1 := hB m hlt
    have h2 := (hrest m (e.budget - ((runs.take m).map (fun o => (o.funcalls : ℤ))).sum)).2.2.2.2 (by omega)
    omega
  · obtain ⟨k, hlt, rfl⟩ := hsome o ho
    exact ⟨k, hlt, hox ▸ (hrest k _).2.1⟩
  · intro k hlt y hy
    have h1 := (hrest k _).2.2.1 y hy
    obtain ⟨v', hv', hle⟩ := hmax _ (List.mem_of_getElem? (hk k hlt)) (hfeas _)
    rw [(hrest k _).1] at hv'
    rw [← hvx]
    rw [Option.some.inj hv'] at h1
    exact h1.trans hle

private theorem check_single (ks : List Kind) (data : List Row) (x : Row) (h : ∀ y ∈ data, ¬ matchesRow ks y x) : preEvalCheck ks data [x] = [x] := by
  classical
  unfold preEvalCheck
  rw [show List.range [x].length = [0] from rfl, List.filter_eq_self.mpr]
  · rfl
  · intro i hi
    rw [List.mem_singleton] at hi
    subst hi
    rw [Bool.not_eq_true', List.any_eq_false]
    intro j hj hc
    obtain ⟨h1, h2⟩ := of_decide_eq_true hc
    obtain ⟨m, rfl⟩ : ∃ m, j = m + 1 := ⟨j - 1, by omega⟩
    have hm : m < data.length := by
      have := List.mem_range.mp hj
      simp at this
      omega
    refine h data[m] (List.getElem_mem hm) ?_
    simpa [List.getD_eq_getElem?_getD, hm] using h2

/-- **C155 for `ask`**: with a fitted model and one point requested, `ask` returns a point of the space that maximises the acquisition function among all the points
its search has evaluated, unless that point agrees with one already recorded. -/
theorem c155_ask_partial (e : AskEnv G) (s : AskState) (hl : LibrariesOk e (s.vars.map Prod.snd)) (hs : SpaceOk e (s.vars.map Prod.snd)) (halgo : e.algo ≠ .bfgs)
    (hpen : ∀ t x, e.penalty t x = 0) (hh : e.h = none) (hg : e.g = none) (hn : 1 ≤ e.nRestart) (hb : 1 ≤ e.budget) (hf : s.fitted = true) (hp : s.nPoint = 1)
    (hv : s.vars ≠ []) :
    ∃ (x : Row) (n : ℕ) (B : ℕ → ℤ), PointOf (s.vars.map Prod.snd) x ∧ 1 ≤ n ∧ B 0 = e.budget ∧
      (∃ k < n, x ∈ innerLog e (s.vars.map Prod.snd) 0 k (B k)) ∧
      (∀ k < n, ∀ y ∈ innerLog e (s.vars.map Prod.snd) 0 k (B k), e.value 0 y ≤ e.value 0 x) ∧
      ((∀ y ∈ s.data, ¬ matchesRow (s.vars.map Prod.snd) y x) → askFull e s none none = .ok [x]) := by
  have hfree : freeKinds s.vars [] = s.vars.map Prod.snd := by
    unfold freeKinds
    rw [List.filter_eq_self.mpr]
    intro v _
    rfl
  rw [← hfree] at hl hs
  obtain ⟨n, B, h1, -, h3, -, -, ⟨k, hk, h6⟩, h7⟩ := c155_search_best_partial e s.vars [] hl hs halgo hpen hh hg hn hb 0
  obtain ⟨o, -, -, -, h8, -⟩ := c155_restart e _ hl hs halgo hpen 0 k (B k)
  have hpt := (h8 _ h6).1
  rw [hfree] at h6 h7 hpt
  refine ⟨acquisitionBest e s.vars [] 0, n, B, hpt, h1, h3, ⟨k, hk, h6⟩, h7, fun hd => ?_⟩
  have hne : (acquisitionBest e s.vars [] 0).isEmpty = false := by
    cases hx : acquisitionBest e s.vars [] 0 with
    | nil =>
      have := hpt.1
      rw [hx] at this
      simp only [List.length_nil, List.length_map] at this
      exact absurd (List.length_eq_zero_iff.mp this.symm) hv
    | cons a l => rfl
  have hc : argMaxAcquisition s 1 none (acquisitionBest e s.vars []) = .ok [acquisitionBest e s.vars [] 0] := by
    unfold argMaxAcquisition fillin
    simp [hne, Except.bind]
  unfold askFull ask askPoints
  rw [if_pos hf]
  simp only [Option.getD_none, hp, hc]
  show Except.bind (if ((preEvalCheck _ s.data [acquisitionBest e s.vars [] 0]).length : ℤ) < 1 then _ else .ok _) _ = _
  rw [check_single _ _ _ hd]
  rfl

/-- The points of a batch agree with no recorded point and not with each other. -/
def FreshBatch (ks : List Kind) (data X : List Row) : Prop :=
  (∀ x ∈ X, ∀ y ∈ data, ¬ matchesRow ks y x) ∧ ∀ (i j : ℕ) (x y : Row), i ≠ j → X[i]? = some x → X[j]? = some y → ¬ matchesRow ks y x

private theorem check_batch (ks : List Kind) (data X : List Row) (h : FreshBatch ks data X) : preEvalCheck ks data X = X := by
  classical
  have hget : (List.range X.length).map (fun i => (X ++ data).getD i []) = X := by
    refine List.ext_getElem (by simp) (fun i h1 h2 => ?_)
    simp [List.getD_eq_getElem?_getD, List.getElem?_append_left h2, h2]
  unfold preEvalCheck
  rw [List.filter_eq_self.mpr]
  · exact hget
  · intro i hi
    have hi := List.mem_range.mp hi
    have hgi : (X ++ data).getD i [] = X[i] := by simp [List.getD_eq_getElem?_getD, List.getElem?_append_left hi, hi]
    rw [Bool.not_eq_true', List.any_eq_false]
    intro j hj hc
    obtain ⟨h1, h2⟩ := of_decide_eq_true hc
    rw [hgi] at h2
    by_cases hjx : j < X.length
    · rw [show (X ++ data).getD j [] = X[j] by simp [List.getD_eq_getElem?_getD, List.getElem?_append_left hjx, hjx]] at h2
      exact h.2 i j X[i] X[j] (Ne.symm h1) (List.getElem?_eq_getElem hi) (List.getElem?_eq_getElem hjx) h2
    · have hm : j - X.length < data.length := by
        have := List.mem_range.mp hj
        rw [List.length_append] at this
        omega
      rw [show (X ++ data).getD j [] = data[j - X.length] by
        simp [List.getD_eq_getElem?_getD, List.getElem?_append_right (Nat.le_of_not_lt hjx), hm]] at h2
      exact h.1 X[i] (List.getElem_mem hi) _ (List.getElem_mem hm) h2

/-- **C155 for `ask`, batches**: with a fitted model and several points requested, `ask` returns, for every acquisition function, a point of the space that maximises it
among all the points its search has evaluated, unless some of these points agree with one another or with one already recorded. -/
theorem c155_ask_batch_partial (e : AskEnv G) (s : AskState) (hl : LibrariesOk e (s.vars.map Prod.snd)) (hs : SpaceOk e (s.vars.map Prod.snd)) (halgo : e.algo ≠ .bfgs)
    (hpen : ∀ t x, e.penalty t x = 0) (hh : e.h = none) (hg : e.g = none) (hn : 1 ≤ e.nRestart) (hb : 1 ≤ e.budget) (hf : s.fitted = true) (hp : 1 < s.nPoint)
    (hpar : s.parallel = true) (hv : s.vars ≠ []) :
    ∃ X : List Row, (X.length : ℤ) = s.nPoint ∧
      (∀ (i : ℕ) (x : Row), X[i]? = some x → PointOf (s.vars.map Prod.snd) x ∧ ∃ (n : ℕ) (B : ℕ → ℤ), 1 ≤ n ∧ B 0 = e.budget ∧
        (∃ k < n, x ∈ innerLog e (s.vars.map Prod.snd) i k (B k)) ∧
        ∀ k < n, ∀ y ∈ innerLog e (s.vars.map Prod.snd) i k (B k), e.value i y ≤ e.value i x) ∧
      (FreshBatch (s.vars.map Prod.snd) s.data X → askFull e s none none = .ok X) := by
  have hfree : freeKinds s.vars [] = s.vars.map Prod.snd := by
    unfold freeKinds
    rw [List.filter_eq_self.mpr]
    intro v _
    rfl
  rw [← hfree] at hl hs
  have hall : ∀ i, PointOf (s.vars.map Prod.snd) (acquisitionBest e s.vars [] i) ∧ ∃ (n : ℕ) (B : ℕ → ℤ), 1 ≤ n ∧ B 0 = e.budget ∧
      (∃ k < n, acquisitionBest e s.vars [] i ∈ innerLog e (s.vars.map Prod.snd) i k (B k)) ∧
      ∀ k < n, ∀ y ∈ innerLog e (s.vars.map Prod.snd) i k (B k), e.value i y ≤ e.value i (acquisitionBest e s.vars [] i) := by
    intro i
    obtain ⟨n, B, h1, -, h3, -, -, ⟨k, hk, h6⟩, h7⟩ := c155_search_best_partial e s.vars [] hl hs halgo hpen hh hg hn hb i
    obtain ⟨o, -, -, -, h8, -⟩ := c155_restart e _ hl hs halgo hpen i k (B k)
    have hpt := (h8 _ h6).1
    rw [hfree] at h6 h7 hpt
    exact ⟨hpt, n, B, h1, h3, ⟨k, hk, h6⟩, h7⟩
  have hlen : (((List.range s.nPoint.toNat).map (acquisitionBest e s.vars [])).length : ℤ) = s.nPoint := by simp; omega
  refine ⟨(List.range s.nPoint.toNat).map (acquisitionBest e s.vars []), hlen, ?_, ?_⟩
  · intro i x hx
    simp only [List.getElem?_map, Option.map_eq_some_iff] at hx
    obtain ⟨j, hj, rfl⟩ := hx
    rw [List.getElem?_range] at hj
    · cases hj
      exact hall i
    · by_contra hc
      rw [List.getElem?_eq_none (by simpa using hc)] at hj
      cases hj
  · intro hd
    have hne : ∀ i, (acquisitionBest e s.vars [] i).isEmpty = false := by
      intro i
      cases hx : acquisitionBest e s.vars [] i with
      | nil =>
        have := (hall i).1.1
        rw [hx] at this
        simp only [List.length_nil, List.length_map] at this
        exact absurd (List.length_eq_zero_iff.mp this.symm) hv
      | cons a l => rfl
    have hc : argMaxAcquisition s s.nPoint none (acquisitionBest e s.vars []) = .ok ((List.range s.nPoint.toNat).map (acquisitionBest e s.vars [])) := by
      unfold argMaxAcquisition fillin
      simp only [gt_iff_lt, hp, if_true, hpar]
      show (Except.ok (List.filter _ _) : Except AskErr (List Row)) = _
      rw [List.filter_eq_self.mpr]
      intro c hc
      obtain ⟨i, -, rfl⟩ := List.mem_map.mp hc
      simp [hne i]
    unfold askFull ask askPoints
    rw [if_pos hf]
    simp only [Option.getD_none, hc]
    show Except.bind (if ((preEvalCheck _ s.data _).length : ℤ) < s.nPoint then _ else .ok _) _ = _
    rw [check_batch _ _ _ hd, if_neg (by rw [hlen]; exact lt_irrefl _)]
    show (if List.isEmpty _ = true then _ else Except.ok _) = _
    rw [if_neg]
    intro he
    rw [List.isEmpty_iff] at he
    rw [he] at hlen
    simp at hlen
    omega

/-- The hypotheses of C155 hold for the (1+1)-CMA-ES on the unit interval and any acquisition function `f`. -/
example (f : Row → ℝ) : let e : AskEnv Unit := { zeroEnv .onePlusOne none none [0] with value := fun _ => f }
    LibrariesOk e [.real { lo := 0, hi := 1 }] ∧ SpaceOk e [.real { lo := 0, hi := 1 }] ∧ e.algo ≠ .bfgs ∧ (∀ t x, e.penalty t x = 0) ∧ e.h = none ∧ e.g = none ∧
      1 ≤ e.nRestart ∧ 1 ≤ e.budget := by
  intro e
  have hw : WithinBounds [.real { lo := 0, hi := 1 }] [0] := by
    refine ⟨rfl, ?_⟩
    intro j v a hj ha
    rcases j with _ | j <;> simp at hj ha
    subst hj
    subst ha
    norm_num
  obtain ⟨h1, h2, h3, h4, h5, h6, h7, h8⟩ := zeroEnv_libraries .onePlusOne none none [0] [.real { lo := 0, hi := 1 }] hw
  refine ⟨⟨h1, h2, h3, h4, h5, h6, h7, h8⟩, ⟨by simp, ?_, ?_, ?_, ?_⟩, by simp [e, zeroEnv], fun _ _ => rfl, rfl, rfl, by simp [e, zeroEnv], by simp [e, zeroEnv]⟩
  · intro k hk
    simp only [List.mem_singleton] at hk
    subst hk
    simp [Proper, scaleDomain]
  · intro k hk
    simp only [List.mem_singleton] at hk
    subst hk
    simp [Regular]
  · intro _ k hk
    simp only [List.mem_singleton] at hk
    exact ⟨_, hk⟩
  · intro h
    simp [e, zeroEnv] at h

end Verif.Props
