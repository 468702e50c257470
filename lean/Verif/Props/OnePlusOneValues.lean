import Verif.Spec.OnePlusOneValues
import Verif.Props.OnePlusOneFull
import Mathlib.Analysis.Complex.ExponentialBounds

/-!
# C174: the (1+1)-CMA-ES depends on the order of the values
-/
namespace Verif.Props

open Matrix Verif.Model Verif.Spec Verif.Proofs

variable {n : ℕ} {cfg : OpoCfg n} {g u : ℕ → Fin n → ℝ} {x0 : Fin n → ℝ} {r : ℤ} {φ : ℝ → ℝ} {mi : Bool}

private theorem better_values (h : KeepsOrder φ cfg.stag.minimize mi) (a b : ℝ) :
    (withValues φ mi cfg).stag.better (φ a) (φ b) = cfg.stag.better a b := by
  unfold KeepsOrder at h
  unfold withValues StagCfg.better
  dsimp only
  apply propext
  cases h1 : cfg.stag.minimize <;> cases h2 : mi <;> rw [h1, h2] at h <;> simp at h ⊢
  · exact h.le_iff_le
  · exact h.le_iff_ge
  · exact h.le_iff_ge
  · exact h.le_iff_le

/-- The relation of states used in the proof. -/
private def Rel (φ : ℝ → ℝ) (s s' : OpoState n) : Prop := 0 ≤ s.deltaF ∧ ∃ d, 0 ≤ d ∧ s' = { s with fopt := φ s.fopt, fpen := φ s.fpen, deltaF := d }

open Classical in
/-- The state after a success. -/
private noncomputable def afterSuccess (cfg : OpoCfg n) (s : OpoState n) (x : Fin n → ℝ) (c : CholState n) : OpoState n :=
  { s with
    evalCount := s.evalCount + 1, rate := stagRate cfg.stag True s.rate, deltaF := s.deltaF * 0.9 + (1 - 0.9) * |s.fpen - cfg.objective x|,
    deltaX := s.deltaX * 0.9 + (1 - 0.9) * opoDist s.x x, fpen := cfg.objective x, x := x, xopt := x, fopt := cfg.objective x,
    sigma := if OutOfRange (stagSigma cfg.stag (stagRate cfg.stag True s.rate) s.sigma) then cfg.stag.sigma0 else stagSigma cfg.stag (stagRate cfg.stag True s.rate) s.sigma,
    chol := if OutOfRange (stagSigma cfg.stag (stagRate cfg.stag True s.rate) s.sigma) then cholReset c else c,
    iterCount := s.iterCount + 1 }

open Classical in
/-- The state after a failure. -/
private noncomputable def afterFailure (cfg : OpoCfg n) (s : OpoState n) : OpoState n :=
  { s with
    evalCount := s.evalCount + 1, rate := stagRate cfg.stag False s.rate, deltaF := s.deltaF * 0.9, deltaX := s.deltaX * 0.9,
    sigma := if OutOfRange (stagSigma cfg.stag (stagRate cfg.stag False s.rate) s.sigma) then cfg.stag.sigma0 else stagSigma cfg.stag (stagRate cfg.stag False s.rate) s.sigma,
    chol := if OutOfRange (stagSigma cfg.stag (stagRate cfg.stag False s.rate) s.sigma) then cholReset s.chol else s.chol,
    iterCount := s.iterCount + 1 }

private theorem evaluate_success {cfg : OpoCfg n} (hpen : ∀ t x, cfg.penalty t x = 0) {s : OpoState n} (hst : ¬ s.stop = true) {x : Fin n → ℝ}
    (hbt : cfg.stag.better (cfg.objective x) s.fpen) :
    opoEvaluate cfg s x = (cholUpdate cfg.par (stagRate cfg.stag True s.rate) (fun i => (x i - s.x i) / s.sigma) s.chol).map (afterSuccess cfg s x) := by
  unfold opoEvaluate opoTell
  rw [if_neg (show ¬ ({ s with evalCount := s.evalCount + 1 } : OpoState n).stop = true from hst)]
  dsimp only
  rw [hpen, add_zero, eq_true hbt]
  simp only [if_true, and_self]
  rfl

private theorem evaluate_failure {cfg : OpoCfg n} (hpen : ∀ t x, cfg.penalty t x = 0) {s : OpoState n} (hst : ¬ s.stop = true) {x : Fin n → ℝ}
    (hbt : ¬ cfg.stag.better (cfg.objective x) s.fpen) : opoEvaluate cfg s x = some (afterFailure cfg s) := by
  unfold opoEvaluate opoTell
  rw [if_neg (show ¬ ({ s with evalCount := s.evalCount + 1 } : OpoState n).stop = true from hst)]
  dsimp only
  rw [hpen, add_zero, eq_false hbt]
  simp only [if_false, false_and, Option.map_some, add_zero]
  rfl

private theorem evaluate_values (h : KeepsOrder φ cfg.stag.minimize mi) (hpen : ∀ t x, cfg.penalty t x = 0) {s s' : OpoState n} (hs : Rel φ s s') (x : Fin n → ℝ) :
    (opoEvaluate cfg s x = none ∧ opoEvaluate (withValues φ mi cfg) s' x = none) ∨
      ∃ t t', opoEvaluate cfg s x = some t ∧ opoEvaluate (withValues φ mi cfg) s' x = some t' ∧ Rel φ t t' := by
  obtain ⟨h0, d, hd, rfl⟩ := hs
  by_cases hst : s.stop = true
  · right
    refine ⟨{ s with evalCount := s.evalCount + 1 }, { s with evalCount := s.evalCount + 1, fopt := φ s.fopt, fpen := φ s.fpen, deltaF := d }, ?_, ?_, h0, d, hd, rfl⟩
    · unfold opoEvaluate opoTell; exact if_pos hst
    · unfold opoEvaluate opoTell; exact if_pos hst
  · have hb := better_values h (cfg.objective x) s.fpen
    have hst' : ¬ ({ s with fopt := φ s.fopt, fpen := φ s.fpen, deltaF := d } : OpoState n).stop = true := hst
    by_cases hbt : cfg.stag.better (cfg.objective x) s.fpen
    · have hbt' : (withValues φ mi cfg).stag.better ((withValues φ mi cfg).objective x) ({ s with fopt := φ s.fopt, fpen := φ s.fpen, deltaF := d } : OpoState n).fpen := by
        rw [← hb] at hbt; exact hbt
      rw [evaluate_success hpen hst hbt, evaluate_success (cfg := withValues φ mi cfg) hpen hst' hbt']
      change _ ∨ ∃ t t', _ ∧ (cholUpdate cfg.par (stagRate cfg.stag True s.rate) (fun i => (x i - s.x i) / s.sigma) s.chol).map _ = _ ∧ _
      cases hc : cholUpdate cfg.par (stagRate cfg.stag True s.rate) (fun i => (x i - s.x i) / s.sigma) s.chol with
      | none => exact .inl ⟨rfl, by change (cholUpdate cfg.par (stagRate cfg.stag True s.rate) (fun i => (x i - s.x i) / s.sigma) s.chol).map _ = _; rw [hc]; rfl⟩
      | some c =>
        right
        refine ⟨_, _, rfl, rfl, ?_, d * 0.9 + (1 - 0.9) * |φ s.fpen - φ (cfg.objective x)|, ?_, rfl⟩
        · change 0 ≤ s.deltaF * 0.9 + (1 - 0.9) * |s.fpen - cfg.objective x|
          positivity
        · positivity
    · have hbt' : ¬ (withValues φ mi cfg).stag.better ((withValues φ mi cfg).objective x) ({ s with fopt := φ s.fopt, fpen := φ s.fpen, deltaF := d } : OpoState n).fpen := by
        rw [← hb] at hbt; exact hbt
      rw [evaluate_failure hpen hst hbt, evaluate_failure (cfg := withValues φ mi cfg) hpen hst' hbt']
      right
      refine ⟨_, _, rfl, rfl, ?_, d * 0.9, by positivity, rfl⟩
      change 0 ≤ s.deltaF * 0.9
      positivity

private theorem check_values (h : KeepsOrder φ cfg.stag.minimize mi) (hf : cfg.stag.ftol = 0) {s s' : OpoState n} (hs : Rel φ s s') :
    Rel φ (opoCheck cfg s) (opoCheck (withValues φ mi cfg) s') := by
  obtain ⟨h0, d, hd, rfl⟩ := hs
  have h1 : opoFinal (withValues φ mi cfg) { s with fopt := φ s.fopt, fpen := φ s.fpen, deltaF := d } = opoFinal cfg s := by
    unfold opoFinal
    congr 1
    rw [decide_eq_decide]
    change (∃ t ∈ cfg.stag.ftarget.map φ, (withValues φ mi cfg).stag.better (φ s.fopt) t) ↔ _
    constructor
    · rintro ⟨t, ht, hb⟩
      obtain ⟨t0, ht0, rfl⟩ := Option.mem_map.1 ht
      exact ⟨t0, ht0, by rw [better_values h] at hb; exact hb⟩
    · rintro ⟨t, ht, hb⟩
      exact ⟨φ t, Option.mem_map.2 ⟨t, ht, rfl⟩, by rw [better_values h]; exact hb⟩
  have h2 : opoStagnates (withValues φ mi cfg) { s with fopt := φ s.fopt, fpen := φ s.fpen, deltaF := d } = opoStagnates cfg s := by
    unfold opoStagnates
    rw [Bool.eq_iff_iff]
    simp only [Bool.or_eq_true, decide_eq_true_eq]
    change ((OutOfRange s.sigma ∨ d < cfg.stag.ftol) ∨ s.deltaX < cfg.stag.xtol) ↔ _
    rw [hf]
    simp only [not_lt.2 hd, not_lt.2 h0]
  unfold opoCheck
  dsimp only
  rw [h1, h2]
  by_cases hfin : opoFinal cfg s = true
  · simp only [hfin, if_true]
    exact ⟨h0, d, hd, rfl⟩
  · by_cases hn : 0 < s.nRestart
    · simp only [hfin, hn, if_true]
      exact ⟨h0, d, hd, rfl⟩
    · simp only [hfin, hn, if_false]
      exact ⟨h0, d, hd, rfl⟩

private theorem restart_values (h : KeepsOrder φ cfg.stag.minimize mi) (hpen : ∀ t x, cfg.penalty t x = 0) (hf : cfg.stag.ftol = 0) {s s' : OpoState n} (hs : Rel φ s s')
    (b : Fin n → ℝ) :
    (opoRestart cfg b s = none ∧ opoRestart (withValues φ mi cfg) b s' = none) ∨
      ∃ t t', opoRestart cfg b s = some t ∧ opoRestart (withValues φ mi cfg) b s' = some t' ∧ Rel φ t t' := by
  have hfl : s'.restartFlag = s.restartFlag := by obtain ⟨_, d, _, rfl⟩ := hs; rfl
  unfold opoRestart
  by_cases hr : s.restartFlag = true
  · rw [if_pos hr, if_pos (hfl.trans hr)]
    have hs2 : Rel φ { s with x := opoSample cfg b } { s' with x := opoSample (withValues φ mi cfg) b } := by
      obtain ⟨h0, d, hd, rfl⟩ := hs
      exact ⟨h0, d, hd, rfl⟩
    rcases evaluate_values h hpen hs2 (opoSample cfg b) with ⟨e1, e2⟩ | ⟨t, t', e1, e2, e3⟩
    · left
      rw [e1]
      change _ ∧ Option.map _ (opoEvaluate (withValues φ mi cfg) _ (opoSample cfg b)) = none
      rw [e2]
      exact ⟨rfl, rfl⟩
    · right
      rw [e1]
      obtain ⟨h0, d, hd, rfl⟩ := e3
      refine ⟨_, { t with fopt := φ t.fopt, fpen := φ t.fpen, sigma := cfg.stag.sigma0, chol := cholReset t.chol, deltaX := cfg.stag.xtol * 200, deltaF := cfg.stag.ftol * 200, dict := false, nRestart := t.nRestart - 1 }, rfl, ?_, ?_⟩
      · change Option.map _ (opoEvaluate (withValues φ mi cfg) _ (opoSample cfg b)) = _
        rw [e2]
        rfl
      · refine ⟨?_, cfg.stag.ftol * 200, ?_, rfl⟩
        · change 0 ≤ cfg.stag.ftol * 200
          rw [hf]; norm_num
        · rw [hf]; norm_num
  · rw [if_neg hr, if_neg (by rw [hfl]; exact hr)]
    exact .inr ⟨_, _, rfl, rfl, hs⟩

/-- **C174, order of the values.**  Without constraints and with the tolerance on the values switched off. -/
theorem c174_values_partial (h : KeepsOrder φ cfg.stag.minimize mi) (hpen : ∀ t x, cfg.penalty t x = 0) (hf : cfg.stag.ftol = 0) (k : ℕ) :
    Option.Rel (SameButValues φ) (opoRun cfg g u x0 r k) (opoRun (withValues φ mi cfg) g u x0 r k) := by
  suffices H : (opoRun cfg g u x0 r k = none ∧ opoRun (withValues φ mi cfg) g u x0 r k = none) ∨
      ∃ s s', opoRun cfg g u x0 r k = some s ∧ opoRun (withValues φ mi cfg) g u x0 r k = some s' ∧ Rel φ s s' by
    rcases H with ⟨e1, e2⟩ | ⟨s, s', e1, e2, _, d, _, e3⟩
    · rw [e1, e2]; exact .none
    · rw [e1, e2]; exact .some ⟨d, e3⟩
  induction k with
  | zero =>
    refine .inr ⟨_, _, rfl, rfl, ?_, 0, le_rfl, ?_⟩
    · simp [opoInit, hf]
    · unfold opoInit
      simp only [hpen, withValues, hf, add_zero, zero_div]
  | succ k ih =>
    rcases ih with ⟨e1, e2⟩ | ⟨s, s', e1, e2, hs⟩
    · left
      rw [opoRun, opoRun, e1, e2]
      exact ⟨rfl, rfl⟩
    · rw [opoRun, opoRun, e1, e2, Option.bind_some, Option.bind_some]
      have hst : s'.stop = s.stop := by obtain ⟨_, d, _, rfl⟩ := hs; rfl
      rw [hst]
      by_cases hstop : s.stop = true
      · rw [if_pos hstop, if_pos hstop]
        exact .inr ⟨_, _, rfl, rfl, hs⟩
      · rw [if_neg hstop, if_neg hstop]
        have hm : opoRepair (withValues φ mi cfg) (opoMutant s' (g k)) = opoRepair cfg (opoMutant s (g k)) := by
          obtain ⟨_, d, _, rfl⟩ := hs; rfl
        unfold opoStep
        rw [hm]
        rcases evaluate_values h hpen hs (opoRepair cfg (opoMutant s (g k))) with ⟨f1, f2⟩ | ⟨t, t', f1, f2, ht⟩
        · left
          rw [f1, f2]
          exact ⟨rfl, rfl⟩
        · rw [f1, f2, Option.bind_some, Option.bind_some]
          exact restart_values h hpen hf (check_values h hf ht) (u k)

/-! ### With a tolerance on the values, their unit matters -/

/-- Default parameters in dimension one on the interval `[0, 2]`; the value is `c` at 0 and 0 elsewhere. -/
private noncomputable def ledge (c : ℝ) : OpoCfg 1 where
  stag := { minimize := true, ftarget := none, maxFEs := some 1000, xtol := 1e-4, ftol := 1e-4, sigma0 := 1 / 2, pTarget := 2 / 11, cp := 1 / 12, damp := 3 / 2, dim := 1 }
  par := CholPar.default 1
  vars := fun _ => { lo := 0, hi := 2 }
  objective := fun x => c * (if x 0 ≤ 0 then 1 else 0)
  penalty := fun _ _ => 0

private def ledgeDraws : ℕ → Fin 1 → ℝ := fun k _ => if k = 0 then 1 else 0

private structure OnLedge (c : ℝ) (k : ℕ) (s : OpoState 1) : Prop where
  x : s.x = fun _ => if k = 0 then 0 else 1 / 2
  fpen : s.fpen = if k = 0 then c else 0
  path : s.chol.pc = 0 ↔ k = 0
  A : k = 0 → s.chol.A = 1
  rate : 2 / 11 ≤ s.rate ∧ s.rate ≤ 1
  sigma : 1 / 2 ≤ s.sigma ∧ s.sigma ≤ 2 ^ k / 2
  sigma0 : k = 0 → s.sigma = 1 / 2
  rate0 : k = 0 → s.rate = 2 / 11
  deltaX : s.deltaX = if k = 0 then 1e-4 / 0.9 ^ 5 else 0.9 ^ (k - 1) * (0.9 * (1e-4 / 0.9 ^ 5) + (1 - 0.9) * (1 / 2))
  deltaF : s.deltaF = if k = 0 then 1e-4 / 0.9 ^ 5 else 0.9 ^ (k - 1) * (0.9 * (1e-4 / 0.9 ^ 5) + (1 - 0.9) * c)
  evalCount : s.evalCount = k + 1
  nRestart : s.nRestart = 0
  restartFlag : s.restartFlag = false

private theorem ledge_init (c : ℝ) : OnLedge c 0 (opoInit (ledge c) 0 0) where
  x := by funext i; rfl
  fpen := by simp [opoInit, ledge]
  path := by simp [opoInit, cholInit]
  A := fun _ => rfl
  rate := by constructor <;> norm_num [opoInit, ledge]
  sigma := by constructor <;> norm_num [opoInit, ledge]
  sigma0 := fun _ => rfl
  rate0 := fun _ => rfl
  deltaX := rfl
  deltaF := rfl
  evalCount := rfl
  nRestart := rfl
  restartFlag := rfl

private theorem ledge_mutant {c : ℝ} {k : ℕ} {s : OpoState 1} (h : OnLedge c k s) :
    opoRepair (ledge c) (opoMutant s (ledgeDraws k)) = fun _ => 1 / 2 := by
  funext i
  have h1 : opoMutant s (ledgeDraws k) i = 1 / 2 := by
    unfold opoMutant
    rw [h.x]
    by_cases hk : k = 0
    · rw [h.A hk, h.sigma0 hk]
      simp [ledgeDraws, hk]
    · have : ledgeDraws k = 0 := by funext i; simp [ledgeDraws, hk]
      rw [this]
      simp [hk]
  unfold opoRepair
  simp only [h1, ledge, RealVar.round]
  exact reflect_id (by norm_num) (by norm_num) (by norm_num)

private theorem ledge_path {c : ℝ} {k : ℕ} {s : OpoState 1} (h : OnLedge c k s) :
    pathUpdate (ledge c).par (stagRate (ledge c).stag True s.rate) s.chol.pc (fun i => ((fun _ => 1 / 2 : Fin 1 → ℝ) i - s.x i) / s.sigma) ≠ 0 := by
  have hcc : (ledge c).par.cc = 2 / 3 := by norm_num [ledge, CholPar.default]
  unfold pathUpdate
  by_cases hk : k = 0
  · rw [h.x, h.path.2 hk, h.rate0 hk, h.sigma0 hk, if_pos (by norm_num [stagRate, ledge, CholPar.default])]
    simp only [hcc, hk, if_true]
    intro h0
    have := congrFun h0 0
    simp at this
    norm_num at this
  · rw [h.x]
    simp only [hcc, hk, if_false]
    have hz : (fun i : Fin 1 => ((1 : ℝ) / 2 - 1 / 2) / s.sigma) = 0 := by funext i; simp
    rw [hz, smul_zero, add_zero, ite_self]
    intro h0
    rcases smul_eq_zero.1 h0 with h1 | h1
    · norm_num at h1
    · exact hk (h.path.1 h1)

private theorem ledge_rates (c : ℝ) : RatesOk (ledge c).par := by
  unfold RatesOk ledge CholPar.default
  norm_num

private theorem check_flag {s : OpoState n} (h : ¬ 0 < s.nRestart) : (opoCheck cfg s).restartFlag = s.restartFlag := by
  unfold opoCheck
  dsimp only
  split_ifs <;> rfl

private theorem ledge_pass {c : ℝ} (hc : 0 < c) {u : ℕ → Fin 1 → ℝ} {k : ℕ} (hk : k ≤ 5) {s : OpoState 1} (hs : opoRun (ledge c) ledgeDraws u 0 0 k = some s) (h : OnLedge c k s)
    (hst : s.stop = false) (hd : s.dict = false) :
    ∃ t, opoRun (ledge c) ledgeDraws u 0 0 (k + 1) = some (opoCheck (ledge c) t) ∧ OnLedge c (k + 1) t ∧ t.stop = false ∧ t.dict = false := by
  have hb : (ledge c).stag.better ((ledge c).objective fun _ => 1 / 2) s.fpen := by
    rw [h.fpen]
    simp only [ledge, StagCfg.better, if_true]
    rw [if_neg (by norm_num)]
    split_ifs <;> linarith
  have he := evaluate_success (cfg := ledge c) (fun _ _ => rfl) (s := s) (by simp [hst]) hb
  obtain ⟨ch, hch, hpc⟩ : ∃ ch, cholUpdate (ledge c).par (stagRate (ledge c).stag True s.rate) (fun i => ((fun _ => 1 / 2 : Fin 1 → ℝ) i - s.x i) / s.sigma) s.chol = some ch ∧ ch.pc ≠ 0 := by
    cases hch : cholUpdate (ledge c).par (stagRate (ledge c).stag True s.rate) (fun i => ((fun _ => 1 / 2 : Fin 1 → ℝ) i - s.x i) / s.sigma) s.chol with
    | none =>
      exfalso
      rw [hch, Option.map_none] at he
      have h1 : opoRun (ledge c) ledgeDraws u 0 0 (k + 1) = none := by
        rw [opoRun, hs, Option.bind_some, if_neg (by simp [hst]), opoStep, ledge_mutant h, he]
        rfl
      rcases (c172_nan_partial (ledge_rates c) hs hst _ (ledge_mutant h).symm).1 h1 with ⟨_, h2⟩ | ⟨t, h2, _⟩
      · exact ledge_path h h2
      · rw [he] at h2; cases h2
    | some ch =>
      refine ⟨ch, rfl, ?_⟩
      have hp := ledge_path h
      unfold cholUpdate at hch
      dsimp only at hch
      split_ifs at hch
      cases hch
      exact hp
  rw [hch, Option.map_some] at he
  have hrate : stagRate (ledge c).stag True s.rate = 11 / 12 * s.rate + 1 / 12 := by
    simp only [stagRate, ledge, if_true]
    ring
  have hsig : stagSigma (ledge c).stag (11 / 12 * s.rate + 1 / 12) s.sigma = s.sigma * Real.exp ((11 / 12 * s.rate + 1 / 12 - 2 / 11) * (22 / 27)) := by
    simp only [stagSigma, ledge]
    congr 2
    ring
  have hr := h.rate
  have hs1 : 1 ≤ Real.exp ((11 / 12 * s.rate + 1 / 12 - 2 / 11) * (22 / 27)) := Real.one_le_exp (by nlinarith)
  have hs2 : Real.exp ((11 / 12 * s.rate + 1 / 12 - 2 / 11) * (22 / 27)) ≤ 2 := by
    have h1 : (11 / 12 * s.rate + 1 / 12 - 2 / 11) * (22 / 27) ≤ 2 / 3 := by nlinarith
    refine (Real.exp_le_exp.2 h1).trans ?_
    have h2 : Real.exp (2 / 3) ^ 3 ≤ 2 ^ 3 := by
      rw [← Real.exp_nat_mul]
      have : ((3 : ℕ) : ℝ) * (2 / 3) = 1 + 1 := by norm_num
      rw [this, Real.exp_add]
      have := Real.exp_one_lt_d9
      nlinarith [Real.exp_pos 1]
    exact le_of_pow_le_pow_left₀ (by norm_num) (by norm_num) h2
  have hlo : 1 / 2 ≤ stagSigma (ledge c).stag (11 / 12 * s.rate + 1 / 12) s.sigma := by
    rw [hsig]
    nlinarith [h.sigma.1]
  have hhi : stagSigma (ledge c).stag (11 / 12 * s.rate + 1 / 12) s.sigma ≤ 2 ^ (k + 1) / 2 := by
    rw [hsig, pow_succ]
    nlinarith [h.sigma.1, h.sigma.2, Real.exp_pos ((11 / 12 * s.rate + 1 / 12 - 2 / 11) * (22 / 27))]
  have hout : ¬ OutOfRange (stagSigma (ledge c).stag (11 / 12 * s.rate + 1 / 12) s.sigma) := by
    have h64 : (2 : ℝ) ^ (k + 1) ≤ 2 ^ 6 := pow_le_pow_right₀ (by norm_num) (by omega)
    rintro (h1 | h1)
    · norm_num at h1; linarith
    · norm_num at h1 h64; linarith
  have hx1 : (afterSuccess (ledge c) s (fun _ => 1 / 2) ch).sigma = stagSigma (ledge c).stag (11 / 12 * s.rate + 1 / 12) s.sigma := by
    unfold afterSuccess
    dsimp only
    rw [hrate, if_neg hout]
  have hx2 : (afterSuccess (ledge c) s (fun _ => 1 / 2) ch).chol = ch := by
    unfold afterSuccess
    dsimp only
    rw [hrate, if_neg hout]
  have hob : (ledge c).objective (fun _ => 1 / 2) = 0 := by
    simp only [ledge]
    rw [if_neg (by norm_num), mul_zero]
  refine ⟨afterSuccess (ledge c) s (fun _ => 1 / 2) ch, ?_, ⟨?_, ?_, ?_, ?_, ?_, ?_, ?_, ?_, ?_, ?_, ?_, h.nRestart, h.restartFlag⟩, hst, hd⟩
  rotate_left 1
  · funext i
    simp [afterSuccess]
  · simpa [afterSuccess] using hob
  · rw [hx2]
    simpa using hpc
  · intro h0; omega
  · change 2 / 11 ≤ stagRate (ledge c).stag True s.rate ∧ stagRate (ledge c).stag True s.rate ≤ 1
    rw [hrate]
    constructor <;> linarith
  · rw [hx1]
    exact ⟨hlo, hhi⟩
  · intro h0; omega
  · intro h0; omega
  · change s.deltaX * 0.9 + (1 - 0.9) * opoDist s.x (fun _ => 1 / 2) = _
    have hdist : opoDist s.x (fun _ => 1 / 2) = if k = 0 then 1 / 2 else 0 := by
      rw [h.x, opoDist]
      by_cases h0 : k = 0
      · simp only [h0, if_true, Finset.univ_unique, Finset.sum_singleton]
        rw [show ((0 : ℝ) - 1 / 2) ^ 2 = (1 / 2) ^ 2 by norm_num]
        exact Real.sqrt_sq (by norm_num)
      · simp [h0]
    rw [h.deltaX, hdist, if_neg (show ¬ k + 1 = 0 by omega)]
    by_cases h0 : k = 0
    · simp only [h0, if_true]
      norm_num
    · obtain ⟨j, rfl⟩ := Nat.exists_eq_succ_of_ne_zero h0
      simp [pow_succ]
      ring
  · change s.deltaF * 0.9 + (1 - 0.9) * |s.fpen - (ledge c).objective (fun _ => 1 / 2)| = _
    rw [h.deltaF, h.fpen, hob, if_neg (show ¬ k + 1 = 0 by omega)]
    by_cases h0 : k = 0
    · simp only [h0, if_true, sub_zero, abs_of_pos hc]
      norm_num
    · obtain ⟨j, rfl⟩ := Nat.exists_eq_succ_of_ne_zero h0
      simp [pow_succ]
      ring
  · change s.evalCount + 1 = _
    rw [h.evalCount]
  · rw [opoRun, hs, Option.bind_some, if_neg (by simp [hst]), opoStep, ledge_mutant h, he, Option.bind_some, opoRestart, if_neg]
    rw [check_flag]
    · simp only [afterSuccess]
      rw [h.restartFlag]
      simp
    · change ¬ 0 < s.nRestart
      rw [h.nRestart]
      exact lt_irrefl _

private theorem ledge_check {c : ℝ} {k : ℕ} {t : OpoState 1} (h : OnLedge c (k + 1) t) (hd : t.dict = false) (hk : k ≤ 5) :
    (opoCheck (ledge c) t).stop = decide (t.deltaF < 1e-4) ∧ (opoCheck (ledge c) t).dict = decide (t.deltaF < 1e-4) ∧ OnLedge c (k + 1) (opoCheck (ledge c) t) := by
  have hfin : opoFinal (ledge c) t = false := by
    unfold opoFinal
    rw [Bool.or_eq_false_iff, decide_eq_false_iff_not, decide_eq_false_iff_not]
    constructor
    · rintro ⟨a, ha, _⟩
      cases ha
    · rintro ⟨a, ha, h1⟩
      cases ha
      rw [h.evalCount] at h1
      omega
  have hstag : opoStagnates (ledge c) t = decide (t.deltaF < 1e-4) := by
    unfold opoStagnates
    rw [Bool.eq_iff_iff]
    simp only [Bool.or_eq_true, decide_eq_true_eq]
    have h1 : ¬ OutOfRange t.sigma := by
      have h64 : (2 : ℝ) ^ (k + 1) ≤ 2 ^ 6 := pow_le_pow_right₀ (by norm_num) (by omega)
      have := h.sigma
      rintro (h1 | h1)
      · norm_num at h1; linarith
      · norm_num at h1 h64; linarith
    have h2 : ¬ t.deltaX < 1e-4 := by
      rw [h.deltaX, if_neg (by omega)]
      have : (0.9 : ℝ) ^ 5 ≤ 0.9 ^ (k + 1 - 1) := pow_le_pow_of_le_one (by norm_num) (by norm_num) (by omega)
      norm_num at this ⊢
      linarith
    simp only [h1, false_or]
    exact or_iff_left h2
  have hn : ¬ 0 < t.nRestart := by rw [h.nRestart]; exact lt_irrefl _
  have he : opoCheck (ledge c) t = { t with dict := decide (t.deltaF < 1e-4), stop := decide (t.deltaF < 1e-4) } := by
    unfold opoCheck
    dsimp only
    rw [hfin, hstag, hd, if_neg (by simp), if_neg hn]
    simp
  rw [he]
  exact ⟨rfl, rfl, h.x, h.fpen, h.path, h.A, h.rate, h.sigma, h.sigma0, h.rate0, h.deltaX, h.deltaF, h.evalCount, h.nRestart, h.restartFlag⟩

private theorem ledge_run {c : ℝ} (hc : 0 < c) (u : ℕ → Fin 1 → ℝ) : ∀ k ≤ 5, ∃ s, opoRun (ledge c) ledgeDraws u 0 0 k = some s ∧ OnLedge c k s ∧ s.stop = false ∧ s.dict = false := by
  intro k
  induction k with
  | zero => exact fun _ => ⟨_, rfl, ledge_init c, rfl, rfl⟩
  | succ k ih =>
    intro hk
    obtain ⟨s, h1, h2, h3, h4⟩ := ih (by omega)
    obtain ⟨t, h5, h6, h7, h8⟩ := ledge_pass hc (by omega) h1 h2 h3 h4
    obtain ⟨e1, e2, e3⟩ := ledge_check h6 h8 (by omega)
    have : ¬ t.deltaF < 1e-4 := by
      rw [h6.deltaF, if_neg (by omega), not_lt]
      have : (0.9 : ℝ) ^ 4 ≤ 0.9 ^ (k + 1 - 1) := pow_le_pow_of_le_one (by norm_num) (by norm_num) (by omega)
      have h0 : (0 : ℝ) ≤ 0.9 ^ (k + 1 - 1) := by positivity
      norm_num at this ⊢
      nlinarith [mul_nonneg h0 hc.le]
    rw [decide_eq_false this] at e1 e2
    exact ⟨_, h5, e3, e1, e2⟩

private theorem ledge_six {c : ℝ} (hc : 0 < c) (u : ℕ → Fin 1 → ℝ) :
    ∃ s, opoRun (ledge c) ledgeDraws u 0 0 6 = some s ∧ (s.stop = true ↔ 0.9 ^ 5 * (0.9 * (1e-4 / 0.9 ^ 5) + (1 - 0.9) * c) < 1e-4) := by
  obtain ⟨s, h1, h2, h3, h4⟩ := ledge_run hc u 5 le_rfl
  obtain ⟨t, h5, h6, h7, h8⟩ := ledge_pass hc le_rfl h1 h2 h3 h4
  refine ⟨_, h5, ?_⟩
  rw [(ledge_check h6 h8 le_rfl).1, decide_eq_true_eq, h6.deltaF, if_neg (by norm_num)]

/-- **C174 fails for the default tolerances.**  The same problem with the values in another unit (`φ` multiplies by a positive constant) and the same random numbers: one run
has ended after six passes, the other has not. -/
theorem c174_unit_matters : ∃ (cfg : OpoCfg 1) (φ : ℝ → ℝ) (g u : ℕ → Fin 1 → ℝ) (x0 : Fin 1 → ℝ) (a : ℝ) (s s' : OpoState 1),
    ProperCall cfg u x0 ∧ (∀ t x, cfg.penalty t x = 0) ∧ RatesOk cfg.par ∧ 0 < a ∧ (∀ y, φ y = a * y) ∧ KeepsOrder φ cfg.stag.minimize cfg.stag.minimize ∧
      opoRun cfg g u x0 0 6 = some s ∧ opoRun (withValues φ cfg.stag.minimize cfg) g u x0 0 6 = some s' ∧ s.stop = false ∧ s'.stop = true := by
  obtain ⟨s, h1, h2⟩ := ledge_six (c := 1) (by norm_num) 0
  obtain ⟨s', h3, h4⟩ := ledge_six (c := 1e-9) (by norm_num) 0
  have e : withValues (fun y => 1e-9 * y) true (ledge 1) = ledge 1e-9 := by
    simp [withValues, ledge]
  refine ⟨ledge 1, fun y => 1e-9 * y, ledgeDraws, 0, 0, 1e-9, s, s', ?_, fun _ _ => rfl, ledge_rates 1, by norm_num, fun _ => rfl, ?_, h1, ?_, ?_, ?_⟩
  · refine ⟨fun i => ?_, fun i => ?_, fun _ _ => ⟨le_rfl, zero_le_one⟩⟩
    · norm_num [ledge]
    · norm_num [ledge]
  · unfold KeepsOrder
    rw [if_pos rfl]
    intro a b hab
    exact mul_lt_mul_of_pos_left hab (by norm_num)
  · exact e ▸ h3
  · rw [← Bool.not_eq_true, h2]
    norm_num
  · rw [h4]
    norm_num

/-- The hypotheses of `c174_values_partial` can be met: values given in thousandths and maximised after a change of sign. -/
example : ∃ (cfg : OpoCfg 1) (φ : ℝ → ℝ), KeepsOrder φ cfg.stag.minimize false ∧ (∀ t x, cfg.penalty t x = 0) ∧ cfg.stag.ftol = 0 ∧ cfg.stag.minimize = true ∧
    cfg.objective 0 ≠ cfg.objective 1 := by
  refine ⟨{ ledge 1 with stag := { (ledge 1).stag with ftol := 0 } }, fun y => -1000 * y, ?_, fun _ _ => rfl, rfl, rfl, ?_⟩
  · unfold KeepsOrder
    rw [if_neg (by simp [ledge])]
    intro a b hab
    dsimp only
    linarith
  · norm_num [ledge]

end Verif.Props
