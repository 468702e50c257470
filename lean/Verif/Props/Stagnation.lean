import Verif.Model.Stagnation
import Mathlib.Tactic.Linarith
import Mathlib.Tactic.NormNum
import Mathlib.Tactic.FieldSimp
import Mathlib.Tactic.Positivity
import Mathlib.Tactic.Ring
import Mathlib.Tactic.Cases

/-!
# C136: the (1+1)-CMA-ES stops when progress stalls;  C137: its step size
-/
namespace Verif.Props

open Verif.Model

/-! ### C136 -/

/-- How much better than `a` the value `b` is. -/
def gainOver (minimize : Bool) (a b : ℝ) : ℝ := if minimize then a - b else b - a

private theorem better_iff (cfg : StagCfg) (a b : ℝ) : cfg.better a b ↔ 0 ≤ gainOver cfg.minimize b a := by
  unfold StagCfg.better gainOver
  cases cfg.minimize <;> simp

private theorem gain_abs (cfg : StagCfg) {a b : ℝ} (h : cfg.better a b) : |b - a| = gainOver cfg.minimize b a := by
  unfold StagCfg.better at h
  unfold gainOver
  cases hm : cfg.minimize
  · rw [hm] at h
    simp only [Bool.false_eq_true, if_false] at h ⊢
    rw [abs_of_nonpos (by linarith)]; ring
  · rw [hm] at h
    simp only [if_true] at h ⊢
    rw [abs_of_nonneg (by linarith)]

private theorem gain_add (m : Bool) (a b c : ℝ) : gainOver m a c = gainOver m a b + gainOver m b c := by
  unfold gainOver; cases m <;> simp

private theorem gain_self (m : Bool) (a : ℝ) : gainOver m a a = 0 := by unfold gainOver; cases m <;> simp

/-- One step of a search that has not been stopped, with restarts used up or switched off. -/
private theorem step_cases (cfg : StagCfg) (i : StagIn × StagIn) (s : StagState) (hs : s.stop = false) (hn : s.nRestart ≤ 0) (hf : s.restartFlag = false) :
    let t := stagStep cfg i s
    t.restartFlag = false ∧ t.nRestart ≤ 0 ∧
      ((cfg.better (i.1.y + i.1.pen) s.fpen ∧ t.fpen = i.1.y + i.1.pen ∧ t.deltaF = s.deltaF * 0.9 + 0.1 * gainOver cfg.minimize s.fpen t.fpen) ∨
       (t.fpen = s.fpen ∧ t.deltaF = s.deltaF * 0.9)) ∧ (t.stop = false → cfg.ftol ≤ t.deltaF) := by
  intro t
  set s1 := stagTell cfg i.1 { s with evalCount := s.evalCount + 1 } with hs1
  have h1 : s1.restartFlag = false ∧ s1.nRestart = s.nRestart ∧ s1.stop = false ∧
      ((cfg.better (i.1.y + i.1.pen) s.fpen ∧ s1.fpen = i.1.y + i.1.pen ∧ s1.deltaF = s.deltaF * 0.9 + 0.1 * gainOver cfg.minimize s.fpen s1.fpen) ∨
       (s1.fpen = s.fpen ∧ s1.deltaF = s.deltaF * 0.9)) := by
    by_cases hb : cfg.better (i.1.y + i.1.pen) s.fpen
    · refine ⟨?_, ?_, ?_, Or.inl ⟨hb, ?_, ?_⟩⟩
      · simp [hs1, stagTell, hs, hf]
      · simp [hs1, stagTell, hs]
      · simp [hs1, stagTell, hs]
      · simp [hs1, stagTell, hs, hb]
      · have e : s1.fpen = i.1.y + i.1.pen := by simp [hs1, stagTell, hs, hb]
        have e2 : s1.deltaF = s.deltaF * 0.9 + (1 - 0.9) * |s.fpen - (i.1.y + i.1.pen)| := by simp [hs1, stagTell, hs, hb]
        rw [e2, e, gain_abs cfg hb]
        norm_num
    · refine ⟨?_, ?_, ?_, Or.inr ⟨?_, ?_⟩⟩
      · simp [hs1, stagTell, hs, hf]
      · simp [hs1, stagTell, hs]
      · simp [hs1, stagTell, hs]
      · simp [hs1, stagTell, hs, hb]
      · simp [hs1, stagTell, hs, hb]
  obtain ⟨f1, f2, f3, f4⟩ := h1
  have hn1 : ¬ 0 < s1.nRestart := by rw [f2]; omega
  have hc : stagCheck cfg s1 = { s1 with dict := (s1.dict || stagFinal cfg s1 || stagTests cfg s1), stop := (stagFinal cfg s1 || (s1.dict || stagFinal cfg s1 || stagTests cfg s1)) } := by
    unfold stagCheck
    by_cases hfin : stagFinal cfg s1 = true
    · simp [hfin]
    · have hfin' : stagFinal cfg s1 = false := by simpa using hfin
      simp [hfin', hn1]
  have ht : t = stagCheck cfg s1 := by
    show stagRestart cfg i.2 (stagCheck cfg s1) = _
    unfold stagRestart
    rw [if_neg]
    rw [hc]; simp [f1]
  rw [ht, hc]
  refine ⟨f1, by simpa [f2] using hn, f4, fun hst => ?_⟩
  have : stagTests cfg s1 = false := by
    simp only [Bool.or_eq_false_iff] at hst
    exact hst.2.2
  simp only [stagTests, Bool.or_eq_false_iff, decide_eq_false_iff_not, not_lt] at this
  exact this.1.2

/-- **C136, the part that holds.**  Without restarts, with any budget, a positive tolerance `ftol`, and penalised values that are at most `B` better than the first one
(an objective bounded on the box): the search stops after at most `10 / 0.9^(5 dim) + B / ftol` steps, whatever is drawn. -/
theorem c136_stops_partial (cfg : StagCfg) (hf : 0 < cfg.ftol) (i0 : StagIn) (inp : ℕ → StagIn × StagIn) (r : ℤ) (hr : r ≤ 0) (B : ℝ) (hB : 0 ≤ B)
    (hb : ∀ k, gainOver cfg.minimize (i0.y + i0.pen) ((inp k).1.y + (inp k).1.pen) ≤ B) (fuel : ℕ)
    (hfuel : 10 / 0.9 ^ (5 * cfg.dim) + B / cfg.ftol < fuel) : (stagRun cfg inp fuel 0 (stagInit cfg r i0)).stop = true := by
  have key : ∀ (fuel k : ℕ) (s : StagState), s.nRestart ≤ 0 → s.restartFlag = false → (s.stop = false → cfg.ftol ≤ s.deltaF) →
      gainOver cfg.minimize (i0.y + i0.pen) s.fpen ≤ B → 0 ≤ s.deltaF →
      s.deltaF + 0.1 * (B - gainOver cfg.minimize (i0.y + i0.pen) s.fpen) < 0.1 * cfg.ftol * fuel → (stagRun cfg inp fuel k s).stop = true := by
    intro fuel
    induction fuel with
    | zero =>
      intro k s _ _ _ hg hd hlt
      exfalso
      have : (0 : ℝ) ≤ 0.1 * (B - gainOver cfg.minimize (i0.y + i0.pen) s.fpen) := mul_nonneg (by norm_num) (by linarith)
      simp at hlt
      linarith
    | succ fuel ih =>
      intro k s hn hfl hst hg hd hlt
      unfold stagRun
      by_cases hs : s.stop = true
      · rw [if_pos hs]; exact hs
      · rw [if_neg hs]
        have hs' : s.stop = false := by simpa using hs
        obtain ⟨t1, t2, t3, t4⟩ := step_cases cfg (inp k) s hs' hn hfl
        have hd0 := hst hs'
        push_cast at hlt
        refine ih (k + 1) _ t2 t1 t4 ?_ ?_ ?_
        · rcases t3 with ⟨-, e, -⟩ | ⟨e, -⟩
          · rw [e]; exact hb k
          · rw [e]; exact hg
        · rcases t3 with ⟨hbt, e, e2⟩ | ⟨-, e2⟩
          · rw [e2, e]
            have := (better_iff cfg _ _).1 hbt
            linarith
          · rw [e2]; linarith
        · rcases t3 with ⟨hbt, e, e2⟩ | ⟨e, e2⟩
          · have := gain_add cfg.minimize (i0.y + i0.pen) s.fpen (stagStep cfg (inp k) s).fpen
            rw [e2, this]
            nlinarith
          · rw [e2, e]
            nlinarith
  have hpow : (0 : ℝ) < 0.9 ^ (5 * cfg.dim) := by positivity
  have hpow1 : (0.9 : ℝ) ^ (5 * cfg.dim) ≤ 1 := pow_le_one₀ (by norm_num) (by norm_num)
  refine key fuel 0 _ ?_ rfl (fun _ => ?_) ?_ ?_ ?_
  · simp [stagInit, hr]
  · exact (le_div_iff₀ hpow).2 (by nlinarith)
  · simp only [stagInit, gain_self]; exact hB
  · exact div_nonneg hf.le hpow.le
  · simp only [stagInit, gain_self, sub_zero]
    have e : cfg.ftol / 0.9 ^ (5 * cfg.dim) + 0.1 * B = 0.1 * cfg.ftol * (10 / 0.9 ^ (5 * cfg.dim) + B / cfg.ftol) := by
      field_simp
      ring
    rw [e]
    exact mul_lt_mul_of_pos_left hfuel (by positivity)

private theorem tell_fields (cfg : StagCfg) (i : StagIn) (s : StagState) (hs : s.stop = false) :
    (stagTell cfg i s).stop = false ∧ (stagTell cfg i s).nRestart = s.nRestart ∧ (stagTell cfg i s).restartFlag = s.restartFlag ∧
    (stagTell cfg i s).dict = s.dict ∧ s.deltaF * 0.9 ≤ (stagTell cfg i s).deltaF ∧ (0 ≤ i.dist → s.deltaX * 0.9 ≤ (stagTell cfg i s).deltaX) := by
  refine ⟨by simp [stagTell, hs], by simp [stagTell, hs], by simp [stagTell, hs], by simp [stagTell, hs], ?_, fun hd => ?_⟩
  · by_cases hb : cfg.better (i.y + i.pen) s.fpen
    · simp only [stagTell, hs, hb, Bool.false_eq_true, if_false, if_true]
      have := abs_nonneg (s.fpen - (i.y + i.pen))
      norm_num
    · simp [stagTell, hs, hb]
  · by_cases hb : cfg.better (i.y + i.pen) s.fpen
    · simp only [stagTell, hs, hb, Bool.false_eq_true, if_false, if_true]
      nlinarith
    · simp [stagTell, hs, hb]

private theorem tell_sigma (cfg : StagCfg) (hr : ¬ OutOfRange cfg.sigma0) (i : StagIn) (s : StagState) (hs : s.stop = false) :
    ¬ OutOfRange (stagTell cfg i s).sigma := by
  simp only [stagTell, hs, Bool.false_eq_true, if_false]
  split_ifs with h
  · exact hr
  · exact fun h' => h (Or.inl h')

/-- **C136, refuted.**  With one or more restarts and neither a target nor a budget, `run()` never returns, whatever the objective and whatever is drawn: after the last
restart the flag stays set, every step restarts again, and no test can fire any more. -/
theorem c136_restarts_refuted (cfg : StagCfg) (hm : cfg.maxFEs = none) (ht : cfg.ftarget = none) (hf : 0 ≤ cfg.ftol) (hx : 0 ≤ cfg.xtol)
    (hr : ¬ OutOfRange cfg.sigma0) (r : ℤ) (hpos : 1 ≤ r) (i0 : StagIn) (inp : ℕ → StagIn × StagIn) (hd : ∀ k, 0 ≤ (inp k).1.dist) (fuel : ℕ) :
    (stagRun cfg inp fuel 0 (stagInit cfg r i0)).stop = false := by
  have hfin : ∀ s, stagFinal cfg s = false := by intro s; simp [stagFinal, hm, ht]
  have key : ∀ (fuel k : ℕ) (s : StagState), s.stop = false →
      (0 < s.nRestart ∨ (s.restartFlag = true ∧ s.deltaF = cfg.ftol * 200 ∧ s.deltaX = cfg.xtol * 200 ∧ s.dict = false)) →
      (stagRun cfg inp fuel k s).stop = false := by
    intro fuel
    induction fuel with
    | zero => intro k s hs _; exact hs
    | succ fuel ih =>
      intro k s hs hinv
      unfold stagRun
      rw [if_neg (by simp [hs])]
      set s1 := stagTell cfg (inp k).1 { s with evalCount := s.evalCount + 1 } with hs1
      obtain ⟨a1, a2, a3, a4, a5, a6⟩ := tell_fields cfg (inp k).1 { s with evalCount := s.evalCount + 1 } hs
      have a7 := tell_sigma cfg hr (inp k).1 { s with evalCount := s.evalCount + 1 } hs
      rw [← hs1] at a1 a2 a3 a4 a5 a6 a7
      have hstep : stagStep cfg (inp k) s = stagRestart cfg (inp k).2 (stagCheck cfg s1) := rfl
      rw [hstep]
      have restarted : ∀ c : StagState, c.stop = false → c.restartFlag = true →
          (stagRestart cfg (inp k).2 c).stop = false ∧
          (stagRestart cfg (inp k).2 c).restartFlag = true ∧ (stagRestart cfg (inp k).2 c).deltaF = cfg.ftol * 200 ∧
          (stagRestart cfg (inp k).2 c).deltaX = cfg.xtol * 200 ∧ (stagRestart cfg (inp k).2 c).dict = false := by
        intro c hc hcf
        obtain ⟨b1, b2, b3, b4, -, -⟩ := tell_fields cfg { (inp k).2 with dist := 0 } { c with evalCount := c.evalCount + 1 } hc
        unfold stagRestart
        rw [if_pos hcf]
        exact ⟨b1, b3.trans hcf, rfl, rfl, rfl⟩
      by_cases hn : 0 < s.nRestart
      · have hn1 : 0 < s1.nRestart := by rw [a2]; exact hn
        have hc : stagCheck cfg s1 = { s1 with dict := (s1.dict || stagFinal cfg s1 || stagTests cfg s1), restartFlag := (s1.dict || stagFinal cfg s1 || stagTests cfg s1) } := by
          unfold stagCheck
          simp [hfin, hn1]
        by_cases hfl : (stagCheck cfg s1).restartFlag = true
        · obtain ⟨c1, c2⟩ := restarted _ (by rw [hc]; exact a1) hfl
          exact ih (k + 1) _ c1 (Or.inr c2)
        · have e : stagRestart cfg (inp k).2 (stagCheck cfg s1) = stagCheck cfg s1 := by
            unfold stagRestart; rw [if_neg hfl]
          rw [e]
          refine ih (k + 1) _ (by rw [hc]; exact a1) (Or.inl ?_)
          rw [hc]; exact hn1
      · rcases hinv with h | ⟨h1, h2, h3, h4⟩
        · exact absurd h hn
        · have hn1 : ¬ 0 < s1.nRestart := by rw [a2]; exact hn
          have htest : stagTests cfg s1 = false := by
            simp only [stagTests, Bool.or_eq_false_iff, decide_eq_false_iff_not, not_lt]
            have a5' : cfg.ftol * 200 * 0.9 ≤ s1.deltaF := by rw [← h2]; exact a5
            have a6' : cfg.xtol * 200 * 0.9 ≤ s1.deltaX := by rw [← h3]; exact a6 (hd k)
            exact ⟨⟨a7, by linarith⟩, by linarith⟩
          have hd1 : s1.dict = false := a4.trans h4
          have hc : stagCheck cfg s1 = { s1 with dict := false, stop := false } := by
            unfold stagCheck
            simp [hfin, hn1, htest, hd1]
          obtain ⟨c1, c2⟩ := restarted (stagCheck cfg s1) (by rw [hc]) (by rw [hc]; exact a3.trans h1)
          exact ih (k + 1) _ c1 (Or.inr c2)
  exact key fuel 0 _ rfl (Or.inl (by simp [stagInit]; omega))

/-! ### C137 -/

/-- The states that `run()` goes through. -/
inductive StagReachable (cfg : StagCfg) : StagState → Prop where
  | init (r : ℤ) (i : StagIn) : StagReachable cfg (stagInit cfg r i)
  | step (s : StagState) (i : StagIn × StagIn) : StagReachable cfg s → s.stop = false → StagReachable cfg (stagStep cfg i s)

private theorem check_fields (cfg : StagCfg) (s : StagState) : (stagCheck cfg s).rate = s.rate ∧ (stagCheck cfg s).sigma = s.sigma := by
  unfold stagCheck
  by_cases h1 : stagFinal cfg s = true
  · simp [h1]
  · by_cases h2 : 0 < s.nRestart
    · simp [h1, h2]
    · simp [h1, h2]

private theorem rate_step (cfg : StagCfg) (hc : 0 ≤ cfg.cp ∧ cfg.cp ≤ 1) (i : StagIn) (s : StagState) (h : 0 ≤ s.rate ∧ s.rate ≤ 1) :
    0 ≤ (stagTell cfg i s).rate ∧ (stagTell cfg i s).rate ≤ 1 := by
  unfold stagTell
  by_cases hs : s.stop = true
  · rw [if_pos hs]; exact h
  · rw [if_neg hs]
    simp only [stagRate]
    split_ifs <;> constructor <;> nlinarith [h.1, h.2, hc.1, hc.2]

/-- **C137, the success rate is a rate.** -/
theorem c137_rate (cfg : StagCfg) (hc : 0 ≤ cfg.cp ∧ cfg.cp ≤ 1) (hp : 0 ≤ cfg.pTarget ∧ cfg.pTarget ≤ 1) (s : StagState) (h : StagReachable cfg s) :
    0 ≤ s.rate ∧ s.rate ≤ 1 := by
  induction h with
  | init r i => exact hp
  | step s i _ _ ih =>
    have h1 := rate_step cfg hc i.1 { s with evalCount := s.evalCount + 1 } ih
    have h2 := (check_fields cfg (stagTell cfg i.1 { s with evalCount := s.evalCount + 1 })).1
    unfold stagStep stagRestart
    split_ifs with hf
    · exact rate_step cfg hc _ _ (by show 0 ≤ (stagCheck cfg _).rate ∧ (stagCheck cfg _).rate ≤ 1; rw [h2]; exact h1)
    · rw [h2]; exact h1

/-- **C137, the step size stays in its range**, and is positive, in every state of every run, when the initial one is in the range; the test of line 362 never fires. -/
theorem c137_range (cfg : StagCfg) (hr : ¬ OutOfRange cfg.sigma0) (s : StagState) (h : StagReachable cfg s) :
    ¬ OutOfRange s.sigma ∧ 0 < s.sigma := by
  have key : ¬ OutOfRange s.sigma := by
    induction h with
    | init r i => exact hr
    | step s i _ hs ih =>
      have h1 := tell_sigma cfg hr i.1 { s with evalCount := s.evalCount + 1 } hs
      have h2 := (check_fields cfg (stagTell cfg i.1 { s with evalCount := s.evalCount + 1 })).2
      unfold stagStep stagRestart
      split_ifs with hf
      · exact hr
      · rw [h2]; exact h1
  refine ⟨key, ?_⟩
  have : ¬ s.sigma < 1e-8 := fun hh => key (Or.inl hh)
  have h8 : (0 : ℝ) < 1e-8 := by norm_num
  linarith

/-- **C137, the rule of success.**  After a failure the success rate falls, after a success it rises (strictly, unless it is at its end).  The step size is changed by a
factor that exceeds one exactly when the new rate exceeds the target, unless it leaves the range or the covariance matrix cannot be factorised, when it is reset. -/
theorem c137_adaptation (cfg : StagCfg) (hc : 0 < cfg.cp ∧ cfg.cp < 1) (hp : cfg.pTarget < 1) (hd : 0 < cfg.damp) (hr : ¬ OutOfRange cfg.sigma0)
    (s : StagState) (h : StagReachable cfg s) (hs : s.stop = false) (i : StagIn) :
    let t := stagTell cfg i s
    (cfg.better (i.y + i.pen) s.fpen → s.rate < 1 → s.rate < t.rate) ∧ (¬ cfg.better (i.y + i.pen) s.fpen → 0 < s.rate → t.rate < s.rate) ∧
    (t.sigma = cfg.sigma0 ∨ ((s.sigma < t.sigma ↔ cfg.pTarget < t.rate) ∧ (t.sigma < s.sigma ↔ t.rate < cfg.pTarget))) := by
  intro t
  have hpos := (c137_range cfg hr s h).2
  have hrate : t.rate = stagRate cfg (cfg.better (i.y + i.pen) s.fpen) s.rate := by simp [t, stagTell, hs]
  refine ⟨fun hb h1 => ?_, fun hb h0 => ?_, ?_⟩
  · rw [hrate, stagRate, if_pos hb]; nlinarith [hc.1]
  · rw [hrate, stagRate, if_neg hb]; nlinarith [hc.1]
  · have hsig : t.sigma = cfg.sigma0 ∨ t.sigma = stagSigma cfg t.rate s.sigma := by
      rw [hrate]
      simp only [t, stagTell, hs, Bool.false_eq_true, if_false]
      split_ifs <;> simp
    rcases hsig with h1 | h1
    · exact Or.inl h1
    · refine Or.inr ?_
      rw [h1]
      unfold stagSigma
      have hden : 0 < 1 - cfg.pTarget := by linarith
      constructor
      · rw [lt_mul_iff_one_lt_right hpos, Real.one_lt_exp_iff, div_div, lt_div_iff₀ (mul_pos hden hd), zero_mul, sub_pos]
      · rw [mul_lt_iff_lt_one_right hpos, Real.exp_lt_one_iff, div_div, div_lt_iff₀ (mul_pos hden hd), zero_mul, sub_neg]

/-- The configuration of the acquisition search in two dimensions without a budget; it meets the hypotheses of the theorems. -/
example : let cfg : StagCfg := ⟨false, none, none, 1e-4, 1e-4, 1, 2 / 11, 1 / 12, 2, 2⟩
    0 < cfg.ftol ∧ ¬ OutOfRange cfg.sigma0 ∧ (0 < cfg.cp ∧ cfg.cp < 1) ∧ cfg.pTarget < 1 ∧ 0 < cfg.damp ∧
      (∀ k : ℕ, gainOver cfg.minimize (0 + 0) (((fun k => (⟨1 - 1 / (k + 1), 0, 0, false⟩, ⟨0, 0, 0, false⟩)) : ℕ → StagIn × StagIn) k).1.y ≤ 1) := by
  refine ⟨by norm_num, ?_, by norm_num, by norm_num, by norm_num, fun k => ?_⟩
  · unfold OutOfRange; norm_num
  · simp only [gainOver, Bool.false_eq_true, if_false]
    have : (0 : ℝ) ≤ 1 / (k + 1) := by positivity
    linarith

end Verif.Props
