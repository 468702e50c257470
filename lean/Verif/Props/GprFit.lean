import Verif.Model.GprFit
import Verif.Spec.GprFit
import Verif.Props.Likelihood

/-!
# C105-C107: hyper-parameter search and fitting
-/
namespace Verif.Props

open Matrix Verif.Model Verif.Spec Verif.Proofs

/-! ### C105 -/

/-- The loop variables after `m` iterations. -/
private structure RestartInv {P V : Type*} [LinearOrder V] (run : ℕ → LocalRun P V) (budget : ℤ) (s : FitRestartState P V) (m : ℕ) : Prop where
  pos : 0 < m
  best : ∃ i, LastBest (fun j => (run j).value) m i ∧ s.param = (run i).param ∧ s.value = (run i).value ∧ (s.wait : ℤ) = (m : ℤ) - 1 - i
  budget : s.budget = budget - ∑ j ∈ Finset.range m, ((run j).calls : ℤ)

private theorem lastBest_unique {V : Type*} [LinearOrder V] {f : ℕ → V} {m i j : ℕ} (hi : LastBest f m i) (hj : LastBest f m j) : i = j := by
  rcases lt_trichotomy i j with h | h | h
  · exact absurd (hi.2.2 j h hj.1) (not_lt.2 (hj.2.1 i hi.1))
  · exact h
  · exact absurd (hj.2.2 i h hi.1) (not_lt.2 (hi.2.1 j hj.1))

private theorem restartInv_step {P V : Type*} [LinearOrder V] {run : ℕ → LocalRun P V} {budget : ℤ} {s : FitRestartState P V} {m : ℕ}
    (h : RestartInv run budget s m) : RestartInv run budget (fitRestartStep s (run m)) (m + 1) := by
  obtain ⟨i, hi, hp, hv, hw⟩ := h.best
  unfold fitRestartStep
  split_ifs with hle
  · refine ⟨Nat.succ_pos _, ⟨m, ⟨Nat.lt_succ_self _, fun j hj => ?_, fun j h1 h2 => by omega⟩, rfl, rfl, by simp⟩, ?_⟩
    · rcases Nat.lt_succ_iff_lt_or_eq.1 hj with hj | rfl
      · exact le_trans (hle.trans_eq hv) (hi.2.1 j hj)
      · exact le_rfl
    · simp only
      rw [h.budget, Finset.sum_range_succ]; ring
  · rw [not_le, hv] at hle
    refine ⟨Nat.succ_pos _, ⟨i, ⟨Nat.lt_succ_of_lt hi.1, fun j hj => ?_, fun j h1 h2 => ?_⟩, hp, hv, by push_cast; omega⟩, ?_⟩
    · rcases Nat.lt_succ_iff_lt_or_eq.1 hj with hj | rfl
      · exact hi.2.1 j hj
      · exact hle.le
    · rcases Nat.lt_succ_iff_lt_or_eq.1 h2 with hj | rfl
      · exact hi.2.2 j h1 hj
      · exact hle
    · simp only
      rw [h.budget, Finset.sum_range_succ]; ring

private theorem restartStop_iff {P V : Type*} [LinearOrder V] {run : ℕ → LocalRun P V} {budget waitIter : ℤ} {s : FitRestartState P V} {m : ℕ}
    (h : RestartInv run budget s m) : fitRestartStop waitIter s = true ↔
      SearchExhausted (fun j => (run j).value) (fun j => (run j).calls) waitIter budget m := by
  obtain ⟨i, hi, hp, hv, hw⟩ := h.best
  unfold fitRestartStop SearchExhausted
  rw [decide_eq_true_iff, h.budget, hw]
  constructor
  · rintro (h1 | h1)
    · left; linarith
    · exact Or.inr ⟨i, hi, h1⟩
  · rintro (h1 | ⟨j, hj, h1⟩)
    · left; linarith
    · rw [lastBest_unique hi hj]
      exact Or.inr h1

private theorem restartFrom_spec {P V : Type*} [LinearOrder V] (run : ℕ → LocalRun P V) (budget waitIter : ℤ) (fuel m : ℕ) (s : FitRestartState P V)
    (h : RestartInv run budget s m)
    (hs : ¬ SearchExhausted (fun j => (run j).value) (fun j => (run j).calls) waitIter budget m) :
    ∃ s' m', fitRestartFrom run waitIter fuel m s = (s', m') ∧ m ≤ m' ∧ m' ≤ m + fuel ∧ RestartInv run budget s' m' ∧
      (m' = m + fuel ∨ SearchExhausted (fun j => (run j).value) (fun j => (run j).calls) waitIter budget m') ∧
      ∀ q, m ≤ q → q < m' → ¬ SearchExhausted (fun j => (run j).value) (fun j => (run j).calls) waitIter budget q := by
  induction fuel generalizing m s with
  | zero => exact ⟨s, m, rfl, le_rfl, le_rfl, h, Or.inl rfl, fun q h1 h2 => by omega⟩
  | succ fuel ih =>
    have h' := restartInv_step h
    simp only [fitRestartFrom]
    by_cases hst : fitRestartStop waitIter (fitRestartStep s (run m)) = true
    · rw [if_pos hst]
      refine ⟨_, _, rfl, by omega, by omega, h', Or.inr ((restartStop_iff h').1 hst), fun q h1 h2 => ?_⟩
      rw [show q = m by omega]; exact hs
    · rw [if_neg hst]
      have hne := fun hx => hst ((restartStop_iff h').2 hx)
      obtain ⟨s', m', e, h1, h2, h3, h4, h5⟩ := ih _ _ h' hne
      refine ⟨s', m', e, by omega, by omega, h3, by rcases h4 with h4 | h4 <;> [left; right] <;> [omega; exact h4], fun q hq1 hq2 => ?_⟩
      rcases Nat.eq_or_lt_of_le hq1 with rfl | hlt
      · exact hs
      · exact h5 q hlt hq2

/-- **C105.**  With at least one restart the search ends after `m` local searches, with the best parameters that any of them found (the
latest of equals).  `m` is the first number at which the evaluations are used up or the last `wait_iter` searches were all worse, or
`random_start` if there is no such number below. -/
theorem c105_best_of_restarts {P V : Type*} [LinearOrder V] (run : ℕ → LocalRun P V) (waitIter budget : ℤ) (randomStart : ℕ)
    (hr : 0 < randomStart) :
    ∃ s m i, fitRestartLoop run waitIter budget randomStart = some (s, m) ∧ 1 ≤ m ∧ m ≤ randomStart ∧
      LastBest (fun j => (run j).value) m i ∧ s.param = (run i).param ∧ s.value = (run i).value ∧
      (m = randomStart ∨ SearchExhausted (fun j => (run j).value) (fun j => (run j).calls) waitIter budget m) ∧
      ∀ q, 1 ≤ q → q < m → ¬ SearchExhausted (fun j => (run j).value) (fun j => (run j).calls) waitIter budget q := by
  obtain ⟨fuel, rfl⟩ : ∃ fuel, randomStart = fuel + 1 := ⟨randomStart - 1, by omega⟩
  have h0 : RestartInv run budget { param := (run 0).param, value := (run 0).value, wait := 0, budget := budget - (run 0).calls } 1 :=
    ⟨one_pos, ⟨0, ⟨one_pos, fun j hj => by rw [Nat.lt_one_iff.1 hj], fun j h1 h2 => by omega⟩, rfl, rfl, by simp⟩, by simp⟩
  simp only [fitRestartLoop]
  by_cases hst : fitRestartStop waitIter ({ param := (run 0).param, value := (run 0).value, wait := 0, budget := budget - (run 0).calls } : FitRestartState P V) = true
  · rw [if_pos hst]
    obtain ⟨i, hi, hp, hv, -⟩ := h0.best
    exact ⟨_, 1, i, rfl, le_rfl, by omega, hi, hp, hv, Or.inr ((restartStop_iff h0).1 hst), fun q h1 h2 => by omega⟩
  · rw [if_neg hst]
    obtain ⟨s', m', e, h1, h2, h3, h4, h5⟩ := restartFrom_spec run budget waitIter fuel 1 _ h0 fun hx => hst ((restartStop_iff h0).2 hx)
    obtain ⟨i, hi, hp, hv, -⟩ := h3.best
    exact ⟨s', m', i, by rw [e], h1, by omega, hi, hp, hv, by rw [Nat.add_comm]; exact h4, h5⟩

/-- Without a restart the search fails. -/
theorem c105_zero_restarts_fail {P V : Type*} [LinearOrder V] (run : ℕ → LocalRun P V) (waitIter budget : ℤ) :
    fitRestartLoop run waitIter budget 0 = none := rfl

/-- Values 5, 3, 4, 3, 7, 8, ...: with patience 2 the search ends after six runs with the parameters of the fourth. -/
example : (fitRestartLoop (fun i => { param := i, value := [5, 3, 4, 3, 7, 8, 1].getD i 0, calls := 10 } : ℕ → LocalRun ℕ ℕ) 2 1000 7).map
    (fun q => (q.1.param, q.1.value, q.2)) = some (3, 3, 6) := by
  simp [fitRestartLoop, fitRestartFrom, fitRestartStep, fitRestartStop]

/-! ### C106 -/

variable {N k : ℕ} {T : Type*} {chol : Matrix (Fin N) (Fin N) ℝ → Option (Matrix (Fin N) (Fin N) ℝ)}
  {qr : Matrix (Fin N) (Fin k) ℝ → Matrix (Fin N) (Fin k) ℝ × Matrix (Fin k) (Fin k) ℝ}

private theorem ends_of_some {corrMatrix : T → Matrix (Fin N) (Fin N) ℝ} {F : Matrix (Fin N) (Fin k) ℝ} {beta : Option (Fin k → ℝ)}
    {y : Fin N → ℝ} {search : ℕ → FitState → T × ℝ} {s : FitState} (J : ℕ)
    (h : (fitRound chol qr corrMatrix F beta y search J (fitRoundState s J)).isSome) :
    ∃ j out s', j ≤ J ∧ FitEnds chol qr corrMatrix F beta y search s j out s' := by
  classical
  have hex : ∃ j, (fitRound chol qr corrMatrix F beta y search j (fitRoundState s j)).isSome := ⟨J, h⟩
  obtain ⟨out, ho⟩ := Option.isSome_iff_exists.1 (Nat.find_spec hex)
  refine ⟨Nat.find hex, out, _, Nat.find_min' hex h, fun i hi => ?_, ho, rfl⟩
  simpa using Nat.find_min hex hi

private theorem noisy_rounds (noise : ℝ) (j : ℕ) : fitRoundState { mode := .noisy, noise } j = { mode := .noisy, noise := noise * 10 ^ j } := by
  induction j with
  | zero => simp [fitRoundState]
  | succ j ih => simp only [fitRoundState, ih, raiseNugget]; congr 1; ring

private theorem noiseless_rounds (noise : ℝ) (j : ℕ) :
    fitRoundState { mode := .noiseless, noise } (j + 1) = { mode := .noisy, noise := 1e-5 * 10 ^ j } := by
  induction j with
  | zero => simp [fitRoundState, raiseNugget]
  | succ j ih => rw [fitRoundState, ih]; simp only [raiseNugget]; congr 1; ring

private theorem estim_rounds (noise : ℝ) (j : ℕ) : (fitRoundState { mode := .noiseEstim, noise } j).mode = .noiseEstim := by
  induction j with
  | zero => rfl
  | succ j ih =>
    rw [fitRoundState]
    generalize fitRoundState { mode := .noiseEstim, noise } j = s at ih ⊢
    unfold raiseNugget
    rw [ih]

private theorem two_pi_inv_le : 1 / (2 * Real.pi) ≤ 1 := by
  rw [div_le_one (by positivity)]; nlinarith [Real.pi_gt_three]

/-- **C106, the part that holds.**  With a positive nugget `fit` ends after at most as many rounds as it takes to raise the nugget to
`1 / (2 π)` by factors of ten: for all data and trends, and whatever the searches return, as long as the correlation function is
a valid one and the variance is positive. -/
theorem c106_noisy_fit_ends_partial (hc : CholeskyRoutine chol) (hcc : CompleteCholesky chol) (corrMatrix : T → Matrix (Fin N) (Fin N) ℝ)
    (hR : ∀ t, IsCorrelationMatrix (fun i j => corrMatrix t i j)) (F : Matrix (Fin N) (Fin k) ℝ) (beta : Option (Fin k → ℝ)) (y : Fin N → ℝ)
    (search : ℕ → FitState → T × ℝ) (hsig : ∀ j s, 0 < (search j s).2) (nugget : ℝ) (hn : 0 < nugget) (J : ℕ)
    (hJ : 1 / (2 * Real.pi) ≤ nugget * 10 ^ J) :
    ∃ j out s', j ≤ J ∧ FitEnds chol qr corrMatrix F beta y search (fitInit nugget false) j out s' := by
  have hi : fitInit nugget false = { mode := .noisy, noise := nugget } := by simp [fitInit, hn.ne']
  rw [hi]
  refine ends_of_some J ?_
  rw [noisy_rounds]
  exact c102_noisy_accepted_partial hc hcc _ (hR _) F beta y _ _ (hsig _ _) hJ

/-- The default nugget needs at most seven rounds, and so does a nugget of zero (after a round without noise the nugget is `1e-5`). -/
theorem c106_default_nugget_partial (hc : CholeskyRoutine chol) (hcc : CompleteCholesky chol) (corrMatrix : T → Matrix (Fin N) (Fin N) ℝ)
    (hR : ∀ t, IsCorrelationMatrix (fun i j => corrMatrix t i j)) (F : Matrix (Fin N) (Fin k) ℝ) (beta : Option (Fin k → ℝ)) (y : Fin N → ℝ)
    (search : ℕ → FitState → T × ℝ) (hsig : ∀ j s, 0 < (search j s).2) :
    (∃ j out s', j < 7 ∧ FitEnds chol qr corrMatrix F beta y search (fitInit 1e-6 false) j out s') ∧
    ∃ j out s', j < 7 ∧ FitEnds chol qr corrMatrix F beta y search (fitInit 0 false) j out s' := by
  constructor
  · obtain ⟨j, out, s', hj, h⟩ := c106_noisy_fit_ends_partial (qr := qr) hc hcc corrMatrix hR F beta y search hsig 1e-6 (by norm_num) 6
      (two_pi_inv_le.trans (by norm_num))
    exact ⟨j, out, s', by omega, h⟩
  · have hi : fitInit 0 false = { mode := .noiseless, noise := 0 } := by simp [fitInit]
    rw [hi]
    obtain ⟨j, out, s', hj, h⟩ := ends_of_some (chol := chol) (qr := qr) (corrMatrix := corrMatrix) (F := F) (beta := beta) (y := y)
      (search := search) (s := { mode := .noiseless, noise := 0 }) 6 (by
        rw [noiseless_rounds]
        exact c102_noisy_accepted_partial hc hcc _ (hR _) F beta y _ _ (hsig _ _) (two_pi_inv_le.trans (by norm_num)))
    exact ⟨j, out, s', by omega, h⟩

private theorem diag_le_one {R L : Matrix (Fin N) (Fin N) ℝ} (h : IsCholesky R L) (hd : ∀ i, R i i = 1) : twiceLogDiag L ≤ 0 := by
  unfold twiceLogDiag
  have : ∑ i, Real.log (L i i) ≤ 0 := Finset.sum_nonpos fun i _ => by
    refine Real.log_nonpos (h.pos i).le ?_
    have h1 : ∑ j, L i j ^ 2 = 1 := by
      rw [← hd i, ← h.mul, mul_apply]
      exact Finset.sum_congr rfl fun j _ => by rw [transpose_apply, sq]
    have h2 : L i i ^ 2 ≤ 1 := by
      rw [← h1]
      exact Finset.single_le_sum (f := fun j => L i j ^ 2) (fun j _ => sq_nonneg _) (Finset.mem_univ i)
    nlinarith [h.pos i]
  linarith

private theorem inv_quad_le {R L : Matrix (Fin N) (Fin N) ℝ} (h : IsCholesky R L) {b : ℝ} (hb : 0 < b)
    (hR : ∀ w : Fin N → ℝ, b * (w ⬝ᵥ w) ≤ w ⬝ᵥ (R *ᵥ w)) (y : Fin N → ℝ) : sumSquares (L⁻¹ *ᵥ y) ≤ (y ⬝ᵥ y) / b := by
  rw [← inv_quadratic h]
  have h1 := hR (R⁻¹ *ᵥ y)
  rw [mulVec_mulVec, mul_nonsing_inv _ (log_det_chol h).2.ne'.isUnit, one_mulVec, dotProduct_comm _ y] at h1
  have hcs : (y ⬝ᵥ (R⁻¹ *ᵥ y)) ^ 2 ≤ (y ⬝ᵥ y) * ((R⁻¹ *ᵥ y) ⬝ᵥ (R⁻¹ *ᵥ y)) := by
    have := Finset.sum_mul_sq_le_sq_mul_sq Finset.univ y (R⁻¹ *ᵥ y)
    simpa only [dotProduct, sq] using this
  have hq : 0 ≤ y ⬝ᵥ (R⁻¹ *ᵥ y) := by rw [inv_quadratic h]; exact sumSquares_nonneg _
  generalize y ⬝ᵥ (R⁻¹ *ᵥ y) = q at *
  generalize (R⁻¹ *ᵥ y) ⬝ᵥ (R⁻¹ *ᵥ y) = z at *
  have hy := dot_self_nonneg y
  generalize y ⬝ᵥ y = p at *
  rw [le_div_iff₀ hb]
  rcases hq.eq_or_lt with h0 | hpos
  · rw [← h0]; linarith
  · have h2 : b * q ^ 2 ≤ p * q := by
      calc b * q ^ 2 ≤ b * (p * z) := mul_le_mul_of_nonneg_left hcs hb.le
        _ = p * (b * z) := by ring
        _ ≤ p * q := mul_le_mul_of_nonneg_left h1 hy
    have h3 : (q * b) * q ≤ p * q := by linarith
    exact le_of_mul_le_mul_right h3 hpos

/-- **C106 does not hold.**  When the noise is estimated, then for every number of samples, trend and data there is a unit of measurement
in which no round succeeds: `fit` does not end, for any valid correlation function and whatever the searches return within their bounds. -/
theorem c106_noise_estim_never_ends (hc : CholeskyRoutine chol) (hq : QrRoutine qr) (F : Matrix (Fin N) (Fin k) ℝ)
    (beta : Option (Fin k → ℝ)) (hb : beta = none ∧ FullRank F ∨ beta = some 0) (y : Fin N → ℝ) :
    ∃ c0 : ℝ, 0 < c0 ∧ ∀ c : ℝ, 0 < c → c < c0 → ∀ (corrMatrix : T → Matrix (Fin N) (Fin N) ℝ),
      (∀ t, IsCorrelationMatrix (fun i j => corrMatrix t i j)) → ∀ search : ℕ → FitState → T × ℝ,
      (∀ j s, 1e-10 ≤ (search j s).2 ∧ (search j s).2 ≤ 1 - 1e-10) → ∀ nugget : ℝ,
      ¬ ∃ j out s', FitEnds chol qr corrMatrix F beta (c • y) search (fitInit nugget true) j out s' := by
  have hF : beta = none → FullRank F := by
    rcases hb with ⟨-, hF⟩ | h
    · exact fun _ => hF
    · exact fun h0 => by rw [h0] at h; cases h
  have hyy := dot_self_nonneg y
  let B : ℝ := 2 * Real.pi * 10 ^ 10 * (y ⬝ᵥ y + 1) * Real.exp 1
  have hB : 0 < B := by positivity
  refine ⟨min 1 (1 / B), lt_min one_pos (by positivity), ?_⟩
  rintro c hc0 hc1 corrMatrix hR search hs nugget ⟨j, ⟨v, e⟩, s', -, hend, -⟩
  have hmode : (fitRoundState (fitInit nugget true) j).mode = .noiseEstim := by
    have : fitInit nugget true = { mode := .noiseEstim, noise := if nugget ≠ 0 then nugget else 0 } := by simp [fitInit]
    rw [this]; exact estim_rounds _ j
  have hgm : (fitRoundState (fitInit nugget true) j).gpMode (search j (fitRoundState (fitInit nugget true) j)).2 =
      .noiseEstim (search j (fitRoundState (fitInit nugget true) j)).2 := by
    unfold FitState.gpMode; rw [hmode]
  unfold fitRound at hend
  rw [hgm] at hend
  obtain ⟨ha1, ha2⟩ := hs j (fitRoundState (fitInit nugget true) j)
  have hRt := hR (search j (fitRoundState (fitInit nugget true) j)).1
  generalize (search j (fitRoundState (fitInit nugget true) j)).2 = alpha at *
  generalize corrMatrix (search j (fitRoundState (fitInit nugget true) j)).1 = R0 at *
  obtain ⟨a, ha, hN, hS, -, hv, hv0⟩ := llf_noise_estim_some.1 hend
  obtain ⟨hch, hmin, -, -⟩ := aux_spec hc hq hF ha
  have ha0 : (0 : ℝ) < alpha := lt_of_lt_of_le (by norm_num) ha1
  have hb1 : (0 : ℝ) < 1 - alpha := by linarith [show (0 : ℝ) < 1e-10 by norm_num]
  have hdiag : twiceLogDiag a.L ≤ 0 := diag_le_one hch fun i => by
    simp only [gpMatrix, Matrix.add_apply, Matrix.smul_apply, one_apply_eq, smul_eq_mul]
    rw [show R0 i i = 1 from hRt.2.1 i]; ring
  have hquad : ∀ w : Fin N → ℝ, (1 - alpha) * (w ⬝ᵥ w) ≤ w ⬝ᵥ (gpMatrix (.noiseEstim alpha) R0 *ᵥ w) := fun w => by
    have h4 : 0 ≤ w ⬝ᵥ (R0 *ᵥ w) := by
      have := hRt.2.2.2 w
      refine this.trans_eq ?_
      simp only [dotProduct, mulVec, Finset.mul_sum]
      exact Finset.sum_congr rfl fun i _ => Finset.sum_congr rfl fun j _ => by ring
    simp only [gpMatrix, smul_mulVec, add_mulVec, one_mulVec, dotProduct_smul, dotProduct_add, smul_eq_mul]
    nlinarith
  have hS1 : sumSquares a.rho ≤ c ^ 2 * (y ⬝ᵥ y) * 10 ^ 10 := by
    have h1 := hmin 0 (fun b0 h0 => by
      rcases hb with ⟨hn, -⟩ | hsome
      · rw [hn] at h0; cases h0
      · rw [hsome] at h0; exact Option.some.inj h0)
    rw [mulVec_zero, sub_zero] at h1
    refine h1.trans ((inv_quad_le hch hb1 hquad _).trans ?_)
    rw [div_le_iff₀ hb1, smul_dotProduct, dotProduct_smul, smul_eq_mul, smul_eq_mul]
    have h2 : (1 : ℝ) ≤ 10 ^ 10 * (1 - alpha) := by
      have : (1e-10 : ℝ) ≤ 1 - alpha := by linarith
      calc (1 : ℝ) = 10 ^ 10 * 1e-10 := by norm_num
        _ ≤ _ := by gcongr
    have h3 : 0 ≤ c ^ 2 * (y ⬝ᵥ y) := by positivity
    nlinarith
  have hN1 : (1 : ℝ) ≤ N := by exact_mod_cast hN
  have hlog : Real.log (2 * Real.pi * (sumSquares a.rho / N)) < -1 := by
    have hpos : 0 < 2 * Real.pi * (sumSquares a.rho / N) := by positivity
    rw [Real.log_lt_iff_lt_exp hpos]
    have hcB : c * B < 1 := by
      have := lt_of_lt_of_le hc1 (min_le_right _ _)
      rwa [lt_div_iff₀ hB] at this
    have hc2 : c < 1 := lt_of_lt_of_le hc1 (min_le_left _ _)
    have h1 : 2 * Real.pi * (sumSquares a.rho / N) ≤ 2 * Real.pi * (c * (y ⬝ᵥ y + 1) * 10 ^ 10) := by
      have h5 : sumSquares a.rho / N ≤ sumSquares a.rho := div_le_self hS.le hN1
      have h6 : c ^ 2 * (y ⬝ᵥ y) ≤ c * (y ⬝ᵥ y + 1) := by nlinarith
      have h7 : sumSquares a.rho / N ≤ c * (y ⬝ᵥ y + 1) * 10 ^ 10 := by
        refine h5.trans (hS1.trans ?_)
        gcongr
      gcongr
    refine h1.trans_lt ?_
    have h8 : 2 * Real.pi * (c * (y ⬝ᵥ y + 1) * 10 ^ 10) * Real.exp 1 < 1 := by
      calc _ = c * B := by simp only [B]; ring
        _ < 1 := hcB
    rw [Real.exp_neg]
    rw [lt_inv_comm₀ (by positivity) (Real.exp_pos 1)]
    rw [lt_inv_comm₀ (Real.exp_pos 1) (by positivity), ← one_div, lt_div_iff₀ (Real.exp_pos 1)]
    exact h8
  nlinarith

/-! ### C107 -/

/-- **C107, the part that holds.**  If the first search of `fit` succeeds, the settings that later calls start from are unchanged (the value of the noise is
not read when the noise is estimated), so that the next `fit` proceeds as that of a new model. -/
theorem c107_unchanged_partial (corrMatrix : T → Matrix (Fin N) (Fin N) ℝ) (F : Matrix (Fin N) (Fin k) ℝ) (beta : Option (Fin k → ℝ)) (y : Fin N → ℝ)
    (search : ℕ → FitState → T × ℝ) (nugget : ℝ) (noiseEstim : Bool) (out : ℝ × LlfEnv N k) (s' : FitState)
    (h : FitEnds chol qr corrMatrix F beta y search (fitInit nugget noiseEstim) 0 out s') :
    s'.mode = (fitInit nugget noiseEstim).mode ∧ (noiseEstim = false → s' = fitInit nugget noiseEstim) := by
  obtain ⟨-, h2, rfl⟩ := h
  refine ⟨rfl, ?_⟩
  rintro rfl
  obtain ⟨v, e⟩ := out
  by_cases h0 : nugget = 0
  · subst h0
    have hi : fitInit 0 false = { mode := .noiseless, noise := 0 } := by simp [fitInit]
    simp only [fitRoundState] at h2 ⊢
    rw [hi] at h2 ⊢
    obtain ⟨a, -, -, -, he, -⟩ := llf_noiseless_some.1 h2
    simp [he]
  · have hi : fitInit nugget false = { mode := .noisy, noise := nugget } := by simp [fitInit, h0]
    simp only [fitRoundState] at h2 ⊢
    rw [hi] at h2 ⊢
    obtain ⟨a, -, he, -⟩ := llf_noisy_some.1 h2
    simp [he]

/-- Once a model works with noise it always will, and the noise never becomes smaller, whatever later data are. -/
theorem c107_noise_never_decreases (corrMatrix : T → Matrix (Fin N) (Fin N) ℝ) (F : Matrix (Fin N) (Fin k) ℝ) (beta : Option (Fin k → ℝ))
    (y : Fin N → ℝ) (search : ℕ → FitState → T × ℝ) (s s' : FitState) (hn : 0 ≤ s.noise) (j : ℕ) (out : ℝ × LlfEnv N k)
    (h : FitEnds chol qr corrMatrix F beta y search s j out s') :
    (s.mode = .noisy → s'.mode = .noisy ∧ s'.noise = s.noise * 10 ^ j ∧ s.noise ≤ s'.noise) ∧
    (s.mode = .noiseless → 0 < j → s'.mode = .noisy ∧ (1e-5 : ℝ) ≤ s'.noise) := by
  obtain ⟨mode, noise⟩ := s
  obtain ⟨v, e⟩ := out
  obtain ⟨-, h2, rfl⟩ := h
  constructor
  · intro hm
    simp only at hm hn
    subst hm
    rw [noisy_rounds] at h2 ⊢
    obtain ⟨a, -, he, -⟩ := llf_noisy_some.1 h2
    refine ⟨rfl, by simp [he], ?_⟩
    rw [he]
    exact le_mul_of_one_le_right hn (one_le_pow₀ (by norm_num))
  · intro hm hj
    simp only at hm
    subst hm
    obtain ⟨i, rfl⟩ : ∃ i, j = i + 1 := ⟨j - 1, by omega⟩
    rw [noiseless_rounds] at h2 ⊢
    obtain ⟨a, -, he, -⟩ := llf_noisy_some.1 h2
    refine ⟨rfl, ?_⟩
    rw [he]
    exact le_mul_of_one_le_right (by norm_num) (one_le_pow₀ (by norm_num))

/-- Without noise the pair `1, -1` is fitted in the first round. -/
private theorem pair_fit_first (search : ℕ → FitState → Unit × ℝ) : ∃ out s',
    FitEnds idealChol idealQr (fun _ : Unit => pairMatrix (1 / 3)) ones2 none ![1, -1] search (fitInit 0 false) 0 out s' := by
  have hi : fitInit 0 false = { mode := .noiseless, noise := 0 } := by simp [fitInit]
  obtain ⟨a, ha, hS, hL, hlog⟩ := pair_bounds (s := 1 / 3) (by norm_num [abs_of_pos]) none
  have hv : (llfConcentrated idealChol idealQr .noiseless (pairMatrix (1 / 3)) ones2 none ![1, -1]).isSome := by
    refine Option.isSome_iff_exists.2 ⟨(_, _), llf_noiseless_some.2 ⟨a, ha, by norm_num [trendRank], by linarith, rfl, rfl, ?_⟩⟩
    have := hlog (((2 : ℕ) : ℝ) - trendRank 1 (none : Option (Fin 1 → ℝ))) (by norm_num [trendRank]) (by norm_num [trendRank])
    push_cast at *
    nlinarith
  obtain ⟨out, ho⟩ := Option.isSome_iff_exists.1 hv
  rw [hi]
  exact ⟨out, _, fun i h => absurd h (Nat.not_lt_zero i), ho, rfl⟩

/-- **C107 does not hold.**  A model that is fitted to small values first keeps a noise of at least `1e-5` for data that a new model fits without
noise (whatever the searches return): there are two data sets such that the second is always fitted without noise by a new model, and never
by one that was fitted to the first before.  Both fits do end. -/
theorem c107_refit_refuted : ∃ y1 y2 : Fin 2 → ℝ,
    (∀ search : ℕ → FitState → Unit × ℝ, ∃ out s',
      FitEnds idealChol idealQr (fun _ : Unit => pairMatrix (1 / 3)) ones2 none y2 search (fitInit 0 false) 0 out s' ∧ s'.mode = .noiseless) ∧
    (∀ search : ℕ → FitState → Unit × ℝ, (∀ j s, 0 < (search j s).2) → ∃ j out s',
      FitEnds idealChol idealQr (fun _ : Unit => pairMatrix (1 / 3)) ones2 none y1 search (fitInit 0 false) j out s') ∧
    ∀ (search1 search2 : ℕ → FitState → Unit × ℝ) j1 out1 s1 j2 out2 s2,
      FitEnds idealChol idealQr (fun _ : Unit => pairMatrix (1 / 3)) ones2 none y1 search1 (fitInit 0 false) j1 out1 s1 →
      FitEnds idealChol idealQr (fun _ : Unit => pairMatrix (1 / 3)) ones2 none y2 search2 s1 j2 out2 s2 →
      s2.mode = .noisy ∧ (1e-5 : ℝ) ≤ s2.noise := by
  have hi : fitInit 0 false = { mode := .noiseless, noise := 0 } := by simp [fitInit]
  obtain ⟨c0, h0, hc⟩ := c102_small_observations_rejected (qr := idealQr) (pairMatrix (1 / 3)) ones2
    (idealChol_complete (pair_chol (by norm_num [abs_of_pos]))) (by norm_num) ![1, -1]
  have hrej := hc (c0 / 2) (by positivity) (by linarith)
  refine ⟨(c0 / 2) • ![1, -1], ![1, -1], fun search => ?_, fun search hsig => ?_, ?_⟩
  · obtain ⟨out, s', h⟩ := pair_fit_first search
    refine ⟨out, s', h, ?_⟩
    rw [(c107_unchanged_partial _ _ _ _ _ _ _ _ _ h).1, hi]
  · obtain ⟨j, out, s', -, h⟩ := (c106_default_nugget_partial (qr := idealQr) idealChol_routine idealChol_all (fun _ : Unit => pairMatrix (1 / 3))
      (fun _ => pair_correlation (by norm_num) (by norm_num [abs_of_pos])) ones2 none ((c0 / 2) • ![1, -1]) search hsig).2
    exact ⟨j, out, s', h⟩
  · intro search1 search2 j1 out1 s1 j2 out2 s2 h1 h2
    have hj : 0 < j1 := by
      rcases Nat.eq_zero_or_pos j1 with rfl | h
      · have := h1.2.1
        rw [hi] at this
        have h3 : llfConcentrated idealChol idealQr .noiseless (pairMatrix (1 / 3)) ones2 none ((c0 / 2) • ![1, -1]) = some out1 := this
        rw [hrej] at h3
        cases h3
      · exact h
    obtain ⟨hm1, hn1⟩ := (c107_noise_never_decreases _ _ _ _ _ _ _ (by rw [hi]) _ _ h1).2 (by rw [hi]) hj
    obtain ⟨hm2, -, hn2⟩ := (c107_noise_never_decreases _ _ _ _ _ _ _ (le_trans (by norm_num) hn1) _ _ h2).1 hm1
    exact ⟨hm2, hn1.trans hn2⟩

/-- The hypotheses of the theorems of C106 are met, and the loop that does not end is met by concrete data. -/
example : (∃ j out s', j < 7 ∧ FitEnds idealChol idealQr (fun _ : Unit => pairMatrix (1 / 3)) ones2 none ![1, -1] (fun _ _ => ((), 1))
      (fitInit 1e-6 false) j out s') ∧
    ∃ c0 : ℝ, 0 < c0 ∧ ∀ c : ℝ, 0 < c → c < c0 →
      ¬ ∃ j out s', FitEnds idealChol idealQr (fun _ : Unit => pairMatrix (1 / 3)) ones2 none (c • ![1, -1]) (fun _ _ => ((), 1 / 2))
        (fitInit 0 true) j out s' := by
  have hR : ∀ _ : Unit, IsCorrelationMatrix (fun i j => pairMatrix (1 / 3) i j) :=
    fun _ => pair_correlation (by norm_num) (by norm_num [abs_of_pos])
  constructor
  · exact (c106_default_nugget_partial (qr := idealQr) idealChol_routine idealChol_all (fun _ : Unit => pairMatrix (1 / 3)) hR ones2 none ![1, -1]
      (fun _ _ => ((), 1)) (fun _ _ => by norm_num)).1
  · obtain ⟨c0, h0, h⟩ := c106_noise_estim_never_ends (T := Unit) idealChol_routine (idealQr_routine (by norm_num)) ones2 none
      (Or.inl ⟨rfl, ones2_full⟩) ![1, -1]
    exact ⟨c0, h0, fun c hc1 hc2 => h c hc1 hc2 _ hR _ (fun _ _ => by norm_num) 0⟩

end Verif.Props
