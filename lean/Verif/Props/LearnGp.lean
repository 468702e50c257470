import Verif.Spec.LearnGp
import Verif.Props.LearnSteps
import Verif.Props.Gpr

/-! # C159: optimisation with a Gaussian process without noise -/
namespace Verif.Props
open Verif.Model Verif.Spec Verif.Proofs Matrix

variable {G : Type*}

private theorem improvement_pos (mn : Bool) (best m v : ℝ) (hv : 0 < v) : 0 < expectedImprovement mn best (predictive m v) := by
  have key : ∀ best m : ℝ, 0 < expectedImprovement true best (predictive m v) := fun best m => lt_of_le_of_lt (le_max_right _ _) (ei_gt best m v hv)
  cases mn with
  | true => exact key best m
  | false =>
    have := key (-best) (-m)
    unfold expectedImprovement at this ⊢
    rw [integral_predictive_neg m v] at this
    refine lt_of_lt_of_eq this (congrArg _ (funext fun y => ?_))
    simp only [gain]
    norm_num
    ring_nf

private theorem threshold_pos (s2 : Option ℝ) (hs : ∀ v, s2 = some v → 0 < v) : 0 < eiThreshold s2 := by
  cases h2 : s2 with
  | none => simp [eiThreshold]
  | some v => exact div_pos (Real.sqrt_pos.mpr (hs v h2)) (by norm_num)

/-- **C159, what is known**: at every point evaluated so far, the Gaussian process predicts the value observed there, with no error, and expects no improvement. -/
theorem c159_known_points (n : ℕ) (L : Learner G) (i : ℕ) (log : List (ℕ × Row × Obs ℝ)) (minimize : Bool) (best : ℝ)
    (hgp : NoiselessGp n (observedData log) (fun x => ((L.predict i (observedData log) x 0).mean, (L.predict i (observedData log) x 0).mse)))
    (hsig : ∀ v, (L.fit i (observedData log)).sigma2 = some v → 0 < v) (x : Row) (v : ℝ) (hx : (x, v) ∈ succeeded log) :
    (L.predict i (observedData log) x 0).mean = inObservedUnits log v ∧ (L.predict i (observedData log) x 0).mse = 0 ∧
      worth minimize L i log best x = 0 := by
  obtain ⟨k, chol, qr, name, theta, c, basis, beta, sigma2, hc, hq, hth, hcorr, hF, hR, hpred⟩ := hgp
  have hmem : (x, inObservedUnits log v) ∈ observedData log := List.mem_map.mpr ⟨(x, v), hx, rfl⟩
  obtain ⟨j, hj, hjx⟩ := List.getElem_of_mem hmem
  have hint := c97_interpolates hc hq name theta hth c hcorr (fun i : Fin (observedData log).length => coordinates n (observedData log)[i].1) basis beta hF hR sigma2
    (fun i => (observedData log)[i].2) ⟨j, hj⟩
  have hp := hpred x
  have h1 : (observedData log)[(⟨j, hj⟩ : Fin (observedData log).length)].1 = x := by simp [hjx]
  have h2 : (observedData log)[(⟨j, hj⟩ : Fin (observedData log).length)].2 = inObservedUnits log v := by simp [hjx]
  simp only [h1, h2] at hint
  rw [hint] at hp
  have hp := Option.some.inj hp
  have hm := (congrArg Prod.fst hp).symm
  have he := (congrArg Prod.snd hp).symm
  simp only at hm he
  refine ⟨hm, he, ?_⟩
  unfold worth
  simp only [he, Real.sqrt_zero]
  rw [if_pos (threshold_pos _ hsig)]

/-- **C159, what is new**: under the hypotheses of C157 and with a Gaussian process without noise, the point chosen has not been evaluated before, provided the search
looked at some point where the prediction is not certain. -/
theorem c159_new_point_partial (n : ℕ) (cfg : Cfg ℝ) (u : RunSetup) (par : AcqPar) (L : Learner G) (i : ℕ) (hn : 1 ≤ i)
    (hrun : (learnRun cfg u (.EI, par) L i 0 {} []).ending = .running) (hcont : (checkStop cfg (learnRun cfg u (.EI, par) L i 0 {} []).opt).2 = .ok false)
    (hp : u.nPoint = 1) (hv : u.vars ≠ []) (huse : UsesCriteria L)
    (hsig : ∀ v, (L.fit i (observedData (learnRun cfg u (.EI, par) L i 0 {} []).log)).sigma2 = some v → 0 < v)
    (henv : ∀ cs, LibrariesOk (L.search i cs) (u.vars.map Prod.snd) ∧ SpaceOk (L.search i cs) (u.vars.map Prod.snd) ∧ (L.search i cs).algo ≠ .bfgs ∧
      (∀ t x, (L.search i cs).penalty t x = 0) ∧ (L.search i cs).h = none ∧ (L.search i cs).g = none ∧ 1 ≤ (L.search i cs).nRestart ∧
      1 ≤ (L.search i cs).budget)
    (hgp : NoiselessGp n (observedData (learnRun cfg u (.EI, par) L i 0 {} []).log)
      (fun x => ((L.predict i (observedData (learnRun cfg u (.EI, par) L i 0 {} []).log) x 0).mean,
        (L.predict i (observedData (learnRun cfg u (.EI, par) L i 0 {} []).log) x 0).mse))) :
    ∃ (e : AskEnv G) (x : Row) (m : ℕ) (B : ℕ → ℤ), (∃ c, e = L.search i [c]) ∧ 1 ≤ m ∧ B 0 = e.budget ∧
      (∃ k < m, x ∈ innerLog e (u.vars.map Prod.snd) 0 k (B k)) ∧
      ((∃ k < m, ∃ y ∈ innerLog e (u.vars.map Prod.snd) 0 k (B k),
          eiThreshold (L.fit i (observedData (learnRun cfg u (.EI, par) L i 0 {} []).log)).sigma2 ≤
            Real.sqrt (L.predict i (observedData (learnRun cfg u (.EI, par) L i 0 {} []).log) y 0).mse) →
        x ∉ (succeeded (learnRun cfg u (.EI, par) L i 0 {} []).log).map Prod.fst) ∧
      ((∀ y ∈ (succeeded (learnRun cfg u (.EI, par) L i 0 {} []).log).map Prod.fst, ¬ matchesRow (u.vars.map Prod.snd) y x) →
        (learnRun cfg u (.EI, par) L (i + 1) 0 {} []).log = (learnRun cfg u (.EI, par) L i 0 {} []).log ++ [(i, x, L.objective i x)]) := by
  obtain ⟨best, e, x, m, B, -, he, hm, hB, hmem, hmax, hnext⟩ := c157_maximises_improvement_partial cfg u par L i hn hrun hcont hp hv huse hsig henv
  refine ⟨e, x, m, B, he, hm, hB, hmem, ?_, hnext⟩
  rintro ⟨k, hk, y, hy, hcert⟩ hold
  obtain ⟨⟨x', v⟩, hxv, rfl⟩ := List.mem_map.mp hold
  have h0 := (c159_known_points n L i _ cfg.minimize best hgp hsig x' v hxv).2.2
  have h1 := hmax k hk y hy
  rw [h0] at h1
  have hpos : 0 < worth cfg.minimize L i (learnRun cfg u (.EI, par) L i 0 {} []).log best y := by
    unfold worth
    simp only
    rw [if_neg (not_lt.mpr hcert)]
    exact improvement_pos _ _ _ _ (Real.sqrt_pos.mp (lt_of_lt_of_le (threshold_pos _ hsig) hcert))
  exact absurd h1 (not_le.mpr hpos)

/-! ### The hypotheses are met -/

/-- The prediction of a Gaussian process with constant trend and squared exponential correlation, for two samples at 0 and 1. -/
private noncomputable def gpStep : ℕ → List (Row × ℝ) → Row → ℕ → AcqPred := fun _ t x _ =>
  match gpPredict anyChol anyQr .noiseless (of (correlationMatrix sq1 (fun i _ => (i.val : ℝ)))) (of fun _ _ => 1) none 1
    (fun i : Fin 2 => (t.map Prod.snd).getD i.val 0) (fun _ => 1) (corrVector sq1 (fun (i : Fin 2) _ => (i.val : ℝ)) (coordinates 1 x)) with
  | some (m, e) => ⟨m, e, 0, 0⟩
  | none => ⟨0, 0, 0, 0⟩

/-- The hypothesis of C159 on the prediction is met after the first step of the run of the example of C157. -/
private theorem gp_step : let o := learnRun stepCfg { twoSetup with parallel := false, nPoint := 1 } (.EI, emptyPar) { stepLearner with predict := gpStep } 1 0 {} []
    o.ending = .running ∧ NoiselessGp 1 (observedData o.log) (fun x => ((gpStep 1 (observedData o.log) x 0).mean, (gpStep 1 (observedData o.log) x 0).mse)) := by
  intro o
  rw [show o = ⟨twoState, twoLog, .running⟩ from step_run gpStep _ _ _]
  refine ⟨rfl, ?_⟩
  simp only
  have hd : observedData twoLog = [([.real 0], inObservedUnits twoLog 1), ([.real 1], inObservedUnits twoLog 0)] := rfl
  rw [hd]
  have hX : (fun i : Fin 2 => coordinates 1 [([Val.real 0], inObservedUnits twoLog 1), ([.real 1], inObservedUnits twoLog 0)][i].1) =
      fun (i : Fin 2) _ => (i.val : ℝ) := by
    funext i l
    fin_cases i <;> fin_cases l <;> simp [coordinates]
  refine ⟨1, anyChol, anyQr, .squaredExponential, [1], sq1, fun _ _ => 1, none, 1, anyChol_routine, anyQr_routine, by simp, sq1_corr, fun _ => const_rank, ?_, ?_⟩
  · show (anyChol (of (correlationMatrix sq1 (fun i : Fin 2 => coordinates 1 [([Val.real 0], inObservedUnits twoLog 1), ([.real 1], inObservedUnits twoLog 0)][i].1)))).isSome
    rw [hX]
    exact sq1_chol
  · intro x
    show gpPredict anyChol anyQr .noiseless (of (correlationMatrix sq1 (fun i : Fin 2 =>
      coordinates 1 [([Val.real 0], inObservedUnits twoLog 1), ([.real 1], inObservedUnits twoLog 0)][i].1))) (of fun _ _ => 1) none 1
      (fun i : Fin 2 => [([Val.real 0], inObservedUnits twoLog 1), ([.real 1], inObservedUnits twoLog 0)][i].2) (fun _ => 1)
      (corrVector sq1 (fun i : Fin 2 => coordinates 1 [([Val.real 0], inObservedUnits twoLog 1), ([.real 1], inObservedUnits twoLog 0)][i].1) (coordinates 1 x)) = _
    rw [hX]
    unfold gpStep
    have hy : (fun i : Fin 2 => [([Val.real 0], inObservedUnits twoLog 1), ([Val.real 1], inObservedUnits twoLog 0)][i].2) =
        fun i : Fin 2 => ([([Val.real 0], inObservedUnits twoLog 1), ([Val.real 1], inObservedUnits twoLog 0)].map Prod.snd).getD i.val 0 := by
      funext i
      fin_cases i <;> rfl
    rw [hy]
    obtain ⟨m, e, hme⟩ : ∃ m e, gpPredict anyChol anyQr .noiseless (of (correlationMatrix sq1 (fun i _ => (i.val : ℝ)))) (of fun _ _ => 1) none 1
        (fun i : Fin 2 => ([([Val.real 0], inObservedUnits twoLog 1), ([Val.real 1], inObservedUnits twoLog 0)].map Prod.snd).getD i.val 0) (fun _ => 1)
        (corrVector sq1 (fun (i : Fin 2) _ => (i.val : ℝ)) (coordinates 1 x)) = some (m, e) := by
      obtain ⟨m, e, w, h, -⟩ := c95_best_linear_unbiased anyChol_routine anyQr_routine (of (correlationMatrix sq1 (fun (i : Fin 2) _ => (i.val : ℝ))))
        (of fun (_ : Fin 2) (_ : Fin 1) => (1 : ℝ)) const_rank sq1_chol 1 (fun _ => 1) (corrVector sq1 (fun (i : Fin 2) _ => (i.val : ℝ)) (coordinates 1 x))
      exact ⟨_, _, h _⟩
    beta_reduce
    rw [hme]

/-- The hypotheses of `c159_new_point_partial` are met: the theorem applies to the second step of that run. -/
example := c159_new_point_partial 1 stepCfg { twoSetup with parallel := false, nPoint := 1 } emptyPar { stepLearner with predict := gpStep } 1 le_rfl
  gp_step.1
  (by
    rw [step_run]
    simp [checkStop, stepCfg, checkBudget, stopFlag, twoState])
  rfl (by simp [twoSetup, demoSetup])
  (by
    intro i cs k c x v hc hv
    simp [stepLearner, hc, hv])
  (by
    intro v hv
    cases hv
    norm_num)
  step_env gp_step.2

end Verif.Props
