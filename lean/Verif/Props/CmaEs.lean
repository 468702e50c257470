import Verif.Proofs.CmaEs
import Mathlib.Data.Fin.Tuple.Sort

/-!
# C110-C114: the CMA-ES that can search the parameters of a Gaussian process
-/
namespace Verif.Props

open Matrix Verif.Model Verif.Spec Verif.Proofs

variable {d l : ℕ}

/-! ### C110 -/

/-- **C110, strategy parameters.**  For every dimension and every population of at least two: the weights are positive, decreasing and sum to one,
the effective number of parents lies between one and their number, learning rates are rates, and no weight in the update of the covariance matrix
is negative. -/
theorem c110_strategy_parameters (d l : ℕ) (hd : 1 ≤ d) (hl : 2 ≤ l) :
    1 ≤ cmaMu l ∧ cmaMu l ≤ l ∧ (∀ i < cmaMu l, 0 < cmaWeight l i) ∧ (∀ i j, i < j → cmaWeight l j < cmaWeight l i) ∧
    ∑ i ∈ Finset.range (cmaMu l), cmaWeight l i = 1 ∧ 1 ≤ cmaMueff l ∧ cmaMueff l ≤ cmaMu l ∧
    (0 < cmaCc d l ∧ cmaCc d l ≤ 1) ∧ (0 < cmaCs d l ∧ cmaCs d l < 1) ∧ 0 < cmaDamps d l ∧
    0 < cmaC1 d l ∧ 0 ≤ cmaCmu d l ∧ cmaC1 d l + cmaCmu d l ≤ 1 :=
  ⟨cma_mu_pos hl, cma_mu_le hl, fun _ h => cma_weight_pos hl h, fun _ _ h => cma_weight_anti hl h, cma_weight_sum hl, (cma_mueff_bounds hl).1,
    (cma_mueff_bounds hl).2, cma_cc_bounds hd hl, cma_cs_bounds hl, cma_damps_pos hl, (cma_c1_bounds hl).1, cma_cmu_nonneg hd hl, cma_rates_le d l⟩

private theorem bd_same (eigh : Matrix (Fin d) (Fin d) ℝ → (Fin d → ℝ) × Matrix (Fin d) (Fin d) ℝ) (s : CmaEsState d) :
    (cmaUpdateBD eigh s).C = s.C ∧ (cmaUpdateBD eigh s).wcm = s.wcm ∧ (cmaUpdateBD eigh s).sigma = s.sigma ∧ (cmaUpdateBD eigh s).xopt = s.xopt ∧
      (cmaUpdateBD eigh s).fopt = s.fopt ∧ (cmaUpdateBD eigh s).evalCount = s.evalCount := by
  unfold cmaUpdateBD
  simp only
  split_ifs <;> simp

private theorem stop_same (sigma0 ftarget : ℝ) (budget : ℕ) (s : CmaEsState d) :
    (cmaEsCheckStop sigma0 ftarget budget s).wcm = s.wcm ∧ (cmaEsCheckStop sigma0 ftarget budget s).xopt = s.xopt ∧
      (cmaEsCheckStop sigma0 ftarget budget s).fopt = s.fopt ∧ (cmaEsCheckStop sigma0 ftarget budget s).evalCount = s.evalCount ∧
      ((cmaEsCheckStop sigma0 ftarget budget s).ftarget = true ↔ s.fopt ≤ (ftarget : WithTop ℝ)) ∧
      ((cmaEsCheckStop sigma0 ftarget budget s).maxfevals = true ↔ budget ≤ s.evalCount) := by
  unfold cmaEsCheckStop
  simp only
  split_ifs <;> simp [cmaReset]

section Run

variable [NeZero l] (lb ub : Fin d → ℝ) (sigma0 ftarget : ℝ) (budget : ℕ) (f : (Fin d → ℝ) → ℝ) (rank : (Fin l → ℝ) → Fin l → Fin l)
  (eigh : Matrix (Fin d) (Fin d) ℝ → (Fin d → ℝ) × Matrix (Fin d) (Fin d) ℝ)

private theorem generation_points (z : Fin l → Fin d → ℝ) (s : CmaEsState d) :
    (cmaGeneration lb ub sigma0 ftarget budget f rank eigh z s).wcm = cmaMean (cmaOffspring lb ub s z) (rank fun j => f (cmaOffspring lb ub s z j)) ∧
    (cmaGeneration lb ub sigma0 ftarget budget f rank eigh z s).evalCount = s.evalCount + l ∧
    (let best := cmaOffspring lb ub s z (rank (fun j => f (cmaOffspring lb ub s z j)) 0)
     if ((f best : ℝ) : WithTop ℝ) < s.fopt then (cmaGeneration lb ub sigma0 ftarget budget f rank eigh z s).xopt = best ∧
        (cmaGeneration lb ub sigma0 ftarget budget f rank eigh z s).fopt = ((f best : ℝ) : WithTop ℝ)
      else (cmaGeneration lb ub sigma0 ftarget budget f rank eigh z s).xopt = s.xopt ∧
        (cmaGeneration lb ub sigma0 ftarget budget f rank eigh z s).fopt = s.fopt) ∧
    ((cmaGeneration lb ub sigma0 ftarget budget f rank eigh z s).ftarget = true ↔
      (cmaGeneration lb ub sigma0 ftarget budget f rank eigh z s).fopt ≤ (ftarget : WithTop ℝ)) ∧
    ((cmaGeneration lb ub sigma0 ftarget budget f rank eigh z s).maxfevals = true ↔ budget ≤ s.evalCount + l) := by
  unfold cmaGeneration
  simp only
  generalize hx : cmaOffspring lb ub s z = x
  generalize hr : rank (fun j => f (x j)) = r
  generalize hs1 : cmaUpdate s (cmaMean x r) x r (s.evalCount + l) = s1
  have h1 : s1.wcm = cmaMean x r ∧ s1.evalCount = s.evalCount + l ∧ s1.fopt = s.fopt ∧ s1.xopt = s.xopt := by
    rw [← hs1]; exact ⟨rfl, rfl, rfl, rfl⟩
  generalize hs2 : (if (s1.evalCount : ℝ) - s1.eigenEval > l / (cmaC1 d l + cmaCmu d l) / d / 10 then
      cmaUpdateBD eigh { s1 with eigenEval := s1.evalCount } else s1) = s2
  have h2 : s2.wcm = s1.wcm ∧ s2.evalCount = s1.evalCount ∧ s2.fopt = s1.fopt ∧ s2.xopt = s1.xopt := by
    rw [← hs2]
    split_ifs
    · obtain ⟨-, a, -, b, c, e⟩ := bd_same eigh { s1 with eigenEval := s1.evalCount }
      exact ⟨a, e, c, b⟩
    · exact ⟨rfl, rfl, rfl, rfl⟩
  generalize hs3 : (if ((f (x (r 0)) : ℝ) : WithTop ℝ) < s2.fopt then { s2 with fopt := ((f (x (r 0)) : ℝ) : WithTop ℝ), xopt := x (r 0) } else s2) = s3
  obtain ⟨a1, a2, a3, a4, a5, a6⟩ := stop_same sigma0 ftarget budget s3
  have h3 : s3.wcm = s2.wcm ∧ s3.evalCount = s2.evalCount := by
    rw [← hs3]; split_ifs <;> exact ⟨rfl, rfl⟩
  refine ⟨by rw [a1, h3.1, h2.1, h1.1], by rw [a4, h3.2, h2.2.1, h1.2.1], ?_, by rw [a5, a3], by rw [a6, h3.2, h2.2.1, h1.2.1]⟩
  rw [a2, a3, ← hs3, h2.2.2.1, h1.2.2.1]
  split_ifs with hlt
  · exact ⟨rfl, rfl⟩
  · exact ⟨by rw [h2.2.2.2, h1.2.2.2], by rw [h2.2.2.1, h1.2.2.1]⟩

variable (z : ℕ → Fin l → Fin d → ℝ) (start : Fin d → ℝ)

/-- **C110, search distribution.**  With the default population, after every number of generations and whatever was drawn and observed, the step
size is positive, the covariance matrix is symmetric and positive definite, and offspring are drawn with the covariance matrix of some generation so
far, whose inverse square root scales the evolution path. -/
theorem c110_distribution_valid (hd : 1 ≤ d) (hdef : l = cmaLambda d) (h0 : 0 < sigma0) (he : EigenRoutine eigh) (n : ℕ) :
    let s := cmaEsRun lb ub sigma0 ftarget budget f rank eigh z start
    0 < (s n).sigma ∧ IsPositiveDefinite (fun i j => (s n).C i j) ∧ ∃ m ≤ n, Samples (s n).eVector (s n).eValue (s n).invsqrtC (s m).C := by
  intro s
  have hl : 2 ≤ l := hdef ▸ cma_lambda_ge d
  have hr : cmaC1 d l + cmaCmu d l < 1 := hdef ▸ cma_default_rates hd
  induction n with
  | zero => exact ⟨h0, posDef_one, 0, le_rfl, samples_one⟩
  | succ n ih =>
    obtain ⟨hs, hC, m, hm, hsamp⟩ := ih
    change 0 < (cmaGeneration lb ub sigma0 ftarget budget f rank eigh (z n) (s n)).sigma ∧
      IsPositiveDefinite (fun i j => (cmaGeneration lb ub sigma0 ftarget budget f rank eigh (z n) (s n)).C i j) ∧
      ∃ m' ≤ n + 1, Samples (cmaGeneration lb ub sigma0 ftarget budget f rank eigh (z n) (s n)).eVector
        (cmaGeneration lb ub sigma0 ftarget budget f rank eigh (z n) (s n)).eValue
        (cmaGeneration lb ub sigma0 ftarget budget f rank eigh (z n) (s n)).invsqrtC (s m').C
    have hnew : (s (n + 1)).C = (cmaGeneration lb ub sigma0 ftarget budget f rank eigh (z n) (s n)).C := rfl
    unfold cmaGeneration at hnew ⊢
    simp only at hnew ⊢
    generalize hx : cmaOffspring lb ub (s n) (z n) = x at *
    generalize hrk : rank (fun j => f (x j)) = r at *
    generalize hs1 : cmaUpdate (s n) (cmaMean x r) x r ((s n).evalCount + l) = s1 at *
    have hC1 : IsPositiveDefinite (fun i j => s1.C i j) := by rw [← hs1]; exact cma_update_posDef hd hl hr hC _ _ _ _
    have hsig1 : 0 < s1.sigma := by rw [← hs1]; exact mul_pos hs (Real.exp_pos _)
    have hE1 : s1.eVector = (s n).eVector ∧ s1.eValue = (s n).eValue ∧ s1.invsqrtC = (s n).invsqrtC := by rw [← hs1]; exact ⟨rfl, rfl, rfl⟩
    generalize hs2 : (if (s1.evalCount : ℝ) - s1.eigenEval > l / (cmaC1 d l + cmaCmu d l) / d / 10 then
        cmaUpdateBD eigh { s1 with eigenEval := s1.evalCount } else s1) = s2 at *
    have h2 : s2.C = s1.C ∧ s2.sigma = s1.sigma ∧
        (Samples s2.eVector s2.eValue s2.invsqrtC s1.C ∨ Samples s2.eVector s2.eValue s2.invsqrtC (s m).C) := by
      rw [← hs2]
      split_ifs
      · obtain ⟨a, b, -, c, -⟩ := update_bd_samples he (s := { s1 with eigenEval := s1.evalCount }) hC1
        exact ⟨b, c, Or.inl a⟩
      · exact ⟨rfl, rfl, Or.inr (by rw [hE1.1, hE1.2.1, hE1.2.2]; exact hsamp)⟩
    generalize hs3 : (if ((f (x (r 0)) : ℝ) : WithTop ℝ) < s2.fopt then { s2 with fopt := ((f (x (r 0)) : ℝ) : WithTop ℝ), xopt := x (r 0) }
        else s2) = s3 at *
    have h3 : s3.C = s1.C ∧ s3.sigma = s1.sigma ∧
        (Samples s3.eVector s3.eValue s3.invsqrtC s1.C ∨ Samples s3.eVector s3.eValue s3.invsqrtC (s m).C) := by
      rw [← hs3]; split_ifs <;> exact h2
    unfold cmaEsCheckStop at hnew ⊢
    simp only at hnew ⊢
    split_ifs at hnew ⊢
    · exact ⟨h0, posDef_one, n + 1, le_rfl, by rw [hnew]; exact samples_one⟩
    · refine ⟨h3.2.1.symm ▸ hsig1, by simp only [h3.1]; exact hC1, ?_⟩
      rcases h3.2.2 with h | h
      · exact ⟨n + 1, le_rfl, by rw [hnew, h3.1]; exact h⟩
      · exact ⟨m, hm.trans (Nat.le_succ n), h⟩

/-! ### C111 -/

/-- **C111.**  Every point that is evaluated, the mean of the distribution and the reported optimum lie between the bounds, also when lower and upper
bounds are interchanged, as they are by the only caller. -/
theorem c111_points_in_box (hl : 2 ≤ l) (hb : ∀ i, lb i ≠ ub i) (hs : Between lb ub start) (n : ℕ) :
    let s := cmaEsRun lb ub sigma0 ftarget budget f rank eigh z start
    (∀ j, Between lb ub (cmaOffspring lb ub (s n) (z n) j)) ∧ Between lb ub (s n).wcm ∧ Between lb ub (s n).xopt := by
  intro s
  have hx : ∀ n j, Between lb ub (cmaOffspring lb ub (s n) (z n) j) := fun n j i => reflect_between (hb i) _
  refine ⟨hx n, ?_⟩
  induction n with
  | zero => exact ⟨hs, hs⟩
  | succ n ih =>
    obtain ⟨h1, -, h2, -⟩ := generation_points lb ub sigma0 ftarget budget f rank eigh (z n) (s n)
    change Between lb ub (cmaGeneration lb ub sigma0 ftarget budget f rank eigh (z n) (s n)).wcm ∧
      Between lb ub (cmaGeneration lb ub sigma0 ftarget budget f rank eigh (z n) (s n)).xopt
    refine ⟨by rw [h1]; exact cma_mean_between hl (hx n) _, ?_⟩
    simp only at h2
    split_ifs at h2
    · rw [h2.1]; exact hx n _
    · rw [h2.1]; exact ih.2

/-! ### C112 -/

/-- **C112.**  After at least one generation the reported optimum is one of the evaluated points, with its value, and no evaluated point has a
smaller one; every generation counts as many evaluations as it has offspring. -/
theorem c112_best_so_far (hrank : RanksValues rank) (n : ℕ) :
    let s := cmaEsRun lb ub sigma0 ftarget budget f rank eigh z start
    (s n).evalCount = n * l ∧ (0 < n → (∃ m < n, ∃ j, (s n).xopt = cmaOffspring lb ub (s m) (z m) j) ∧
      (s n).fopt = ((f (s n).xopt : ℝ) : WithTop ℝ) ∧ ∀ m < n, ∀ j, f (s n).xopt ≤ f (cmaOffspring lb ub (s m) (z m) j)) := by
  intro s
  have hmin : ∀ n j, f (cmaOffspring lb ub (s n) (z n) (rank (fun j => f (cmaOffspring lb ub (s n) (z n) j)) 0)) ≤
      f (cmaOffspring lb ub (s n) (z n) j) := by
    intro n j
    obtain ⟨hbij, hmono⟩ := hrank (fun j => f (cmaOffspring lb ub (s n) (z n) j))
    obtain ⟨i, hi⟩ := hbij.2 j
    have := hmono 0 i (Fin.zero_le _)
    rw [hi] at this
    exact this
  induction n with
  | zero => exact ⟨by simp [s, cmaEsRun, cmaEsInit], fun h => absurd h (lt_irrefl 0)⟩
  | succ n ih =>
    obtain ⟨-, hcount, hbest, -⟩ := generation_points lb ub sigma0 ftarget budget f rank eigh (z n) (s n)
    have hs : s (n + 1) = cmaGeneration lb ub sigma0 ftarget budget f rank eigh (z n) (s n) := rfl
    rw [← hs] at hcount hbest
    refine ⟨by rw [hcount, ih.1]; ring, fun _ => ?_⟩
    simp only at hbest
    rcases Nat.eq_zero_or_pos n with rfl | hn
    · rw [if_pos (show _ < (s 0).fopt from WithTop.coe_lt_top _)] at hbest
      refine ⟨⟨0, Nat.zero_lt_one, _, hbest.1⟩, by rw [hbest.1, hbest.2], fun m hm j => ?_⟩
      obtain rfl : m = 0 := by omega
      rw [hbest.1]
      exact hmin 0 j
    · obtain ⟨⟨m0, hm0, j0, hx0⟩, hf0, hall⟩ := ih.2 hn
      rw [hf0] at hbest
      split_ifs at hbest with hlt
      · have hlt' := WithTop.coe_lt_coe.1 hlt
        refine ⟨⟨n, Nat.lt_succ_self n, _, hbest.1⟩, by rw [hbest.1, hbest.2], fun m hm j => ?_⟩
        rw [hbest.1]
        rcases Nat.lt_succ_iff_lt_or_eq.1 hm with h | rfl
        · exact hlt'.le.trans (hall m h j)
        · exact hmin m j
      · have hge : f (s n).xopt ≤ f (cmaOffspring lb ub (s n) (z n) (rank (fun j => f (cmaOffspring lb ub (s n) (z n) j)) 0)) :=
          not_lt.1 fun h => hlt (WithTop.coe_lt_coe.2 h)
        refine ⟨⟨m0, hm0.trans (Nat.lt_succ_self n), j0, by rw [hbest.1, hx0]⟩, by rw [hbest.1, hbest.2], fun m hm j => ?_⟩
        rw [hbest.1]
        rcases Nat.lt_succ_iff_lt_or_eq.1 hm with h | rfl
        · exact hall m h j
        · exact hge.trans (hmin m j)

/-! ### C113 -/

/-- **C113, the part that holds.**  After every generation the flags for the budget and for the target say whether these are reached. -/
theorem c113_flags_partial (hrank : RanksValues rank) (n : ℕ) :
    let s := cmaEsRun lb ub sigma0 ftarget budget f rank eigh z start
    ((s (n + 1)).maxfevals = true ↔ budget ≤ (n + 1) * l) ∧
    ((s (n + 1)).ftarget = true ↔ ∃ m ≤ n, ∃ j, f (cmaOffspring lb ub (s m) (z m) j) ≤ ftarget) := by
  intro s
  obtain ⟨-, -, -, h1, h2⟩ := generation_points lb ub sigma0 ftarget budget f rank eigh (z n) (s n)
  have hs : s (n + 1) = cmaGeneration lb ub sigma0 ftarget budget f rank eigh (z n) (s n) := rfl
  rw [← hs] at h1 h2
  obtain ⟨hc, -⟩ := c112_best_so_far lb ub sigma0 ftarget budget f rank eigh z start hrank n
  obtain ⟨-, hb⟩ := c112_best_so_far lb ub sigma0 ftarget budget f rank eigh z start hrank (n + 1)
  obtain ⟨⟨m, hm, j, hx⟩, hf, hall⟩ := hb (Nat.succ_pos n)
  refine ⟨by rw [h2, hc, Nat.succ_mul], ?_⟩
  rw [h1, hf, WithTop.coe_le_coe]
  constructor
  · intro h
    exact ⟨m, Nat.lt_succ_iff.1 hm, j, by rw [← hx]; exact h⟩
  · rintro ⟨m', hm', j', h⟩
    exact (hall m' (Nat.lt_succ_iff.2 hm') j').trans h

/-- **C113 does not hold.**  The search never ends: whatever the objective, budget, target and random numbers, and whatever the values of all flags, there is
no generation after which the loop is left. -/
theorem c113_never_ends (others : ℕ → List Bool) :
    ¬∃ n, CmaLeavesAt lb ub sigma0 ftarget budget f rank eigh z start others n := by
  rintro ⟨n, h, -⟩
  exact absurd h (by simp [cmaLeaves, pyArray, pyEqTrue])

end Run

/-- The test would work if the values were converted to a list. -/
example (flags : List Bool) : (pyArray (.list flags)).any pyEqTrue = true ↔ true ∈ flags := by
  simp [pyArray, pyEqTrue]

/-! ### C114 -/

/-- **C114 does not hold.**  With `optimizer="CMA"` the parameters are those with the *smallest* likelihood of all that were tried. -/
theorem c114_smallest_likelihood [NeZero l] (lb ub : Fin d → ℝ) (sigma0 ftarget : ℝ) (budget : ℕ) (llf : (Fin d → ℝ) → ℝ)
    (rank : (Fin l → ℝ) → Fin l → Fin l) (hrank : RanksValues rank) (eigh : Matrix (Fin d) (Fin d) ℝ → (Fin d → ℝ) × Matrix (Fin d) (Fin d) ℝ)
    (z : ℕ → Fin l → Fin d → ℝ) (start : Fin d → ℝ) (n : ℕ) (hn : 0 < n) :
    let s := cmaEsRun lb ub sigma0 ftarget budget (cmaGprFitness llf) rank eigh z start
    ∀ m < n, ∀ j, llf (fun i => (10 : ℝ) ^ ((s n).xopt i)) ≤ llf (fun i => (10 : ℝ) ^ (cmaOffspring lb ub (s m) (z m) j i)) := by
  intro s m hm j
  have h := ((c112_best_so_far lb ub sigma0 ftarget budget (cmaGprFitness llf) rank eigh z start hrank n).2 hn).2.2 m hm j
  simp only [cmaGprFitness] at h
  norm_num at h
  exact h

/-- A ranking of one generation of four in one dimension, and the eigenvector of a matrix of size one. -/
private noncomputable def rank4 (v : Fin 4 → ℝ) : Fin 4 → Fin 4 := Tuple.sort v

private theorem rank4_ranks : RanksValues rank4 := fun v => ⟨(Tuple.sort v).bijective, fun _ _ h => Tuple.monotone_sort v h⟩

private def eigh1 (M : Matrix (Fin 1) (Fin 1) ℝ) : (Fin 1 → ℝ) × Matrix (Fin 1) (Fin 1) ℝ := (fun _ => M 0 0, 1)

private theorem eigh1_routine : EigenRoutine eigh1 := fun M _ => by
  refine ⟨by simp [eigh1], ?_⟩
  ext i j
  fin_cases i; fin_cases j
  simp [eigh1]

private theorem lambda_one : cmaLambda 1 = 4 := by simp [cmaLambda]

/-- The hypotheses of C110, C111 and C112 are met by the default population in one dimension, with a step that does change the best point. -/
example : ∃ z : ℕ → Fin 4 → Fin 1 → ℝ,
    let s := cmaEsRun (fun _ : Fin 1 => 1) (fun _ => -1) 0.1 0 100 (fun x => x 0) rank4 eigh1 z (fun _ => 0)
    (s 1).xopt ≠ (s 0).xopt ∧ (∀ n, IsPositiveDefinite (fun i j => (s n).C i j)) ∧ (∀ n, Between (fun _ => 1) (fun _ => -1) (s n).xopt) ∧
    (∀ n > 0, ∀ m < n, ∀ j, (s n).xopt 0 ≤ cmaOffspring (fun _ => 1) (fun _ => -1) (s m) (z m) j 0) := by
  refine ⟨fun _ j _ => if j = 0 then -1 else 0, ?_⟩
  intro s
  have hbest := fun n => (c112_best_so_far (fun _ : Fin 1 => 1) (fun _ => -1) 0.1 0 100 (fun x => x 0) rank4 eigh1
    (fun _ j _ => if j = 0 then -1 else 0) (fun _ => 0) rank4_ranks n).2
  refine ⟨fun h => ?_, fun n => ?_, fun n => ?_, fun n hn => (hbest n hn).2.2⟩
  · have h1 := (hbest 1 Nat.zero_lt_one).2.2 0 Nat.zero_lt_one 0
    change (s 1).xopt 0 ≤ _ at h1
    rw [h] at h1
    norm_num [s, cmaEsRun, cmaEsInit, cmaOffspring, reflect] at h1
  · exact (c110_distribution_valid (fun _ : Fin 1 => 1) (fun _ => -1) 0.1 0 100 (fun x => x 0) rank4 eigh1 _ _ le_rfl lambda_one.symm
      (by norm_num) eigh1_routine n).2.1
  · exact (c111_points_in_box (fun _ : Fin 1 => 1) (fun _ => -1) 0.1 0 100 (fun x => x 0) rank4 eigh1 _ _ (by norm_num)
      (fun _ => by norm_num) (fun _ => by norm_num) n).2.2

/-- **C114 does not hold**, in a case where a larger likelihood was met: one parameter, likelihood increasing in it. -/
theorem c114_refuted : ∃ (llf : (Fin 1 → ℝ) → ℝ) (z : ℕ → Fin 4 → Fin 1 → ℝ), ∀ rank, RanksValues rank → ∀ eigh,
    let s := cmaEsRun (fun _ : Fin 1 => 1) (fun _ => -1) 0.1 0 100 (cmaGprFitness llf) rank eigh z (fun _ => 0)
    ∀ n > 0, ∃ m < n, ∃ j, llf (fun i => (10 : ℝ) ^ ((s n).xopt i)) <
      llf (fun i => (10 : ℝ) ^ (cmaOffspring (fun _ => 1) (fun _ => -1) (s m) (z m) j i)) := by
  refine ⟨fun p => p 0, fun _ j _ => if j = 0 then -1 else 0, fun rank hrank eigh => ?_⟩
  intro s n hn
  have h0 := c114_smallest_likelihood (fun _ : Fin 1 => 1) (fun _ => -1) 0.1 0 100 (fun p => p 0) rank hrank eigh
    (fun _ j _ => if j = 0 then -1 else 0) (fun _ => 0) n hn 0 hn 0
  refine ⟨0, hn, 1, lt_of_le_of_lt h0 ?_⟩
  refine Real.rpow_lt_rpow_of_exponent_lt (by norm_num) ?_
  norm_num [s, cmaEsRun, cmaEsInit, cmaOffspring, reflect]

end Verif.Props
