import Verif.Proofs.CmaNeutral
import Mathlib.Probability.Distributions.Gaussian.Real
import Mathlib.Probability.HasLaw
import Mathlib.Data.Fin.Tuple.Sort
import Mathlib.MeasureTheory.Function.Floor
import Mathlib.Probability.ProbabilityMassFunction.Integrals
import Mathlib.Probability.Distributions.Uniform

/-!
# C167: on an objective without information the CMA-ES does not drift
-/
namespace Verif.Props

open Matrix MeasureTheory ProbabilityTheory Verif.Model Verif.Spec Verif.Proofs

variable {Ω : Type*} [MeasurableSpace Ω] {P : Measure Ω} {d l : ℕ}

/-- Almost surely no offspring leaves the box, so that none is moved. -/
def Undisturbed (P : Measure Ω) (lb ub : Fin d → ℝ) (s : CmaEsState d) (z : Ω → Fin l → Fin d → ℝ) : Prop :=
  ∀ᵐ ω ∂P, ∀ j, Between lb ub (fun i => s.wcm i + s.sigma * (s.eVector *ᵥ (fun a => s.eValue a * z ω j a)) i)

/-- The state with the given evolution paths. -/
def withPaths (s : CmaEsState d) (ps pc : Fin d → ℝ) : CmaEsState d := { s with ps := ps, pc := pc }

/-- The state after the update that follows offspring number `r 0`, `r 1`, ... as the best, second best, ... -/
noncomputable def updatedState (lb ub : Fin d → ℝ) (s : CmaEsState d) (z : Fin l → Fin d → ℝ) (r : Fin l → Fin l) : CmaEsState d :=
  cmaUpdate s (cmaMean (cmaOffspring lb ub s z) r) (cmaOffspring lb ub s z) r (s.evalCount + l)

variable {lb ub : Fin d → ℝ} {s : CmaEsState d} {z : Ω → Fin l → Fin d → ℝ}

private theorem mean_expectation [IsProbabilityMeasure P] (hl : 2 ≤ l) (hb : ∀ i, lb i ≠ ub i) (hz : UnitNoise P z) (hin : Undisturbed P lb ub s z)
    {r : Fin l → Fin l} (hr : Function.Injective r) (i : Fin d) : ∫ ω, cmaMean (cmaOffspring lb ub s (z ω)) r i ∂P = s.wcm i := by
  have e : (fun ω => cmaMean (cmaOffspring lb ub s (z ω)) r i) =ᵐ[P] fun ω =>
      s.wcm i + s.sigma * noiseSum (fun ω j => z ω (r j)) (fun j a => rankWeight l j * (s.eVector * diagonal s.eValue) i a) ω := by
    filter_upwards [hin] with ω hω
    rw [offspring_inside hb s hω, mean_eq hl]
    rfl
  rw [integral_congr_ae e, integral_add (integrable_const _) ((noiseSum_integrable (ranked_noise hz hr) _).const_mul _), integral_const_mul,
    noiseSum_mean (ranked_noise hz hr)]
  simp

/-- **C167, the mean.**  If the objective is constant, then the expected mean after a generation is the mean before it, however the ranking breaks ties.
Missing: the reflection at the bounds must not act, see `c167_refuted`. -/
theorem c167_mean_partial [NeZero l] [IsProbabilityMeasure P] (hl : 2 ≤ l) (hb : ∀ i, lb i ≠ ub i) (hz : UnitNoise P z) (hin : Undisturbed P lb ub s z)
    (sigma0 ftarget : ℝ) (budget : ℕ) (c : ℝ) (rank : (Fin l → ℝ) → Fin l → Fin l) (hrank : RanksValues rank)
    (eigh : Matrix (Fin d) (Fin d) ℝ → (Fin d → ℝ) × Matrix (Fin d) (Fin d) ℝ) (i : Fin d) :
    ∫ ω, (cmaGeneration lb ub sigma0 ftarget budget (fun _ => c) rank eigh (z ω) s).wcm i ∂P = s.wcm i := by
  rw [← mean_expectation hl hb hz hin (hrank fun _ => c).1.1 i]
  congr 1
  funext ω
  rw [generation_mean]

/-- **C167, the path of the step size.**  Whatever offspring are taken for the best, if their choice does not depend on the random numbers: second moments of
the path that belong to the identity matrix stay so, and others approach it at the rate `(1 - cs)^2`. -/
theorem c167_path_partial (hl : 2 ≤ l) (hb : ∀ i, lb i ≠ ub i) (hσ : s.sigma ≠ 0) {K : Matrix (Fin d) (Fin d) ℝ}
    (hK : Samples s.eVector s.eValue s.invsqrtC K) (hz : UnitNoise P z) (hin : Undisturbed P lb ub s z) {r : Fin l → Fin l} (hr : Function.Injective r)
    {p q : Ω → Fin d → ℝ} (hp : Unrelated P p z) (a b : Fin d) :
    ∫ ω, (updatedState lb ub (withPaths s (p ω) (q ω)) (z ω) r).ps a * (updatedState lb ub (withPaths s (p ω) (q ω)) (z ω) r).ps b ∂P =
      (1 : Matrix (Fin d) (Fin d) ℝ) a b + (1 - cmaCs d l) ^ 2 * (∫ ω, p ω a * p ω b ∂P - (1 : Matrix (Fin d) (Fin d) ℝ) a b) := by
  set κ := Real.sqrt (cmaCs d l * (2 - cmaCs d l) * cmaMueff l)
  set M := s.invsqrtC * (s.eVector * diagonal s.eValue)
  have hc := cma_cs_bounds (d := d) hl
  have hm := (cma_mueff_bounds hl).1
  have hκ : κ ^ 2 = cmaCs d l * (2 - cmaCs d l) * cmaMueff l := Real.sq_sqrt (by have := hc.1; have : 0 < 2 - cmaCs d l := by linarith [hc.2]
                                                                                 positivity)
  have e : (fun ω => (updatedState lb ub (withPaths s (p ω) (q ω)) (z ω) r).ps a * (updatedState lb ub (withPaths s (p ω) (q ω)) (z ω) r).ps b) =ᵐ[P]
      fun ω => ((1 - cmaCs d l) * p ω a + κ * noiseSum (fun ω j => z ω (r j)) (fun j i => rankWeight l j * M a i) ω) *
        ((1 - cmaCs d l) * p ω b + κ * noiseSum (fun ω j => z ω (r j)) (fun j i => rankWeight l j * M b i) ω) := by
    filter_upwards [hin] with ω hω
    have hx : cmaOffspring lb ub (withPaths s (p ω) (q ω)) (z ω) = fun j => rawPoint s (z ω j) := offspring_inside hb s hω
    have hps : ∀ i, (updatedState lb ub (withPaths s (p ω) (q ω)) (z ω) r).ps i =
        (1 - cmaCs d l) * p ω i + κ * noiseSum (fun ω j => z ω (r j)) (fun j k => rankWeight l j * M i k) ω := by
      intro i
      unfold updatedState
      rw [hx]
      change (1 - cmaCs d l) * p ω i + κ * (s.invsqrtC *ᵥ fun i => (cmaMean (fun j => rawPoint s (z ω j)) r i - s.wcm i) / s.sigma) i = _
      rw [scaled_step hl s hσ]
      rfl
    rw [hps, hps]
  rw [integral_congr_ae e, (path_second (ranked_noise hz hr) (ranked_path hp r) _ _ a b _ _).2, weight_rows, hκ]
  have hM : M * Mᵀ = 1 := by
    rw [transpose_mul, hK.symm, Matrix.mul_assoc, ← Matrix.mul_assoc _ _ s.invsqrtC, hK.covariance, ← Matrix.mul_assoc, hK.invSqrt]
  rw [hM]
  have hw := rankWeight_sq hl
  linear_combination (cmaCs d l * (2 - cmaCs d l) * (1 : Matrix (Fin d) (Fin d) ℝ) a b) * hw

/-- **C167, the covariance matrix.**  If its last decomposition is up to date, the expected covariance matrix after the update is the one before if the second
moments of its path are given by it, and otherwise moves towards them by the factor `c1 (1 - cc)^2`.  This holds for either value of the switch that stalls the
path. Missing: the switch may not depend on the random numbers. -/
theorem c167_covariance_partial [IsProbabilityMeasure P] (hd : 1 ≤ d) (hl : 2 ≤ l) (hb : ∀ i, lb i ≠ ub i) (hσ : s.sigma ≠ 0)
    (hK : Samples s.eVector s.eValue s.invsqrtC s.C) (hz : UnitNoise P z) (hin : Undisturbed P lb ub s z) {r : Fin l → Fin l} (hr : Function.Injective r)
    {p q : Ω → Fin d → ℝ} (hq : Unrelated P q z) (h : ℝ)
    (hsig : ∀ᵐ ω ∂P, cmaHsig d l (s.evalCount + l) (updatedState lb ub (withPaths s (p ω) (q ω)) (z ω) r).ps = h) (a b : Fin d) :
    ∫ ω, (updatedState lb ub (withPaths s (p ω) (q ω)) (z ω) r).C a b ∂P =
      s.C a b + cmaC1 d l * (1 - cmaCc d l) ^ 2 * (∫ ω, q ω a * q ω b ∂P - s.C a b) := by
  set κ := Real.sqrt (cmaCc d l * (2 - cmaCc d l) * cmaMueff l)
  set M := s.eVector * diagonal s.eValue
  have hc := cma_cc_bounds hd hl
  have hm := (cma_mueff_bounds hl).1
  have hκ : κ ^ 2 = cmaCc d l * (2 - cmaCc d l) * cmaMueff l := Real.sq_sqrt (by have := hc.1; have : 0 < 2 - cmaCc d l := by linarith [hc.2]
                                                                                 positivity)
  have hh : h = 0 ∨ h = 1 := by
    obtain ⟨ω, hω⟩ := hsig.exists
    rw [← hω]
    unfold cmaHsig
    split_ifs <;> simp
  set y : Ω → Fin l → Fin d → ℝ := fun ω j => z ω (r j)
  have e : (fun ω => (updatedState lb ub (withPaths s (p ω) (q ω)) (z ω) r).C a b) =ᵐ[P] fun ω =>
      ((1 - cmaC1 d l - cmaCmu d l) * s.C a b + cmaC1 d l * ((1 - h) * cmaCc d l * (2 - cmaCc d l) * s.C a b)) +
      (cmaC1 d l * (((1 - cmaCc d l) * q ω a + h * κ * noiseSum y (fun j i => rankWeight l j * M a i) ω) *
        ((1 - cmaCc d l) * q ω b + h * κ * noiseSum y (fun j i => rankWeight l j * M b i) ω)) +
      cmaCmu d l * ∑ j : Fin l, rankWeight l j * (noiseSum y (fun k i => if k = j then M a i else 0) ω * noiseSum y (fun k i => if k = j then M b i else 0) ω)) := by
    filter_upwards [hin, hsig] with ω hω hs
    have hx : cmaOffspring lb ub (withPaths s (p ω) (q ω)) (z ω) = fun j => rawPoint s (z ω j) := offspring_inside hb s hω
    have hstep : ∀ i, (cmaMean (fun j => rawPoint s (z ω j)) r i - s.wcm i) / s.sigma = noiseSum y (fun j k => rankWeight l j * M i k) ω := by
      intro i
      rw [step_eq hl s hσ]
      rfl
    have hoff : ∀ (j : Fin l) i, (rawPoint s (z ω (r j)) i - s.wcm i) / s.sigma = noiseSum y (fun k a => if k = j then M i a else 0) ω := by
      intro j i
      rw [raw_offset s hσ]
      unfold noiseSum
      rw [Finset.sum_eq_single j]
      · exact Finset.sum_congr rfl fun a _ => by
          change _ = (if j = j then M i a else 0) * y ω j a
          rw [if_pos rfl]
      · intro k _ hk
        exact Finset.sum_eq_zero fun a _ => by
          change (if k = j then M i a else 0) * y ω k a = 0
          rw [if_neg hk, zero_mul]
      · simp
    have hC : (updatedState lb ub (withPaths s (p ω) (q ω)) (z ω) r).C a b =
        (1 - cmaC1 d l - cmaCmu d l) * s.C a b +
        cmaC1 d l * (((1 - cmaCc d l) * q ω a + h * κ * ((cmaMean (fun j => rawPoint s (z ω j)) r a - s.wcm a) / s.sigma)) *
          ((1 - cmaCc d l) * q ω b + h * κ * ((cmaMean (fun j => rawPoint s (z ω j)) r b - s.wcm b) / s.sigma)) +
          (1 - h) * cmaCc d l * (2 - cmaCc d l) * s.C a b) +
        cmaCmu d l * ∑ j : Fin l, if j.val < cmaMu l then
          (rawPoint s (z ω (r j)) a - s.wcm a) / s.sigma * (cmaWeight l j * ((rawPoint s (z ω (r j)) b - s.wcm b) / s.sigma)) else 0 := by
      rw [← hs]
      unfold updatedState
      rw [hx]
      rfl
    rw [hC, hstep, hstep]
    have hsum : (∑ j : Fin l, if j.val < cmaMu l then
          (rawPoint s (z ω (r j)) a - s.wcm a) / s.sigma * (cmaWeight l j * ((rawPoint s (z ω (r j)) b - s.wcm b) / s.sigma)) else 0) =
        ∑ j : Fin l, rankWeight l j * (noiseSum y (fun k i => if k = j then M a i else 0) ω * noiseSum y (fun k i => if k = j then M b i else 0) ω) := by
      refine Finset.sum_congr rfl fun j _ => ?_
      rw [hoff, hoff]
      unfold rankWeight
      split_ifs <;> ring
    rw [hsum]
    ring
  have hy : UnitNoise P y := ranked_noise hz hr
  have hqy : Unrelated P q y := ranked_path hq r
  obtain ⟨i1, v1⟩ := path_second hy hqy (1 - cmaCc d l) (h * κ) a b (fun j i => rankWeight l j * M a i) (fun j i => rankWeight l j * M b i)
  have i2 := fun j : Fin l => (noiseSum_mul_integrable hy (fun k i => if k = j then M a i else 0) (fun k i => if k = j then M b i else 0)).const_mul
    (rankWeight l j)
  have i3 := integrable_finsetSum Finset.univ fun j _ => i2 j
  have v2 : ∀ j : Fin l, ∫ ω, noiseSum y (fun k i => if k = j then M a i else 0) ω * noiseSum y (fun k i => if k = j then M b i else 0) ω ∂P = s.C a b := by
    intro j
    rw [noiseSum_second hy, ← hK.covariance, mul_apply, Finset.sum_eq_single j]
    · exact Finset.sum_congr rfl fun i _ => by rw [if_pos rfl, if_pos rfl, transpose_apply]
    · intro k _ hk
      exact Finset.sum_eq_zero fun i _ => by rw [if_neg hk, zero_mul]
    · simp
  have i4 := i1.const_mul (cmaC1 d l)
  have i5 := i3.const_mul (cmaCmu d l)
  have i45 : Integrable (fun ω => cmaC1 d l * (((1 - cmaCc d l) * q ω a + h * κ * noiseSum y (fun j i => rankWeight l j * M a i) ω) *
        ((1 - cmaCc d l) * q ω b + h * κ * noiseSum y (fun j i => rankWeight l j * M b i) ω)) +
      cmaCmu d l * ∑ j : Fin l, rankWeight l j * (noiseSum y (fun k i => if k = j then M a i else 0) ω *
        noiseSum y (fun k i => if k = j then M b i else 0) ω)) P := i4.add i5
  rw [integral_congr_ae e, integral_add (integrable_const _) i45, integral_add i4 i5, integral_const_mul, integral_const_mul, v1,
    integral_finsetSum _ fun j _ => i2 j]
  simp only [integral_const_mul, v2]
  rw [← Finset.sum_mul, rankWeight_sum hl, weight_rows, hK.covariance, mul_pow, hκ]
  have hw := rankWeight_sq hl
  simp only [integral_const, probReal_univ, one_smul]
  rcases hh with rfl | rfl
  · ring
  · linear_combination (cmaC1 d l * cmaCc d l * (2 - cmaCc d l) * s.C a b) * hw

/-! ### Reflection at the bounds -/

private theorem measurable_fold : Measurable (fold : ℝ → ℝ) := by
  unfold fold
  exact Measurable.ite (Int.measurable_floor (MeasurableSet.of_discrete (s := {k : ℤ | k % 2 = 0}))) measurable_fract (measurable_const.sub measurable_fract)

private theorem measurable_reflect (a b : ℝ) : Measurable (reflect a b) := by
  have : reflect a b = fun x => a + (b - a) * fold ((x - a) / (b - a)) := funext fun x => reflect_eq a b x
  rw [this]
  exact measurable_const.add (measurable_const.mul (measurable_fold.comp ((measurable_id.sub_const a).div_const _)))

private theorem reflected_integrable (t : ℝ) : Integrable (fun y : ℝ => reflect 0 1 (0 + t * y)) (gaussianReal 0 1) := by
  refine Integrable.of_bound ((measurable_reflect 0 1).comp (measurable_const.add (measurable_const.mul measurable_id))).aestronglyMeasurable 1 ?_
  filter_upwards with y
  have := reflect_mem (lb := (0 : ℝ)) (ub := 1) one_pos (0 + t * y)
  rw [Real.norm_eq_abs, abs_le]
  exact ⟨by linarith [this.1], this.2⟩

private theorem reflected_pos {t : ℝ} (ht : 0 < t) : 0 < ∫ y, reflect 0 1 (0 + t * y) ∂(gaussianReal 0 1) := by
  rw [integral_pos_iff_support_of_nonneg (fun y => (reflect_mem (lb := (0 : ℝ)) (ub := 1) one_pos _).1) (reflected_integrable t)]
  have hsub : Set.Ioo 0 (1 / t) ⊆ Function.support fun y : ℝ => reflect 0 1 (0 + t * y) := by
    intro y hy
    have h1 : 0 < t * y := mul_pos ht hy.1
    have h2 : t * y < 1 := by
      have := (lt_div_iff₀ ht).1 hy.2
      linarith
    rw [Function.mem_support, zero_add, reflect_id one_pos h1.le h2.le]
    exact h1.ne'
  refine lt_of_lt_of_le (pos_iff_ne_zero.2 fun h0 => ?_) (measure_mono hsub)
  have hv := gaussianReal_absolutelyContinuous' 0 one_ne_zero h0
  rw [Real.volume_Ioo] at hv
  have : 0 < 1 / t := by positivity
  simp at hv
  linarith

/-- **C167 does not hold near a bound.**  One parameter between 0 and 1, standard normal random numbers and a constant objective: a search that starts at the lower
bound has an expected mean above it after the first generation, because offspring below the bound are reflected. -/
theorem c167_refuted [NeZero l] (hl : 2 ≤ l) (sigma0 : ℝ) (h0 : 0 < sigma0) (z : Ω → Fin l → Fin 1 → ℝ)
    (hz : ∀ j, HasLaw (fun ω => z ω j 0) (gaussianReal 0 1) P)
    (ftarget : ℝ) (budget : ℕ) (c : ℝ) (rank : (Fin l → ℝ) → Fin l → Fin l)
    (eigh : Matrix (Fin 1) (Fin 1) ℝ → (Fin 1 → ℝ) × Matrix (Fin 1) (Fin 1) ℝ) :
    (cmaEsInit (fun _ : Fin 1 => (0 : ℝ)) sigma0).wcm 0 = 0 ∧
    0 < ∫ ω, (cmaGeneration (fun _ => 0) (fun _ => 1) sigma0 ftarget budget (fun _ => c) rank eigh (z ω) (cmaEsInit (fun _ => 0) sigma0)).wcm 0 ∂P := by
  refine ⟨rfl, ?_⟩
  set r := rank fun _ => c
  have e : ∀ ω, (cmaGeneration (fun _ => 0) (fun _ => 1) sigma0 ftarget budget (fun _ => c) rank eigh (z ω) (cmaEsInit (fun _ => 0) sigma0)).wcm 0 =
      ∑ j : Fin l, rankWeight l j * reflect 0 1 (0 + sigma0 * z ω (r j) 0) := by
    intro ω
    rw [generation_mean]
    unfold cmaMean
    refine Finset.sum_congr rfl fun j _ => ?_
    have hx : cmaOffspring (fun _ => 0) (fun _ => 1) (cmaEsInit (fun _ => 0) sigma0) (z ω) (r j) 0 = reflect 0 1 (0 + sigma0 * z ω (r j) 0) := by
      simp [cmaOffspring, cmaEsInit]
    unfold rankWeight
    rw [hx]
    split_ifs <;> simp
  simp only [e]
  have hi : ∀ j, Integrable (fun ω => reflect 0 1 (0 + sigma0 * z ω j 0)) P := fun j => by
    have h := reflected_integrable sigma0
    rw [← (hz j).map_eq] at h
    exact (integrable_map_measure h.aestronglyMeasurable (hz j).aemeasurable).1 h
  have hv : ∀ j, ∫ ω, reflect 0 1 (0 + sigma0 * z ω j 0) ∂P = ∫ y, reflect 0 1 (0 + sigma0 * y) ∂(gaussianReal 0 1) := fun j =>
    (hz j).integral_comp (f := fun y => reflect 0 1 (0 + sigma0 * y)) (reflected_integrable sigma0).aestronglyMeasurable
  rw [integral_finsetSum _ fun j _ => (hi (r j)).const_mul _]
  simp only [integral_const_mul, hv]
  rw [← Finset.sum_mul, rankWeight_sum hl, one_mul]
  exact reflected_pos h0

/-! ### A case -/

/-- Random numbers that take the value 2 or -2 at one place and vanish elsewhere. -/
private noncomputable def signedUnit (ω : Fin 4 × Bool) (j : Fin 4) (_ : Fin 1) : ℝ := if ω.1 = j then (if ω.2 then 2 else -2) else 0

private noncomputable def signLaw : Measure (Fin 4 × Bool) := (PMF.uniformOfFintype (Fin 4 × Bool)).toMeasure

private instance : IsProbabilityMeasure signLaw := by unfold signLaw; infer_instance

private theorem sign_integral (f : Fin 4 × Bool → ℝ) : ∫ ω, f ω ∂signLaw = (∑ i : Fin 4, (f (i, true) + f (i, false))) / 8 := by
  unfold signLaw
  rw [PMF.integral_eq_sum, Fintype.sum_prod_type, Finset.sum_div]
  refine Finset.sum_congr rfl fun i _ => ?_
  simp
  ring

private theorem signed_noise : UnitNoise signLaw signedUnit where
  integrable _ _ := Integrable.of_finite
  integrable_mul _ _ _ _ := Integrable.of_finite
  mean j a := by
    rw [sign_integral]
    fin_cases j <;> simp [signedUnit, Fin.sum_univ_four]
  second j a k b := by
    rw [sign_integral]
    obtain rfl : a = b := Subsingleton.elim _ _
    fin_cases j <;> fin_cases k <;> simp [signedUnit, Fin.sum_univ_four] <;> norm_num

private theorem signed_inside : Undisturbed signLaw (fun _ : Fin 1 => (-1 : ℝ)) (fun _ => 1) (cmaEsInit (fun _ => 0) 0.1) signedUnit := by
  refine Filter.Eventually.of_forall fun ω j i => ?_
  simp only [cmaEsInit, one_mulVec, signedUnit]
  split_ifs <;> norm_num

/-- The switch is on: the path of the first generation is short. -/
private theorem signed_switch (ω : Fin 4 × Bool) :
    cmaHsig 1 4 ((cmaEsInit (fun _ : Fin 1 => (0 : ℝ)) 0.1).evalCount + 4)
      (updatedState (fun _ => -1) (fun _ => 1) (withPaths (cmaEsInit (fun _ => 0) 0.1) 0 0) (signedUnit ω) id).ps = 1 := by
  have hl : 2 ≤ 4 := by norm_num
  have hc := cma_cs_bounds (d := 1) hl
  have hm := (cma_mueff_bounds hl).1
  have hcs : 0 < cmaCs 1 4 * (2 - cmaCs 1 4) := mul_pos hc.1 (by linarith [hc.2])
  have hx : cmaOffspring (fun _ => -1) (fun _ => 1) (withPaths (cmaEsInit (fun _ : Fin 1 => (0 : ℝ)) 0.1) 0 0) (signedUnit ω) =
      fun j => rawPoint (cmaEsInit (fun _ => 0) 0.1) (signedUnit ω j) := by
    refine offspring_inside (fun _ => by norm_num) (cmaEsInit (fun _ => 0) 0.1) fun j i => ?_
    simp only [cmaEsInit, rawPoint, one_mulVec, signedUnit]
    split_ifs <;> norm_num
  have hps : (updatedState (fun _ => -1) (fun _ => 1) (withPaths (cmaEsInit (fun _ : Fin 1 => (0 : ℝ)) 0.1) 0 0) (signedUnit ω) id).ps 0 =
      Real.sqrt (cmaCs 1 4 * (2 - cmaCs 1 4) * cmaMueff 4) * (rankWeight 4 ω.1 * (if ω.2 then 2 else -2)) := by
    unfold updatedState
    rw [hx]
    change (1 - cmaCs 1 4) * 0 + Real.sqrt (cmaCs 1 4 * (2 - cmaCs 1 4) * cmaMueff 4) *
      ((1 : Matrix (Fin 1) (Fin 1) ℝ) *ᵥ fun i => (cmaMean (fun j => rawPoint (cmaEsInit (fun _ : Fin 1 => (0 : ℝ)) 0.1) (signedUnit ω j)) id i -
        (cmaEsInit (fun _ : Fin 1 => (0 : ℝ)) 0.1).wcm i) / (cmaEsInit (fun _ : Fin 1 => (0 : ℝ)) 0.1).sigma) 0 = _
    rw [one_mulVec, step_eq hl _ (by norm_num [cmaEsInit])]
    rw [Finset.sum_eq_single ω.1]
    · simp [cmaEsInit, signedUnit]
    · intro k _ hk
      simp [signedUnit, hk.symm]
    · simp
  have hsq : (∑ i, (updatedState (fun _ => -1) (fun _ => 1) (withPaths (cmaEsInit (fun _ : Fin 1 => (0 : ℝ)) 0.1) 0 0) (signedUnit ω) id).ps i ^ 2) =
      cmaCs 1 4 * (2 - cmaCs 1 4) * (4 * (cmaMueff 4 * rankWeight 4 ω.1 ^ 2)) := by
    rw [Fin.sum_univ_one, hps, mul_pow, Real.sq_sqrt (by positivity)]
    split_ifs <;> ring
  have hlt : cmaMueff 4 * rankWeight 4 ω.1 ^ 2 < 1 := by
    have hw := rankWeight_sq hl
    have hmu : cmaMu 4 = 2 := by
      unfold cmaMu
      rw [Nat.ceil_eq_iff (by norm_num)]
      norm_num
    have h0 : 0 < rankWeight 4 0 := by
      have := cma_weight_pos hl (i := 0) (by rw [hmu]; norm_num)
      simpa [rankWeight, hmu] using this
    have h1 : 0 < rankWeight 4 1 := by
      have := cma_weight_pos hl (i := 1) (by rw [hmu]; norm_num)
      simpa [rankWeight, hmu] using this
    rw [Fin.sum_univ_four] at hw
    rw [← hw]
    refine mul_lt_mul_of_pos_left ?_ (by linarith)
    have q0 := mul_pos h0 h0
    have q1 := mul_pos h1 h1
    have q2 := mul_self_nonneg (rankWeight 4 2)
    have q3 := mul_self_nonneg (rankWeight 4 3)
    have key : ∀ j : Fin 4, rankWeight 4 j ^ 2 < rankWeight 4 0 ^ 2 + rankWeight 4 1 ^ 2 + rankWeight 4 2 ^ 2 + rankWeight 4 3 ^ 2 := by
      intro j
      match j with
      | 0 => simp only [sq]; linarith
      | 1 => simp only [sq]; linarith
      | 2 => simp only [sq]; linarith
      | 3 => simp only [sq]; linarith
    exact key ω.1
  unfold cmaHsig
  rw [hsq, if_pos]
  have he : (2 * (((cmaEsInit (fun _ : Fin 1 => (0 : ℝ)) 0.1).evalCount + 4 : ℕ) : ℝ) / (4 : ℕ)) = 2 := by norm_num [cmaEsInit]
  rw [he]
  have hpow : (1 - (1 - cmaCs 1 4) ^ (2 : ℝ)) = cmaCs 1 4 * (2 - cmaCs 1 4) := by
    rw [show (2 : ℝ) = ((2 : ℕ) : ℝ) by norm_num, Real.rpow_natCast]
    ring
  rw [hpow, mul_div_cancel_left₀ _ hcs.ne']
  norm_num
  linarith

/-- The hypotheses are met by the first generation of a search that starts in the middle of the box: mean, path and covariance matrix have the expectations
that the theorems give. -/
example :
    (∀ i, ∫ ω, (cmaGeneration (fun _ : Fin 1 => (-1 : ℝ)) (fun _ => 1) 0.1 0 100 (fun _ => 3) (fun v => Tuple.sort v) (fun _ => (0, 0)) (signedUnit ω)
      (cmaEsInit (fun _ => 0) 0.1)).wcm i ∂signLaw = 0) ∧
    ∫ ω, (updatedState (fun _ => -1) (fun _ => 1) (withPaths (cmaEsInit (fun _ : Fin 1 => (0 : ℝ)) 0.1) 0 0) (signedUnit ω) id).ps 0 *
      (updatedState (fun _ => -1) (fun _ => 1) (withPaths (cmaEsInit (fun _ : Fin 1 => (0 : ℝ)) 0.1) 0 0) (signedUnit ω) id).ps 0 ∂signLaw =
      1 - (1 - cmaCs 1 4) ^ 2 ∧
    ∫ ω, (updatedState (fun _ => -1) (fun _ => 1) (withPaths (cmaEsInit (fun _ : Fin 1 => (0 : ℝ)) 0.1) 0 0) (signedUnit ω) id).C 0 0 ∂signLaw =
      1 - cmaC1 1 4 * (1 - cmaCc 1 4) ^ 2 := by
  have hb : ∀ _ : Fin 1, (-1 : ℝ) ≠ 1 := fun _ => by norm_num
  have hσ : (cmaEsInit (fun _ : Fin 1 => (0 : ℝ)) 0.1).sigma ≠ 0 := by norm_num [cmaEsInit]
  have hp : Unrelated signLaw (fun _ => (0 : Fin 1 → ℝ)) signedUnit := ⟨fun _ _ => by simp, fun _ _ _ => by simp, fun _ _ _ => by simp⟩
  refine ⟨fun i => ?_, ?_, ?_⟩
  · exact c167_mean_partial (by norm_num) hb signed_noise signed_inside 0.1 0 100 3 (fun v => Tuple.sort v)
      (fun v => ⟨(Tuple.sort v).bijective, fun _ _ h => Tuple.monotone_sort v h⟩) _ i
  · rw [c167_path_partial (by norm_num) hb hσ (samples_one : Samples _ _ _ (1 : Matrix (Fin 1) (Fin 1) ℝ)) signed_noise signed_inside
      Function.injective_id hp 0 0]
    simp
    ring
  · rw [c167_covariance_partial le_rfl (by norm_num) hb hσ (samples_one : Samples _ _ _ (1 : Matrix (Fin 1) (Fin 1) ℝ)) signed_noise signed_inside
      Function.injective_id hp 1 (Filter.Eventually.of_forall fun ω => signed_switch ω) 0 0]
    simp [cmaEsInit]
    ring

end Verif.Props
