import Mathlib.Analysis.SpecialFunctions.Sqrt
import Verif.Model.Acquisition
import Verif.Spec.Acquisition
import Verif.Proofs.Normal

/-!
# The acquisition functions
-/
namespace Verif.Props

open MeasureTheory ProbabilityTheory Filter Topology Verif.Model Verif.Spec Verif.Proofs

/-! ### C36: direction -/

private theorem npMin_neg_eq (y : List ℝ) : npMin (y.map (fun v => -v)) = -npMax y := by
  cases y with
  | nil => simp [npMin, npMax]
  | cons a l =>
    simp only [List.map_cons, npMin, npMax]
    induction l generalizing a with
    | nil => simp
    | cons b l ih =>
      simp only [List.map_cons, List.foldl_cons]
      rw [← ih, min_neg_neg]

private theorem npMax_neg_eq (y : List ℝ) : npMax (y.map (fun v => -v)) = -npMin y := by
  have h := npMin_neg_eq (y.map (fun v => -v))
  rw [List.map_map] at h
  have he : ((fun v : ℝ => -v) ∘ fun v => -v) = id := by funext v; simp
  rw [he, List.map_id] at h
  rw [h, neg_neg]

private theorem foldl_min_spec (y : List ℝ) (a : ℝ) :
    (y.foldl min a = a ∨ y.foldl min a ∈ y) ∧ y.foldl min a ≤ a ∧ ∀ u ∈ y, y.foldl min a ≤ u := by
  induction y generalizing a with
  | nil => simp
  | cons b y ih =>
    obtain ⟨h1, h2, h3⟩ := ih (min a b)
    simp only [List.foldl_cons, List.mem_cons]
    refine ⟨?_, h2.trans (min_le_left _ _), ?_⟩
    · rcases h1 with h1 | h1
      · rw [h1]; rcases min_choice a b with h | h <;> rw [h] <;> simp
      · exact Or.inr (Or.inr h1)
    · rintro u (rfl | hu)
      · exact h2.trans (min_le_right _ _)
      · exact h3 u hu

theorem npMin_mem {y : List ℝ} (h : y ≠ []) : npMin y ∈ y := by
  cases y with
  | nil => exact absurd rfl h
  | cons a y =>
    rcases (foldl_min_spec y a).1 with h | h
    · simp only [npMin]; rw [h]; exact List.mem_cons_self
    · exact List.mem_cons_of_mem _ h

theorem npMin_le {y : List ℝ} {u : ℝ} (h : u ∈ y) : npMin y ≤ u := by
  cases y with
  | nil => simp at h
  | cons a y =>
    rcases List.mem_cons.1 h with rfl | h
    · exact (foldl_min_spec y u).2.1
    · exact (foldl_min_spec y a).2.2 u h

theorem npMax_mem {y : List ℝ} (h : y ≠ []) : npMax y ∈ y := by
  have := npMin_mem (y := y.map (fun v => -v)) (by simpa using h)
  rw [npMin_neg_eq] at this
  obtain ⟨v, hv, e⟩ := List.mem_map.1 this
  rwa [← neg_injective e]

theorem le_npMax {y : List ℝ} {u : ℝ} (h : u ∈ y) : u ≤ npMax y := by
  have := npMin_le (y := y.map (fun v => -v)) (List.mem_map.2 ⟨u, h, rfl⟩)
  rw [npMin_neg_eq] at this
  linarith

/-- The keyword arguments for `-f`. -/
def negPar (par : AcqPar) : AcqPar := { par with plugin := par.plugin.map (fun v => -v) }

/-- The surrogate of `-f`. -/
def negModel (mdl : AcqModel) : AcqModel := { mdl with y := mdl.y.map (fun l => l.map (fun v => -v)) }

/-- What the surrogate of `-f` says at a point. -/
def negPred (p : AcqPred) : AcqPred := { p with mean := -p.mean, meanDx := -p.meanDx }

private theorem setPlugin_neg (mdl : AcqModel) (mn : Bool) (pl : Option ℝ) :
    setPlugin (negModel mdl) (!mn) (pl.map (fun v => -v)) = setPlugin mdl mn pl := by
  cases pl with
  | none =>
    simp only [setPlugin, negModel, Option.map_none, Option.map_map]
    congr 1
    funext y
    cases mn <;> simp [npMin_neg_eq, npMax_neg_eq]
  | some p => cases mn <;> simp [setPlugin]

private theorem acqInit_neg (name : AcqName) (par : AcqPar) (mdl : AcqModel) (mn : Bool) :
    acqInit name (negPar par) (negModel mdl) (!mn) =
      (acqInit name par mdl mn).map (fun a => { a with minimize := !mn }) := by
  cases name
  · obtain ⟨pl, t, al, ep⟩ := par
    cases pl <;> cases t <;> cases ep <;> simp [acqInit, negPar, Except.map]
    split_ifs <;> rfl
  all_goals
    simp only [acqInit, negPar, setPlugin_neg]
    split_ifs <;> rfl

private theorem acqPredict_neg (mn : Bool) (p : AcqPred) : acqPredict (!mn) (negPred p) = acqPredict mn p := by
  cases mn <;> simp [acqPredict, negPred]

private theorem acqGradient_neg (mn : Bool) (p : AcqPred) : acqGradient (!mn) (negPred p) = acqGradient mn p := by
  cases mn <;> simp [acqGradient, negPred]

private theorem acqInit_minimize {name : AcqName} {par : AcqPar} {mdl : AcqModel} {mn : Bool} {a : Acq}
    (h : acqInit name par mdl mn = .ok a) : a.minimize = mn := by
  cases name <;> simp only [acqInit] at h <;> split_ifs at h <;> (cases h; rfl)

private theorem acqInit_name {name : AcqName} {par : AcqPar} {mdl : AcqModel} {mn : Bool} {a : Acq}
    (h : acqInit name par mdl mn = .ok a) : a.name = name := by
  cases name <;> simp only [acqInit] at h <;> split_ifs at h <;> (cases h; rfl)

private theorem acqValue_neg (a : Acq) (mdl : AcqModel) (p : AcqPred) :
    acqValue { a with minimize := !a.minimize } (negModel mdl) (negPred p) = acqValue a mdl p := by
  simp only [acqValue, acqPredict_neg]
  rfl

private theorem acqDx_neg (a : Acq) (mdl : AcqModel) (p : AcqPred) :
    acqDx { a with minimize := !a.minimize } (negModel mdl) (negPred p) = acqDx a mdl p := by
  simp only [acqDx, acqPredict_neg, acqGradient_neg]
  rfl

/-- Two attempts to build an acquisition function, for `f` and for `-f`, agree: they raise the same exception, or both succeed and then
give the same value and the same gradient at every point, whatever the surrogate says there. -/
def AgreeNeg (mdl : AcqModel) (r r' : Except AcqErr Acq) : Prop :=
  (∃ e, r = .error e ∧ r' = .error e) ∨
  (∃ a b, r = .ok a ∧ r' = .ok b ∧
    ∀ p, acqValue b (negModel mdl) (negPred p) = acqValue a mdl p ∧ acqDx b (negModel mdl) (negPred p) = acqDx a mdl p)

/-- C36: for every class, every keyword arguments, every surrogate and both directions, `f` and `-f` with the directions exchanged have the
same acquisition function. -/
theorem c36_direction_consistent (name : AcqName) (par : AcqPar) (mdl : AcqModel) (mn : Bool) :
    AgreeNeg mdl (acqInit name par mdl mn) (acqInit name (negPar par) (negModel mdl) (!mn)) := by
  rw [acqInit_neg]
  cases h : acqInit name par mdl mn with
  | error e => exact Or.inl ⟨e, rfl, rfl⟩
  | ok a =>
    refine Or.inr ⟨a, _, rfl, rfl, fun p => ?_⟩
    have hm := acqInit_minimize h
    subst hm
    exact ⟨acqValue_neg a mdl p, acqDx_neg a mdl p⟩

private theorem npMean_neg (y : List ℝ) : npMean (y.map (fun v => -v)) = -npMean y := by
  have : (y.map (fun v => -v)).sum = -y.sum := by
    induction y with
    | nil => simp
    | cons a l ih => simp only [List.map_cons, List.sum_cons, ih]; ring
  rw [npMean, npMean, this, List.length_map, neg_div]

private theorem npStd_neg (y : List ℝ) : npStd (y.map (fun v => -v)) = npStd y := by
  rw [npStd, npStd, npMean_neg, List.map_map]
  congr 2
  apply List.map_congr_left
  intro v _
  simp only [Function.comp_apply]; ring

private theorem standardised_neg (y : List ℝ) : standardised (y.map (fun v => -v)) = (standardised y).map (fun v => -v) := by
  simp only [standardised, npStd_neg, npMean_neg]
  split_ifs
  · rfl
  · rw [List.map_map, List.map_map]
    apply List.map_congr_left
    intro v _
    simp only [Function.comp_apply]
    ring

private theorem boCreate_neg (fn : AcqName) (ap : AcqPar) (mn : Bool) (y : List ℝ) (mdl : AcqModel) (par : AcqPar) :
    boCreate (optOf fn (negPar ap) (!mn) (y.map (fun v => -v)) (negModel mdl)) none (some (negPar par)) =
      (boCreate (optOf fn ap mn y mdl) none (some par)).map (fun a => { a with minimize := !mn }) := by
  have h : boPar (optOf fn (negPar ap) (!mn) (y.map (fun v => -v)) (negModel mdl)) fn (negPar par) =
      negPar (boPar (optOf fn ap mn y mdl) fn par) := by
    obtain ⟨pl, t, al, ep⟩ := par
    cases fn <;> cases pl <;> cases mn <;>
      simp [boPar, negPar, hasPlugin, optOf, standardised_neg, npMin_neg_eq, npMax_neg_eq]
  simp only [boCreate, baseCreate, Option.getD_none, Option.getD_some]
  have hf : ∀ ap mn y mdl, (optOf fn ap mn y mdl).fn = fn := fun _ _ _ _ => rfl
  simp only [hf]
  rw [h]
  exact acqInit_neg fn _ mdl mn

private theorem agree_of_map {mdl : AcqModel} {mn : Bool} {r : Except AcqErr Acq} (hr : ∀ a, r = .ok a → a.minimize = mn) :
    AgreeNeg mdl r (r.map (fun a => { a with minimize := !mn })) := by
  cases r with
  | error e => exact Or.inl ⟨e, rfl, rfl⟩
  | ok a =>
    refine Or.inr ⟨a, _, rfl, rfl, fun p => ?_⟩
    have hm := hr a rfl
    subst hm
    exact ⟨acqValue_neg a mdl p, acqDx_neg a mdl p⟩

private theorem boCreate_minimize {o : AcqOpt} {fn : Option AcqName} {par : Option AcqPar} {a : Acq}
    (h : boCreate o fn par = .ok a) : a.minimize = o.minimize := by
  simp only [boCreate, baseCreate] at h
  exact acqInit_minimize h

/-- C36 for the whole optimiser: minimising `f` from the observations `y` and maximising `-f` from the observations `-y` (standardised as the
optimiser does it, with the plugin taken from them) build the same acquisition function, with or without keyword arguments. -/
theorem c36_optimiser_direction_consistent (fn : AcqName) (ap par : AcqPar) (mn : Bool) (y : List ℝ) (mdl : AcqModel) :
    AgreeNeg mdl (boCreate (optOf fn ap mn y mdl) none (some par))
      (boCreate (optOf fn (negPar ap) (!mn) (y.map (fun v => -v)) (negModel mdl)) none (some (negPar par))) := by
  rw [boCreate_neg]
  exact agree_of_map (fun a ha => boCreate_minimize ha)

/-- C36 for the optimiser for noisy objectives, whose plugin is the best prediction `yhat` at the recorded points. -/
theorem c36_noisy_direction_consistent (fn : AcqName) (ap par : AcqPar) (mn : Bool) (y yhat : List ℝ) (mdl : AcqModel) :
    AgreeNeg mdl (noisyCreate (optOf fn ap mn y mdl) yhat none (some par))
      (noisyCreate (optOf fn (negPar ap) (!mn) (y.map (fun v => -v)) (negModel mdl)) (yhat.map (fun v => -v)) none
        (some (negPar par))) := by
  have h : noisyCreate (optOf fn (negPar ap) (!mn) (y.map (fun v => -v)) (negModel mdl)) (yhat.map (fun v => -v)) none
      (some (negPar par)) =
      (noisyCreate (optOf fn ap mn y mdl) yhat none (some par)).map (fun a => { a with minimize := !mn }) := by
    have h : noisyPar (optOf fn (negPar ap) (!mn) (y.map (fun v => -v)) (negModel mdl)) (yhat.map (fun v => -v)) (negPar par) =
        negPar (noisyPar (optOf fn ap mn y mdl) yhat par) := by
      cases fn <;> cases mn <;> simp [noisyPar, negPar, hasPlugin, optOf, npMin_neg_eq, npMax_neg_eq]
    simp only [noisyCreate, Option.getD_some]
    rw [h, boCreate_neg]
  rw [h]
  refine agree_of_map (fun a ha => ?_)
  simp only [noisyCreate] at ha
  exact boCreate_minimize ha

/-- C36, second half: with default parameters four of the five documented classes can be built, for every surrogate and direction. -/
theorem c36_defaults_construct_partial (name : AcqName) (h : name ≠ .PI) (mdl : AcqModel) (mn : Bool) :
    ∃ a, acqInit name emptyPar mdl mn = .ok a := by
  cases name
  · exact ⟨_, by simp [acqInit, emptyPar]; rfl⟩
  · exact ⟨_, by simp [acqInit, emptyPar]; rfl⟩
  · exact ⟨_, by simp [acqInit, emptyPar]; rfl⟩
  · exact absurd rfl h
  · exact ⟨_, by simp [acqInit, emptyPar]; rfl⟩

/-- `PI` cannot be built, whatever the arguments. -/
theorem c36_pi_never_constructs (par : AcqPar) (mdl : AcqModel) (mn : Bool) : ∃ e, acqInit .PI par mdl mn = .error e := by
  by_cases h : (par.t.isSome || par.alpha.isSome) = true
  · exact ⟨.typeError, by rw [acqInit, if_pos h]⟩
  · refine ⟨.assertion, ?_⟩
    rw [acqInit, if_neg h, if_neg]
    exact lt_irrefl 0

/-! ### C73: the values are the expectations -/

private theorem sd_pos {a : ℝ} (h : 0 < a) : 0 < Real.sqrt a := Real.sqrt_pos.2 h

private theorem predictive_eq (m v : ℝ) (hv : 0 < v) :
    predictive m v = gaussianReal m ⟨Real.sqrt v ^ 2, sq_nonneg _⟩ := by
  rw [predictive]
  congr 1
  apply NNReal.eq
  rw [Real.coe_toNNReal _ hv.le]
  exact (Real.sq_sqrt hv.le).symm

private theorem predictive_neg (m v : ℝ) : (predictive m v).map (fun y => -y) = predictive (-m) v := by
  rw [predictive, gaussianReal_map_neg, predictive]

theorem eiThreshold_nonneg (s2 : Option ℝ) : 0 ≤ eiThreshold s2 := by
  cases s2 with
  | none => simp [eiThreshold]
  | some v => exact div_nonneg (Real.sqrt_nonneg v) (by norm_num)

theorem eiCertain_iff (mdl : AcqModel) (hs : ∀ v, mdl.sigma2 = some v → 0 < v) (sd : ℝ) :
    eiCertain mdl sd ↔ sd < eiThreshold mdl.sigma2 := by
  cases h : mdl.sigma2 with
  | none => simp [eiCertain, eiThreshold, h]
  | some v =>
    have := sd_pos (hs v h)
    simp only [eiCertain, eiThreshold, h]
    rw [div_lt_iff₀ this]
    constructor <;> intro h <;> linarith

theorem integral_predictive_neg (m v : ℝ) (g : ℝ → ℝ) :
    ∫ y, g y ∂predictive (-m) v = ∫ y, g (-y) ∂predictive m v := by
  rw [← predictive_neg]
  exact (MeasurableEquiv.neg ℝ).measurableEmbedding.integral_map g

/-- C73: outside the region in which the prediction counts as certain, `EI` returns the expected improvement over the plugin, in the
direction of the problem. -/
theorem c73_ei_is_expected_improvement_partial (par : AcqPar) (mdl : AcqModel) (mn : Bool) (a : Acq) (best : ℝ) (p : AcqPred)
    (ha : acqInit .EI par mdl mn = .ok a) (hp : par.plugin = some best) (hv : 0 < p.mse)
    (hs : ∀ v, mdl.sigma2 = some v → 0 < v) (hc : eiThreshold mdl.sigma2 ≤ Real.sqrt p.mse) :
    acqValue a mdl p = some (expectedImprovement mn best (predictive p.mean p.mse)) := by
  simp only [acqInit] at ha
  split_ifs at ha
  cases ha
  have hn : ¬ eiCertain mdl (Real.sqrt p.mse) := by rw [eiCertain_iff mdl hs]; linarith
  simp only [acqValue, acqPredict, hp, setPlugin]
  simp only [acqValueAt, Option.map_some, Option.getD_some]
  rw [if_neg hn]
  congr 1
  cases mn with
  | true =>
    simp only [if_true, expectedImprovement, gain]
    rw [predictive_eq _ _ hv, integral_improvement _ _ _ (sd_pos hv)]
  | false =>
    simp only [Bool.false_eq_true, if_false, expectedImprovement, gain, neg_mul, one_mul]
    have h := integral_predictive_neg p.mean p.mse (fun y => max (-best - y) 0)
    rw [predictive_eq _ _ hv, integral_improvement _ _ _ (sd_pos hv)] at h
    rw [h]
    congr 1
    funext y
    congr 1
    ring

/-- C73, what is missing: a point whose prediction counts as certain has the value zero, also if the predicted mean is better than the plugin
(so that the expected improvement is at least the difference). -/
theorem c73_ei_certain_is_zero (par : AcqPar) (mdl : AcqModel) (mn : Bool) (a : Acq) (p : AcqPred)
    (ha : acqInit .EI par mdl mn = .ok a) (hs : ∀ v, mdl.sigma2 = some v → 0 < v)
    (hc : Real.sqrt p.mse < eiThreshold mdl.sigma2) : acqValue a mdl p = some 0 := by
  simp only [acqInit] at ha
  split_ifs at ha
  cases ha
  have hn : eiCertain mdl (Real.sqrt p.mse) := by rw [eiCertain_iff mdl hs]; exact hc
  simp only [acqValue, acqPredict]
  simp only [acqValueAt]
  rw [if_pos hn]

private theorem eiFormula_eq (plugin yHat sd : ℝ) (hs : 0 < sd) :
    eiFormula plugin yHat sd = sd * (((plugin - yHat) / sd) * normCdf ((plugin - yHat) / sd) + normPdf ((plugin - yHat) / sd)) := by
  rw [eiFormula]; field_simp

/-- The expected improvement is more than the difference of the means, and positive. -/
theorem ei_gt (best m v : ℝ) (hv : 0 < v) : max (best - m) 0 < expectedImprovement true best (predictive m v) := by
  simp only [expectedImprovement, gain, if_true]
  rw [predictive_eq _ _ hv, integral_improvement _ _ _ (sd_pos hv), eiFormula_eq _ _ _ (sd_pos hv)]
  have h1 := eiStd_gt_self ((best - m) / Real.sqrt v)
  have h2 := eiStd_pos ((best - m) / Real.sqrt v)
  have hs := sd_pos hv
  refine max_lt ?_ (mul_pos hs h2)
  have h3 := mul_lt_mul_of_pos_left h1 hs
  rwa [mul_div_cancel₀ _ hs.ne'] at h3

/-- C73 fails as it stands: a point predicted to be better than the plugin by one has the value zero. -/
theorem c73_ei_wrong_when_certain :
    ∃ (par : AcqPar) (mdl : AcqModel) (a : Acq) (best : ℝ) (p : AcqPred), acqInit .EI par mdl true = .ok a ∧ par.plugin = some best ∧
      0 < p.mse ∧ acqValue a mdl p = some 0 ∧ 1 < expectedImprovement true best (predictive p.mean p.mse) := by
  refine ⟨{ plugin := some 0 }, {}, _, 0, { mean := -1, mse := 1 / 10 ^ 22 }, by simp [acqInit]; rfl, rfl, by norm_num, ?_, ?_⟩
  · refine c73_ei_certain_is_zero { plugin := some 0 } {} true _ _ (by simp [acqInit]) (by simp) ?_
    simp only [eiThreshold]
    rw [Real.sqrt_lt' (by norm_num)]
    norm_num
  · have := ei_gt 0 (-1) (1 / 10 ^ 22) (by norm_num)
    refine lt_of_le_of_lt ?_ this
    norm_num

/-- C73 for `MGFI`: the expectation of `exp(t (improvement - 1))` on the event of an improvement, with `t` cut off at 22.36. -/
theorem c73_mgfi_is_moment_partial (par : AcqPar) (mdl : AcqModel) (mn : Bool) (a : Acq) (best t : ℝ) (p : AcqPred)
    (ha : acqInit .MGFI par mdl mn = .ok a) (hp : par.plugin = some best) (ht : par.t = some t)
    (hc : 1 / 10 ^ 8 < Real.sqrt p.mse) :
    acqValue a mdl p = some (momentOfImprovement mn best (min t 22.36) (predictive p.mean p.mse)) := by
  have hv : 0 < p.mse := by
    by_contra hn
    rw [Real.sqrt_eq_zero_of_nonpos (by linarith)] at hc
    norm_num at hc
  simp only [acqInit] at ha
  split_ifs at ha
  cases ha
  have hn : ¬ mgfiCertain (Real.sqrt p.mse) := by
    rw [mgfiCertain, abs_of_nonneg (Real.sqrt_nonneg _)]; linarith
  simp only [acqValue, acqPredict, hp, ht, setPlugin]
  simp only [acqValueAt, Option.map_some, Option.getD_some]
  rw [if_neg hn]
  congr 1
  have h22 : (2236 / 100 : ℝ) = 22.36 := by norm_num
  rw [h22]
  cases mn with
  | true =>
    simp only [if_true, momentOfImprovement]
    rw [predictive_eq _ _ hv, ← integral_mgf_improvement _ _ _ _ (sd_pos hv)]
    have : atLeastAsGood true best = Set.Iic best := by ext y; simp [atLeastAsGood, gain]
    rw [this]
    simp [gain]
  | false =>
    simp only [Bool.false_eq_true, if_false, momentOfImprovement, neg_mul, one_mul]
    have h := integral_predictive_neg p.mean p.mse
      ((Set.Iic (-best)).indicator (fun y => Real.exp (min t 22.36 * (-best - y - 1))))
    rw [integral_indicator measurableSet_Iic, predictive_eq _ _ hv, integral_mgf_improvement _ _ _ _ (sd_pos hv)] at h
    rw [h]
    have hset : atLeastAsGood false best = Set.Ici best := by ext y; simp [atLeastAsGood, gain]
    rw [hset, ← integral_indicator measurableSet_Ici]
    congr 1
    funext y
    by_cases hy : best ≤ y
    · rw [Set.indicator_of_mem (Set.mem_Ici.2 hy), Set.indicator_of_mem (by simpa using hy)]
      congr 1
      simp [gain]
      left; ring
    · rw [Set.indicator_of_notMem (by simpa using hy), Set.indicator_of_notMem (by simpa using hy)]

/-- C73 for `EpsilonPI`: the probability that the outcome is worse than the plugin by at most `epsilon` times the predicted mean. -/
theorem c73_epsilon_pi_is_probability (par : AcqPar) (mdl : AcqModel) (mn : Bool) (a : Acq) (best eps : ℝ) (p : AcqPred)
    (ha : acqInit .EpsilonPI par mdl mn = .ok a) (hp : par.plugin = some best) (he : par.epsilon = some eps) (hv : 0 < p.mse) :
    acqValue a mdl p = some (probabilityOfImprovement mn best (eps * |p.mean|) (predictive p.mean p.mse)) := by
  simp only [acqInit] at ha
  split_ifs at ha
  cases ha
  simp only [acqValue, acqPredict, hp, he, setPlugin]
  simp only [acqValueAt, Option.map_some, Option.getD_some, piFormula]
  rw [if_neg (sd_pos hv).ne']
  congr 1
  have hcoef : ∀ y : ℝ, epsCoef eps y * y = y - eps * |y| := by
    intro y
    rw [epsCoef]
    split_ifs with h
    · rw [abs_of_pos h]; ring
    · rw [abs_of_nonpos (not_lt.1 h)]; ring
  rw [hcoef]
  cases mn with
  | true =>
    simp only [if_true, probabilityOfImprovement]
    have hset : { y | -(eps * |p.mean|) ≤ gain true best y } = Set.Iic (best + eps * |p.mean|) := by
      ext y; simp only [gain, if_true, Set.mem_ofPred_eq, Set.mem_Iic]; constructor <;> intro h <;> linarith
    rw [hset, predictive_eq _ _ hv, gaussianReal_Iic _ _ _ (sd_pos hv)]
    congr 2; ring
  | false =>
    simp only [Bool.false_eq_true, if_false, probabilityOfImprovement, neg_mul, one_mul, abs_neg]
    have hset : { y | -(eps * |p.mean|) ≤ gain false best y } = (fun y : ℝ => -y) ⁻¹' Set.Iic (-best + eps * |p.mean|) := by
      ext y
      simp only [gain, Bool.false_eq_true, if_false, Set.mem_ofPred_eq, Set.mem_preimage, Set.mem_Iic]
      constructor <;> intro h <;> linarith
    rw [hset, Measure.real, ← Measure.map_apply (by fun_prop) measurableSet_Iic, predictive_neg, ← Measure.real,
      predictive_eq _ _ hv, gaussianReal_Iic _ _ _ (sd_pos hv)]
    congr 2; ring

/-! ### C74: ranking -/

private theorem epsCoef_mul (eps y : ℝ) : epsCoef eps y * y = y - eps * |y| := by
  rw [epsCoef]
  split_ifs with h
  · rw [abs_of_pos h]; ring
  · rw [abs_of_nonpos (not_lt.1 h)]; ring

private theorem eiFormula_anti {plugin y y' sd : ℝ} (hs : 0 < sd) (h : y ≤ y') : eiFormula plugin y' sd ≤ eiFormula plugin y sd := by
  rw [eiFormula_eq _ _ _ hs, eiFormula_eq _ _ _ hs]
  refine mul_le_mul_of_nonneg_left ?_ hs.le
  exact eiStd_strictMono.monotone (by gcongr)

private theorem mgfiFormula_anti {t plugin y y' sd : ℝ} (ht : 0 < t) (hs : 0 < sd) (h : y ≤ y') :
    mgfiFormula t plugin y' sd ≤ mgfiFormula t plugin y sd := by
  rw [mgfiFormula, mgfiFormula]
  refine mul_le_mul ?_ ?_ (Real.exp_pos _).le (normCdf_nonneg _)
  · exact normCdf_strictMono.monotone (by gcongr)
  · rw [Real.exp_le_exp]; gcongr

private theorem piFormula_anti {eps plugin y y' sd : ℝ} (h0 : 0 < eps) (h1 : eps ≤ 1) (hs : 0 < sd) (h : y ≤ y') :
    ∃ v v', piFormula eps plugin y sd = some v ∧ piFormula eps plugin y' sd = some v' ∧ v' ≤ v := by
  refine ⟨_, _, by rw [piFormula]; exact if_neg hs.ne', by rw [piFormula]; exact if_neg hs.ne', ?_⟩
  refine normCdf_strictMono.monotone ?_
  rw [epsCoef_mul, epsCoef_mul]
  have : y - eps * |y| ≤ y' - eps * |y'| := by
    have h2 : |y'| - |y| ≤ |y' - y| := abs_sub_abs_le_abs_sub y' y
    rw [abs_of_nonneg (by linarith : 0 ≤ y' - y)] at h2
    nlinarith
  gcongr

private theorem acqValueAt_anti (a : Acq) (mdl : AcqModel) {y y' sd : ℝ} (hu : a.name ≠ .UCB) (hpar : a.name ≠ .EI → 0 < a.par)
    (heps : a.name = .EpsilonPI ∨ a.name = .PI → a.par ≤ 1) (hs : 0 < sd) (h : y ≤ y') :
    ∃ v v', acqValueAt a mdl y sd = some v ∧ acqValueAt a mdl y' sd = some v' ∧ v' ≤ v := by
  obtain ⟨name, par, plugin, mn⟩ := a
  cases name
  · exact absurd rfl hu
  · simp only [acqValueAt]
    split_ifs
    · exact ⟨0, 0, rfl, rfl, le_refl _⟩
    · refine ⟨_, _, rfl, rfl, ?_⟩
      cases plugin with
      | none => simp only [Option.map_none, Option.getD_none, le_refl]
      | some pl => simp only [Option.map_some, Option.getD_some]; exact eiFormula_anti hs h
  · simp only [acqValueAt]
    cases plugin with
    | none => exact ⟨0, 0, by simp, by simp, le_refl _⟩
    | some pl =>
      simp only [Option.map_some, Option.getD_some]
      have h0 : 0 < par := hpar (by simp)
      have h1 : par ≤ 1 := heps (by simp)
      exact piFormula_anti h0 h1 hs h
  · simp only [acqValueAt]
    cases plugin with
    | none => exact ⟨0, 0, by simp, by simp, le_refl _⟩
    | some pl =>
      simp only [Option.map_some, Option.getD_some]
      have h0 : 0 < par := hpar (by simp)
      have h1 : par ≤ 1 := heps (by simp)
      exact piFormula_anti h0 h1 hs h
  · simp only [acqValueAt]
    split_ifs
    · exact ⟨0, 0, rfl, rfl, le_refl _⟩
    · refine ⟨_, _, rfl, rfl, ?_⟩
      cases plugin with
      | none => simp only [Option.map_none, Option.getD_none, le_refl]
      | some pl =>
        simp only [Option.map_some, Option.getD_some]
        have h0 : 0 < par := hpar (by simp)
        exact mgfiFormula_anti h0 hs h

private theorem acqInit_par_pos {name : AcqName} {par : AcqPar} {mdl : AcqModel} {mn : Bool} {a : Acq}
    (h : acqInit name par mdl mn = .ok a) : name ≠ .EI → 0 < a.par := by
  intro hn
  cases name <;> simp only [acqInit] at h <;> split_ifs at h with h1 h2
  · cases h; exact h2
  · exact absurd rfl hn
  · cases h; exact h2
  · cases h; exact h2
  · cases h; exact lt_min h2 (by norm_num)

private theorem acqInit_eps {par : AcqPar} {mdl : AcqModel} {mn : Bool} {a : Acq}
    (h : acqInit .EpsilonPI par mdl mn = .ok a) : a.par = par.epsilon.getD (1 / 10 ^ 10) := by
  simp only [acqInit] at h
  split_ifs at h
  cases h; rfl

private theorem pred_le {mn : Bool} {x y : ℝ} (h : BetterOutcome mn x y) :
    (if mn then x else -1 * x) ≤ (if mn then y else -1 * y) := by
  cases mn with
  | true => simp only [BetterOutcome, if_true] at *; exact h.le
  | false =>
    have h' : y < x := by simpa [BetterOutcome] using h
    simp only [Bool.false_eq_true, if_false]; linarith

/-- C74: for the classes other than `UCB`, and `epsilon` at most one, a candidate predicted to be better is not ranked below one with the
same uncertainty, in both directions. -/
theorem c74_better_mean_ranks_higher_partial (name : AcqName) (par : AcqPar) (mdl : AcqModel) (mn : Bool) (a : Acq) (p q : AcqPred)
    (ha : acqInit name par mdl mn = .ok a) (hn : name ≠ .UCB) (he : ∀ e, par.epsilon = some e → e ≤ 1)
    (hv : 0 < p.mse) (hpq : p.mse = q.mse) (hb : BetterOutcome mn p.mean q.mean) :
    ∃ v w, acqValue a mdl p = some v ∧ acqValue a mdl q = some w ∧ w ≤ v := by
  have hname := acqInit_name ha
  have hm := acqInit_minimize ha
  subst hm
  simp only [acqValue, acqPredict]
  rw [← hpq]
  refine acqValueAt_anti a mdl (by rw [hname]; exact hn) (by rw [hname]; exact acqInit_par_pos ha) ?_ (sd_pos hv) (pred_le hb)
  rw [hname]
  rintro (h | h)
  · subst h
    rw [acqInit_eps ha]
    cases h2 : par.epsilon with
    | none => norm_num
    | some e => exact he e h2
  · subst h
    obtain ⟨e, h2⟩ := c36_pi_never_constructs par mdl a.minimize
    rw [h2] at ha; cases ha

/-- C74 fails for `UCB`: of two candidates with the same uncertainty the one predicted to be better always has the lower value, in both
directions. -/
theorem c74_ucb_ranks_backwards (par : AcqPar) (mdl : AcqModel) (mn : Bool) (a : Acq) (p q : AcqPred)
    (ha : acqInit .UCB par mdl mn = .ok a) (hpq : p.mse = q.mse) (hb : BetterOutcome mn p.mean q.mean) :
    ∃ v w, acqValue a mdl p = some v ∧ acqValue a mdl q = some w ∧ v < w := by
  simp only [acqInit] at ha
  split_ifs at ha
  cases ha
  refine ⟨_, _, rfl, rfl, ?_⟩
  simp only [acqPredict, ucbValue, hpq]
  cases mn with
  | true => simp only [BetterOutcome, if_true] at *; linarith
  | false =>
    have h' : q.mean < p.mean := by simpa [BetterOutcome] using hb
    simp only [Bool.false_eq_true, if_false]; linarith

/-- C74 fails for `EpsilonPI` with `epsilon` two, which the constructor takes. -/
theorem c74_epsilon_pi_ranks_backwards :
    ∃ (par : AcqPar) (mdl : AcqModel) (a : Acq) (p q : AcqPred), acqInit .EpsilonPI par mdl true = .ok a ∧ p.mse = q.mse ∧ 0 < p.mse ∧
      BetterOutcome true p.mean q.mean ∧ ∃ v w, acqValue a mdl p = some v ∧ acqValue a mdl q = some w ∧ v < w := by
  refine ⟨{ plugin := some 0, epsilon := some 2 }, {}, _, { mean := 1, mse := 1 }, { mean := 2, mse := 1 },
    by simp [acqInit]; rfl, rfl, by norm_num, by simp [BetterOutcome], normCdf 1, normCdf 2, ?_, ?_, normCdf_strictMono (by norm_num)⟩
  · simp only [acqValue, acqPredict, setPlugin]
    simp only [acqValueAt, Option.map_some, Option.getD_some, piFormula, epsCoef]
    norm_num
  · simp only [acqValue, acqPredict, setPlugin]
    simp only [acqValueAt, Option.map_some, Option.getD_some, piFormula, epsCoef]
    norm_num

private theorem hasDerivAt_ei {m s : ℝ → ℝ} {x m' s' plugin : ℝ} (hm : HasDerivAt m m' x) (hs : HasDerivAt s s' x) (h0 : s x ≠ 0) :
    HasDerivAt (fun y => eiFormula plugin (m y) (s y)) (eiDx plugin (m x) (s x) m' s') x := by
  have hz : HasDerivAt (fun y => (plugin - m y) / s y) ((-m' * s x - (plugin - m x) * s') / s x ^ 2) x := by
    have := (hm.const_sub plugin).div hs h0
    exact this
  have h1 := (hasDerivAt_normCdf ((plugin - m x) / s x)).comp x hz
  have h2 := (hasDerivAt_normPdf ((plugin - m x) / s x)).comp x hz
  have h3 := ((hm.const_sub plugin).mul h1).add (hs.mul h2)
  have he : -m' * normCdf ((plugin - m x) / s x) +
      (plugin - m x) * (normPdf ((plugin - m x) / s x) * ((-m' * s x - (plugin - m x) * s') / s x ^ 2)) +
      (s' * normPdf ((plugin - m x) / s x) +
        s x * (-((plugin - m x) / s x) * normPdf ((plugin - m x) / s x) * ((-m' * s x - (plugin - m x) * s') / s x ^ 2))) =
      eiDx plugin (m x) (s x) m' s' := by
    rw [eiDx]; field_simp; ring
  rw [← he]
  exact h3

private theorem eiFormula_mono_sd {plugin y sd sd' : ℝ} (hs : 0 < sd) (h : sd ≤ sd') : eiFormula plugin y sd ≤ eiFormula plugin y sd' := by
  have hd : ∀ s : ℝ, 0 < s → HasDerivAt (fun s => eiFormula plugin y s) (normPdf ((plugin - y) / s)) s := by
    intro s h0
    have := hasDerivAt_ei (plugin := plugin) (hasDerivAt_const s y) (hasDerivAt_id s) h0.ne'
    simpa [eiDx] using this
  have hmono : MonotoneOn (fun s => eiFormula plugin y s) (Set.Ioi 0) := by
    refine monotoneOn_of_deriv_nonneg (convex_Ioi 0) ?_ ?_ ?_
    · intro s h0; exact (hd s h0).continuousAt.continuousWithinAt
    · intro s h0; rw [interior_Ioi] at h0; exact (hd s h0).differentiableAt.differentiableWithinAt
    · intro s h0; rw [interior_Ioi] at h0; rw [(hd s h0).deriv]; exact (normPdf_pos _).le
  exact hmono hs (lt_of_lt_of_le hs h) h

/-- C75: at the same predicted mean, more uncertainty never lowers the value of `EI` (also across the threshold of certainty). -/
theorem c75_ei_rewards_uncertainty (par : AcqPar) (mdl : AcqModel) (mn : Bool) (a : Acq) (p q : AcqPred)
    (ha : acqInit .EI par mdl mn = .ok a) (hs : ∀ v, mdl.sigma2 = some v → 0 < v) (h0 : 0 ≤ p.mse) (hpq : p.mean = q.mean)
    (hv : p.mse < q.mse) : ∃ v w, acqValue a mdl p = some v ∧ acqValue a mdl q = some w ∧ v ≤ w := by
  simp only [acqInit] at ha
  split_ifs at ha
  cases ha
  simp only [acqValue, acqPredict]
  simp only [acqValueAt, hpq]
  have hle : Real.sqrt p.mse ≤ Real.sqrt q.mse := Real.sqrt_le_sqrt hv.le
  have hq : 0 < Real.sqrt q.mse := sd_pos (by linarith)
  by_cases hcp : eiCertain mdl (Real.sqrt p.mse)
  · rw [if_pos hcp]
    by_cases hcq : eiCertain mdl (Real.sqrt q.mse)
    · rw [if_pos hcq]; exact ⟨0, 0, rfl, rfl, le_refl _⟩
    · rw [if_neg hcq]
      refine ⟨0, _, rfl, rfl, ?_⟩
      cases setPlugin mdl mn par.plugin with
      | none => simp only [Option.map_none, Option.getD_none, le_refl]
      | some pl =>
        simp only [Option.map_some, Option.getD_some]
        rw [eiFormula_eq _ _ _ hq]
        exact mul_nonneg hq.le (eiStd_nonneg _)
  · have hcq : ¬ eiCertain mdl (Real.sqrt q.mse) := by
      rw [eiCertain_iff mdl hs] at *; linarith
    rw [if_neg hcp, if_neg hcq]
    refine ⟨_, _, rfl, rfl, ?_⟩
    have hp : 0 < Real.sqrt p.mse := by
      rw [eiCertain_iff mdl hs] at hcp
      have : 0 < eiThreshold mdl.sigma2 := by
        cases h : mdl.sigma2 with
        | none => simp [eiThreshold]
        | some v => exact div_pos (sd_pos (hs v h)) (by norm_num)
      linarith
    cases setPlugin mdl mn par.plugin with
    | none => simp only [Option.map_none, Option.getD_none, le_refl]
    | some pl => simp only [Option.map_some, Option.getD_some]; exact eiFormula_mono_sd hp hle

/-- C75: the same for `UCB`, strictly. -/
theorem c75_ucb_rewards_uncertainty (par : AcqPar) (mdl : AcqModel) (mn : Bool) (a : Acq) (p q : AcqPred)
    (ha : acqInit .UCB par mdl mn = .ok a) (h0 : 0 ≤ p.mse) (hpq : p.mean = q.mean) (hv : p.mse < q.mse) :
    ∃ v w, acqValue a mdl p = some v ∧ acqValue a mdl q = some w ∧ v < w := by
  simp only [acqInit] at ha
  split_ifs at ha with h1 h2
  cases ha
  refine ⟨_, _, rfl, rfl, ?_⟩
  simp only [acqPredict, ucbValue, hpq]
  have := Real.sqrt_lt_sqrt h0 hv
  have := mul_lt_mul_of_pos_left this h2
  linarith

/-! ### C76: gradients -/

private theorem hasDerivAt_pi {m s : ℝ → ℝ} {x m' s' eps plugin : ℝ} (hm : HasDerivAt m m' x) (hs : HasDerivAt s s' x)
    (h0 : 0 < s x) (hm0 : m x ≠ 0) :
    HasDerivAt (fun y => (piFormula eps plugin (m y) (s y)).getD 0) (piDx eps plugin (m x) (s x) m' s') x := by
  set c := epsCoef eps (m x) with hc
  have hz : HasDerivAt (fun y => (plugin - c * m y) / s y) ((-(c * m') * s x - (plugin - c * m x) * s') / s x ^ 2) x :=
    ((hm.const_mul c).const_sub plugin).div hs h0.ne'
  have h1 := (hasDerivAt_normCdf ((plugin - c * m x) / s x)).comp x hz
  have hev : ∀ᶠ y in 𝓝 x, (piFormula eps plugin (m y) (s y)).getD 0 = normCdf ((plugin - c * m y) / s y) := by
    have e1 : ∀ᶠ y in 𝓝 x, 0 < s y := hs.continuousAt.eventually (lt_mem_nhds h0)
    have e2 : ∀ᶠ y in 𝓝 x, epsCoef eps (m y) = c := by
      rcases lt_or_gt_of_ne hm0 with hneg | hpos
      · filter_upwards [hm.continuousAt.eventually (gt_mem_nhds hneg)] with y hy
        rw [hc, epsCoef, epsCoef, if_neg (by linarith), if_neg (by linarith)]
      · filter_upwards [hm.continuousAt.eventually (lt_mem_nhds hpos)] with y hy
        rw [hc, epsCoef, epsCoef, if_pos hy, if_pos hpos]
    filter_upwards [e1, e2] with y hy1 hy2
    simp only [piFormula]
    rw [if_neg hy1.ne', hy2, Option.getD_some]
  refine HasDerivAt.congr_of_eventuallyEq ?_ hev
  have he : normPdf ((plugin - c * m x) / s x) * ((-(c * m') * s x - (plugin - c * m x) * s') / s x ^ 2) =
      piDx eps plugin (m x) (s x) m' s' := by
    simp only [piDx, ← hc]; have := h0.ne'; field_simp; ring
  rw [← he]
  exact h1

private theorem hasDerivAt_mgfi {m s : ℝ → ℝ} {x m' s' t plugin : ℝ} (hm : HasDerivAt m m' x) (hs : HasDerivAt s s' x)
    (h0 : s x ≠ 0) : HasDerivAt (fun y => mgfiFormula t plugin (m y) (s y)) (mgfiDx t plugin (m x) (s x) m' s') x := by
  have hs2 : HasDerivAt (fun y => s y ^ 2) (2 * s x * s') x := by
    have h := hs.pow 2
    have he : ((2 : ℕ) : ℝ) * s x ^ (2 - 1) * s' = 2 * s x * s' := by norm_num
    rw [he] at h
    exact h
  have hb : HasDerivAt (fun y => (plugin - (m y - t * s y ^ 2)) / s y)
      ((-(m' - t * (2 * s x * s')) * s x - (plugin - (m x - t * s x ^ 2)) * s') / s x ^ 2) x :=
    ((hm.sub (hs2.const_mul t)).const_sub plugin).div hs h0
  have h1 := (hasDerivAt_normCdf ((plugin - (m x - t * s x ^ 2)) / s x)).comp x hb
  have he : HasDerivAt (fun y => Real.exp (t * (plugin - m y - 1) + t ^ 2 * s y ^ 2 / 2))
      (Real.exp (t * (plugin - m x - 1) + t ^ 2 * s x ^ 2 / 2) * (t * -m' + t ^ 2 * (2 * s x * s') / 2)) x := by
    refine HasDerivAt.exp ?_
    exact ((((hm.const_sub plugin).sub_const 1).const_mul t)).add ((hs2.const_mul (t ^ 2)).div_const 2)
  have h2 := h1.mul he
  have hfin : normPdf ((plugin - (m x - t * s x ^ 2)) / s x) *
        ((-(m' - t * (2 * s x * s')) * s x - (plugin - (m x - t * s x ^ 2)) * s') / s x ^ 2) *
        Real.exp (t * (plugin - m x - 1) + t ^ 2 * s x ^ 2 / 2) +
      normCdf ((plugin - (m x - t * s x ^ 2)) / s x) *
        (Real.exp (t * (plugin - m x - 1) + t ^ 2 * s x ^ 2 / 2) * (t * -m' + t ^ 2 * (2 * s x * s') / 2)) =
      mgfiDx t plugin (m x) (s x) m' s' := by
    simp only [mgfiDx]
    have : t * (plugin + t * s x ^ 2 / 2 - m x - 1) = t * (plugin - m x - 1) + t ^ 2 * s x ^ 2 / 2 := by ring
    rw [this]
    field_simp
    ring
  rw [← hfin]
  exact h2

/-- Where the value has a kink: `EI` and `MGFI` at the threshold of certainty, `EpsilonPI` where the predicted mean is zero. -/
def atKink (name : AcqName) (mdl : AcqModel) (mean sd : ℝ) : Prop :=
  match name with
  | .UCB => False
  | .EI => sd = eiThreshold mdl.sigma2
  | .EpsilonPI | .PI => mean = 0
  | .MGFI => sd = 1 / 10 ^ 8

open Classical in
private theorem acqDxAt_correct (a : Acq) (mdl : AcqModel) {m s : ℝ → ℝ} {x m' s' : ℝ} (hs2 : ∀ v, mdl.sigma2 = some v → 0 < v)
    (hm : HasDerivAt m m' x) (hs : HasDerivAt s s' x) (h0 : 0 < s x) (hk : ¬ atKink a.name mdl (m x) (s x)) :
    ∃ d, acqDxAt a mdl (m x) (s x) m' s' = some d ∧ HasDerivAt (fun y => (acqValueAt a mdl (m y) (s y)).getD 0) d x := by
  obtain ⟨name, par, plugin, mn⟩ := a
  have hpi : ∃ d, (if s x = 0 then none else some ((plugin.map (fun pl => piDx par pl (m x) (s x) m' s')).getD 0)) = some d ∧
      (m x ≠ 0 → HasDerivAt (fun y => ((plugin.map (fun pl => piFormula par pl (m y) (s y))).getD (some 0)).getD 0) d x) := by
    rw [if_neg h0.ne']
    refine ⟨_, rfl, fun hne => ?_⟩
    cases plugin with
    | none => exact hasDerivAt_const x _
    | some pl => exact hasDerivAt_pi hm hs h0 hne
  cases name
  · refine ⟨ucbDx par m' s', by simp only [acqDxAt]; exact if_neg h0.ne', ?_⟩
    exact hm.add (hs.const_mul par)
  · simp only [acqDxAt, acqValueAt]
    simp only [atKink] at hk
    by_cases hc : eiCertain mdl (s x)
    · refine ⟨0, if_pos hc, ?_⟩
      rw [eiCertain_iff mdl hs2] at hc
      refine HasDerivAt.congr_of_eventuallyEq (hasDerivAt_const x (0 : ℝ)) ?_
      filter_upwards [hs.continuousAt.eventually (gt_mem_nhds hc)] with y hy
      rw [if_pos ((eiCertain_iff mdl hs2 _).2 hy), Option.getD_some]
    · rw [if_neg hc, if_neg h0.ne']
      refine ⟨_, rfl, ?_⟩
      rw [eiCertain_iff mdl hs2] at hc
      have hlt : eiThreshold mdl.sigma2 < s x := lt_of_le_of_ne (not_lt.1 hc) (fun h => hk h.symm)
      have hev : ∀ᶠ y in 𝓝 x, (if eiCertain mdl (s y) then some (0 : ℝ)
          else some ((plugin.map (fun pl => eiFormula pl (m y) (s y))).getD 0)).getD 0 =
          (plugin.map (fun pl => eiFormula pl (m y) (s y))).getD 0 := by
        filter_upwards [hs.continuousAt.eventually (lt_mem_nhds hlt)] with y hy
        rw [if_neg (by rw [eiCertain_iff mdl hs2]; linarith), Option.getD_some]
      refine HasDerivAt.congr_of_eventuallyEq ?_ hev
      cases plugin with
      | none => exact hasDerivAt_const x _
      | some pl => exact hasDerivAt_ei hm hs h0.ne'
  · obtain ⟨d, h1, h2⟩ := hpi
    exact ⟨d, h1, h2 hk⟩
  · obtain ⟨d, h1, h2⟩ := hpi
    exact ⟨d, h1, h2 hk⟩
  · simp only [acqDxAt, acqValueAt]
    simp only [atKink] at hk
    have hiff : ∀ v : ℝ, 0 < v → (mgfiCertain v ↔ v ≤ 1 / 10 ^ 8) := by
      intro v hv; rw [mgfiCertain, abs_of_pos hv]
    have hpos : ∀ᶠ y in 𝓝 x, 0 < s y := hs.continuousAt.eventually (lt_mem_nhds h0)
    by_cases hc : mgfiCertain (s x)
    · refine ⟨0, if_pos hc, ?_⟩
      rw [hiff _ h0] at hc
      have hlt : s x < 1 / 10 ^ 8 := lt_of_le_of_ne hc hk
      refine HasDerivAt.congr_of_eventuallyEq (hasDerivAt_const x (0 : ℝ)) ?_
      filter_upwards [hs.continuousAt.eventually (gt_mem_nhds hlt), hpos] with y hy hy0
      rw [if_pos ((hiff _ hy0).2 hy.le), Option.getD_some]
    · rw [if_neg hc]
      refine ⟨_, rfl, ?_⟩
      rw [hiff _ h0] at hc
      have hev : ∀ᶠ y in 𝓝 x, (if mgfiCertain (s y) then some (0 : ℝ)
          else some ((plugin.map (fun pl => mgfiFormula par pl (m y) (s y))).getD 0)).getD 0 =
          (plugin.map (fun pl => mgfiFormula par pl (m y) (s y))).getD 0 := by
        filter_upwards [hs.continuousAt.eventually (lt_mem_nhds (not_le.1 hc)), hpos] with y hy hy0
        rw [if_neg (by rw [hiff _ hy0]; linarith), Option.getD_some]
      refine HasDerivAt.congr_of_eventuallyEq ?_ hev
      cases plugin with
      | none => exact hasDerivAt_const x _
      | some pl => exact hasDerivAt_mgfi hm hs h0.ne'

/-- C76: along every coordinate, the gradient returned by every acquisition function is the derivative of the value it returns, whatever
differentiable mean and variance the surrogate has, in both directions, wherever the variance is positive and the value has no kink. -/
theorem c76_gradient_correct (name : AcqName) (par : AcqPar) (mdl : AcqModel) (mn : Bool) (a : Acq) (mean mse : ℝ → ℝ)
    (x m' v' : ℝ) (ha : acqInit name par mdl mn = .ok a) (hs2 : ∀ v, mdl.sigma2 = some v → 0 < v)
    (hm : HasDerivAt mean m' x) (hv : HasDerivAt mse v' x) (h0 : 0 < mse x)
    (hk : ¬ atKink name mdl (mean x) (Real.sqrt (mse x))) :
    ∃ d, acqDx a mdl { mean := mean x, mse := mse x, meanDx := m', mseDx := v' } = some d ∧
      HasDerivAt (fun y => (acqValue a mdl { mean := mean y, mse := mse y }).getD 0) d x := by
  have hname := acqInit_name ha
  have hsd : HasDerivAt (fun y => Real.sqrt (mse y)) (v' / (2 * Real.sqrt (mse x))) x := hv.sqrt h0.ne'
  cases hmn : a.minimize with
  | true =>
    have h := acqDxAt_correct a mdl hs2 hm hsd (sd_pos h0) (by rw [hname]; exact hk)
    simpa [acqDx, acqValue, acqPredict, acqGradient, hmn] using h
  | false =>
    have hk' : ¬ atKink a.name mdl (-1 * mean x) (Real.sqrt (mse x)) := by
      rw [hname]
      cases name <;> simp only [atKink] at hk ⊢ <;> simpa using hk
    have h := acqDxAt_correct a mdl hs2 (hm.const_mul (-1)) hsd (sd_pos h0) hk'
    simpa [acqDx, acqValue, acqPredict, acqGradient, hmn] using h

/-- Without a variance the gradient of `UCB` is not a number. -/
theorem c76_ucb_gradient_undefined (par : AcqPar) (mdl : AcqModel) (mn : Bool) (a : Acq) (p : AcqPred)
    (ha : acqInit .UCB par mdl mn = .ok a) (h0 : p.mse = 0) : acqDx a mdl p = none := by
  simp only [acqInit] at ha
  split_ifs at ha
  cases ha
  simp only [acqDx, acqPredict, acqGradient, h0]
  simp [acqDxAt]

/-! ### C77: the parameters the user asked for -/

/-- C77 fails for the single-point strategy: the acquisition function does not depend on `acquisition_par` at all. -/
theorem c77_single_ignores_parameters (o : AcqOpt) (par : AcqPar) : singleCreate { o with acqPar := par } = singleCreate o := rfl

/-- C77 fails: the user asks for `alpha = 2` and gets `alpha = 0.5`. -/
theorem c77_single_wrong_parameter :
    ∃ (o : AcqOpt) (a : Acq), o.acqPar.alpha = some 2 ∧ o.fn = .UCB ∧ singleCreate o = .ok a ∧ a.par = 1 / 2 := by
  refine ⟨{ fn := .UCB, acqPar := { alpha := some 2 }, minimize := true, fmin := 0, fmax := 1, mdl := {} },
    { name := .UCB, par := 1 / 2, plugin := none, minimize := true }, rfl, rfl, ?_, rfl⟩
  · simp [singleCreate, boCreate, baseCreate, boPar, hasPlugin, emptyPar, acqInit]

/-- C77, the part that holds: without any parameters from the user the single-point strategy uses the defaults, and for the classes with a
plugin it is the best standardised observation in the direction of the problem (stored turned round for maximisation). -/
theorem c77_single_default_partial (o : AcqOpt) (hn : o.fn = .EI ∨ o.fn = .MGFI ∨ o.fn = .EpsilonPI) :
    ∃ a, singleCreate o = .ok a ∧ a.name = o.fn ∧ a.minimize = o.minimize ∧
      a.plugin = some (if o.minimize then o.fmin else -o.fmax) ∧ (o.fn = .MGFI → a.par = 1) ∧ (o.fn = .EpsilonPI → a.par = 1 / 10 ^ 10) := by
  obtain ⟨fn, ap, mn, fmin, fmax, mdl⟩ := o
  simp only at hn
  rcases hn with rfl | rfl | rfl
  · refine ⟨_, by simp [singleCreate, boCreate, baseCreate, boPar, hasPlugin, emptyPar, acqInit]; rfl, rfl, rfl, ?_, by simp, by simp⟩
    cases mn <;> simp [setPlugin]
  · refine ⟨_, by simp [singleCreate, boCreate, baseCreate, boPar, hasPlugin, emptyPar, acqInit]; rfl, rfl, rfl, ?_, ?_, by simp⟩
    · cases mn <;> simp [setPlugin]
    · intro _; norm_num
  · refine ⟨_, by simp [singleCreate, boCreate, baseCreate, boPar, hasPlugin, emptyPar, acqInit]; rfl, rfl, rfl, ?_, by simp, ?_⟩
    · cases mn <;> simp [setPlugin]
    · intro _; norm_num

/-- C77 for the optimiser for noisy objectives: without parameters from the user the plugin is the best of the predictions at the recorded
points, in the direction of the problem (stored turned round for maximisation). -/
theorem c77_noisy_plugin_partial (o : AcqOpt) (yhat : List ℝ) (hy : yhat ≠ []) (hn : o.fn = .EI ∨ o.fn = .MGFI ∨ o.fn = .EpsilonPI) :
    ∃ a b, noisyCreate o yhat none none = .ok a ∧ a.name = o.fn ∧ a.minimize = o.minimize ∧
      b ∈ yhat ∧ (∀ u ∈ yhat, if o.minimize then b ≤ u else u ≤ b) ∧ a.plugin = some (if o.minimize then b else -b) := by
  obtain ⟨fn, ap, mn, fmin, fmax, mdl⟩ := o
  simp only at hn
  have hb : (if mn then npMin yhat else npMax yhat) ∈ yhat ∧
      ∀ u ∈ yhat, if mn then (if mn then npMin yhat else npMax yhat) ≤ u else u ≤ (if mn then npMin yhat else npMax yhat) := by
    cases mn
    · simp only [Bool.false_eq_true, if_false]; exact ⟨npMax_mem hy, fun u hu => le_npMax hu⟩
    · simp only [if_true]; exact ⟨npMin_mem hy, fun u hu => npMin_le hu⟩
  rcases hn with rfl | rfl | rfl
  all_goals
    refine ⟨_, if mn then npMin yhat else npMax yhat,
      by simp [noisyCreate, noisyPar, boCreate, baseCreate, boPar, hasPlugin, emptyPar, acqInit]; rfl, rfl, rfl, hb.1, hb.2, ?_⟩
    cases mn <;> simp [setPlugin]

/-! ### C78: batches -/

private theorem mapM_ok {α β : Type} (f : α → Except AcqErr β) (g : α → β) (h : ∀ x, f x = .ok (g x)) (l : List α) :
    l.mapM f = .ok (l.map g) := by
  induction l with
  | nil => rfl
  | cons a l ih =>
    rw [List.mapM_cons, h, ih]; rfl

/-- C78 for `MGFI`: for every positive `t`, with or without a plugin from the user and for all numbers drawn, `ParallelBO` builds one
acquisition function for each of them; its parameter is positive, is `t` times a log-normal factor cut off at 22.36, and the plugin is the
user's or the best standardised observation. -/
theorem c78_batch_mgfi_partial (o : AcqOpt) (t : ℝ) (ht : 0 < t) (hfn : o.fn = .MGFI) (hpar : o.acqPar.t = some t)
    (ha : o.acqPar.alpha = none) (he : o.acqPar.epsilon = none) (zs : List ℝ) :
    ∃ as, batchCreate o zs = .ok as ∧ as.length = zs.length ∧
      ∀ (i : ℕ) (z : ℝ) (a : Acq), zs[i]? = some z → as[i]? = some a →
        a.name = .MGFI ∧ a.minimize = o.minimize ∧ 0 < a.par ∧ a.par = min (t * Real.exp (z / 2)) 22.36 ∧
        a.plugin = some (if o.minimize then o.acqPar.plugin.getD o.fmin else -(o.acqPar.plugin.getD o.fmax)) := by
  obtain ⟨fn, ⟨pl, t', al, ep⟩, mn, fmin, fmax, mdl⟩ := o
  simp only at hfn hpar ha he
  subst hfn hpar ha he
  obtain ⟨g, hg⟩ : ∃ g : ℝ → Acq, g = fun z =>
      ⟨.MGFI, min (Real.exp (Real.log t + 1 / 2 * z)) (2236 / 100), some (if mn then pl.getD fmin else -(pl.getD fmax)), mn⟩ :=
    ⟨_, rfl⟩
  refine ⟨zs.map g, ?_, by simp, ?_⟩
  · refine mapM_ok _ g (fun z => ?_) zs
    simp only [sampler, boCreate, baseCreate, Option.getD_none, Option.getD_some, hg]
    cases pl <;> cases mn <;>
      simp [boPar, hasPlugin, acqInit, setPlugin, Real.exp_pos, Bind.bind, Except.bind]
  · intro i z a hz hza
    rw [List.getElem?_map, hz] at hza
    simp only [Option.map_some, Option.some.injEq] at hza
    subst hza
    have h1 : Real.exp (Real.log t + 1 / 2 * z) = t * Real.exp (z / 2) := by
      rw [Real.exp_add, Real.exp_log ht]; congr 2; ring
    have h2 : (2236 / 100 : ℝ) = 22.36 := by norm_num
    subst hg
    refine ⟨rfl, rfl, ?_, ?_, rfl⟩
    · exact lt_min (Real.exp_pos _) (by norm_num)
    · simp only [h1, h2]

/-- C78 for `UCB`, if the user gives a dictionary without other keys: the parameter drawn lies strictly between zero and one. -/
theorem c78_batch_ucb_partial (o : AcqOpt) (al : ℝ) (hfn : o.fn = .UCB) (hpar : o.acqPar = { alpha := some al }) (zs : List ℝ) :
    ∃ as, batchCreate o zs = .ok as ∧ as.length = zs.length ∧
      ∀ a ∈ as, a.name = .UCB ∧ a.minimize = o.minimize ∧ 0 < a.par ∧ a.par < 1 := by
  obtain ⟨fn, ap, mn, fmin, fmax, mdl⟩ := o
  simp only at hfn hpar
  subst hfn hpar
  set g : ℝ → Acq := fun z => { name := .UCB, par := 1 / (1 + Real.exp ((al * 4 - 2) + 6 / 10 * z)), plugin := none, minimize := mn }
    with hg
  have hpos : ∀ z : ℝ, 0 < 1 + Real.exp ((al * 4 - 2) + 6 / 10 * z) := fun z => by have := Real.exp_pos ((al * 4 - 2) + 6 / 10 * z); linarith
  refine ⟨zs.map g, ?_, by simp, ?_⟩
  · refine mapM_ok _ g (fun z => ?_) zs
    have := hpos z
    simp only [sampler, boCreate, baseCreate, Option.getD_none, Option.getD_some, hg, Bind.bind, Except.bind, boPar, hasPlugin, acqInit,
      Bool.false_and, Bool.false_eq_true, if_false, Option.isSome_none, Bool.or_self]
    rw [if_pos (by positivity)]
  · intro a ha
    obtain ⟨z, _, rfl⟩ := List.mem_map.1 ha
    refine ⟨rfl, rfl, by have := hpos z; positivity, ?_⟩
    simp only [hg]
    rw [div_lt_one (hpos z)]
    have := Real.exp_pos ((al * 4 - 2) + 6 / 10 * z)
    linarith

/-- C78 fails for `UCB` with the default `acquisition_par`, which carries the key `t` of another class: the constructor succeeds, but every
batch ends in TypeError. -/
theorem c78_ucb_default_fails (mdl : AcqModel) (mn : Bool) (fmin fmax z : ℝ) (zs : List ℝ) :
    ∃ par, parallelInit .UCB none true mdl = .ok par ∧
      batchCreate { fn := .UCB, acqPar := par, minimize := mn, fmin, fmax, mdl } (z :: zs) = .error .typeError := by
  refine ⟨{ t := some 2, alpha := some (1 / 2) }, ?_, ?_⟩
  · simp [parallelInit, acqInit, emptyPar]
  · simp [batchCreate, List.mapM_cons, sampler, boCreate, baseCreate, boPar, hasPlugin, acqInit, Bind.bind, Except.bind]

/-- C78 fails for `EpsilonPI`: the constructor succeeds, but every batch ends in TypeError. -/
theorem c78_epsilon_pi_fails (mdl : AcqModel) (mn : Bool) (par : Option AcqPar) (fmin fmax z : ℝ) (zs : List ℝ) :
    ∃ p, parallelInit .EpsilonPI par true mdl = .ok p ∧
      batchCreate { fn := .EpsilonPI, acqPar := p, minimize := mn, fmin, fmax, mdl } (z :: zs) = .error .typeError := by
  refine ⟨_, by simp [parallelInit, acqInit, emptyPar]; rfl, ?_⟩
  simp [batchCreate, List.mapM_cons, sampler, Bind.bind, Except.bind]

/-- C78 fails for the class `ParallelBO` with `EI`, the default of the sequential optimiser, and without a model. -/
theorem c78_constructor_fails (par : Option AcqPar) (mdl : AcqModel) :
    (∀ hasModel, parallelInit .EI par hasModel mdl = .error .notImplemented) ∧
    parallelInit .MGFI par false mdl = .error .keyError := by
  refine ⟨fun _ => by simp [parallelInit], by simp [parallelInit]⟩

/-! ### C79: arrays of points -/

/-- C79 for `UCB`, and for at most one point: the values of the rows, in order. -/
theorem c79_rowwise_partial (a : Acq) (mdl : AcqModel) (ps : List AcqPred) (h : a.name = .UCB ∨ ps.length ≤ 1) :
    ∃ vs, acqCall a mdl ps = .ok vs ∧ vs.length = ps.length ∧ ∀ (i : ℕ) (p : AcqPred), ps[i]? = some p → vs[i]? = some (acqValue a mdl p) := by
  refine ⟨ps.map (acqValue a mdl), ?_, by simp, ?_⟩
  · obtain ⟨name, par, pl, mn⟩ := a
    rcases h with h | h
    · simp only at h; subst h; rfl
    · cases name <;> simp only [acqCall] <;> (try rw [if_neg (by omega)])
  · intro i p hp
    rw [List.getElem?_map, hp]; rfl

/-- C79 fails for all other classes: two points or more raise ValueError. -/
theorem c79_arrays_fail (a : Acq) (mdl : AcqModel) (ps : List AcqPred) (h : a.name ≠ .UCB) (hl : 2 ≤ ps.length) :
    acqCall a mdl ps = .error .valueError := by
  obtain ⟨name, par, pl, mn⟩ := a
  cases name <;> simp only [acqCall]
  · exact absurd rfl h
  all_goals exact if_pos hl

/-! ### The hypotheses can be met -/

example : ∃ a, acqInit .EI { plugin := some 3 } {} false = .ok a := ⟨_, by simp [acqInit]; rfl⟩

example : ∃ a, acqInit .MGFI { plugin := some 3, t := some 2 } { y := some [1, 2], sigma2 := some 4 } true = .ok a :=
  ⟨_, by simp [acqInit]; rfl⟩

/-- C73 at a point where the threshold is passed. -/
example : eiThreshold none ≤ Real.sqrt (1 / 4) := by
  rw [show (1 / 4 : ℝ) = (1 / 2) ^ 2 by norm_num, Real.sqrt_sq (by norm_num)]
  norm_num [eiThreshold]

/-- C76 for a mean and a variance that are not constant. -/
example : HasDerivAt (fun y : ℝ => y ^ 2) (2 * 3) 3 ∧ HasDerivAt (fun y : ℝ => 1 + y) 1 3 ∧ (0 : ℝ) < 1 + 3 ∧
    ¬ atKink .EpsilonPI {} ((3 : ℝ) ^ 2) (Real.sqrt (1 + 3)) := by
  refine ⟨?_, ?_, by norm_num, by simp [atKink]⟩
  · simpa using hasDerivAt_pow 2 (3 : ℝ)
  · exact (hasDerivAt_id (3 : ℝ)).const_add 1

/-- C78 for the default dictionary of `ParallelBO`. -/
example : ∃ par, parallelInit .MGFI none true {} = .ok par ∧ par.t = some 2 :=
  ⟨{ t := some 2 }, by simp [parallelInit, acqInit, emptyPar], rfl⟩

/-! ### The hypotheses of the theorems are met -/

private theorem sqrt_quarter : Real.sqrt (1 / 4) = 1 / 2 := by
  rw [show (1 / 4 : ℝ) = (1 / 2) ^ 2 by norm_num, Real.sqrt_sq (by norm_num)]

private theorem init_ei : acqInit .EI { plugin := some 3 } { sigma2 := some 4 } true = .ok { name := .EI, par := 0, plugin := some 3, minimize := true } := by
  simp [acqInit, setPlugin]

private theorem init_mgfi : acqInit .MGFI { plugin := some 3, t := some 2 } {} false = .ok { name := .MGFI, par := 2, plugin := some (-3), minimize := false } := by
  simp [acqInit, setPlugin]
  norm_num

private theorem init_epi : acqInit .EpsilonPI { plugin := some 3, epsilon := some (1 / 10) } {} true =
    .ok { name := .EpsilonPI, par := 1 / 10, plugin := some 3, minimize := true } := by
  simp [acqInit, setPlugin]

private theorem init_ucb : acqInit .UCB { alpha := some 2 } {} true = .ok { name := .UCB, par := 2, plugin := none, minimize := true } := by
  simp [acqInit]

example : ∃ a, acqInit .EpsilonPI emptyPar { y := some [1, 2] } false = .ok a := c36_defaults_construct_partial _ (by decide) _ _

/-- C73, EI: best value 3, predicted mean 1 and variance 1/4, process variance 4. -/
example : acqValue { name := .EI, par := 0, plugin := some 3, minimize := true } { sigma2 := some 4 } { mean := 1, mse := 1 / 4 } =
    some (expectedImprovement true 3 (predictive 1 (1 / 4))) := by
  refine c73_ei_is_expected_improvement_partial _ _ _ _ 3 { mean := 1, mse := 1 / 4 } init_ei rfl (by norm_num) ?_ ?_
  · intro v hv; cases hv; norm_num
  · rw [sqrt_quarter]
    simp only [eiThreshold]
    rw [show (4 : ℝ) = 2 ^ 2 by norm_num, Real.sqrt_sq (by norm_num)]
    norm_num

/-- C73, EI at a point without uncertainty. -/
example : acqValue { name := .EI, par := 0, plugin := some 3, minimize := true } { sigma2 := some 4 } { mean := 1, mse := 0 } = some 0 := by
  refine c73_ei_certain_is_zero _ _ _ _ { mean := 1, mse := 0 } init_ei ?_ ?_
  · intro v hv; cases hv; norm_num
  · simp [eiThreshold]

/-- C73, MGFI for maximisation. -/
example : acqValue { name := .MGFI, par := 2, plugin := some (-3), minimize := false } {} { mean := 1, mse := 1 / 4 } =
    some (momentOfImprovement false 3 (min 2 22.36) (predictive 1 (1 / 4))) :=
  c73_mgfi_is_moment_partial _ _ _ _ 3 2 { mean := 1, mse := 1 / 4 } init_mgfi rfl rfl (by rw [sqrt_quarter]; norm_num)

/-- C73, probability of improvement. -/
example : acqValue { name := .EpsilonPI, par := 1 / 10, plugin := some 3, minimize := true } {} { mean := 1, mse := 1 / 4 } =
    some (probabilityOfImprovement true 3 (1 / 10 * |1|) (predictive 1 (1 / 4))) :=
  c73_epsilon_pi_is_probability _ _ _ _ 3 (1 / 10) { mean := 1, mse := 1 / 4 } init_epi rfl rfl (by norm_num)

/-- C74: means 1 and 2 with the same variance. -/
example : ∃ v w, acqValue { name := .EpsilonPI, par := 1 / 10, plugin := some 3, minimize := true } {} { mean := 1, mse := 1 / 4 } = some v ∧
    acqValue { name := .EpsilonPI, par := 1 / 10, plugin := some 3, minimize := true } {} { mean := 2, mse := 1 / 4 } = some w ∧ w ≤ v :=
  c74_better_mean_ranks_higher_partial _ _ _ _ _ { mean := 1, mse := 1 / 4 } { mean := 2, mse := 1 / 4 } init_epi (by decide)
    (by intro e he; cases he; norm_num) (by norm_num) rfl (by norm_num [BetterOutcome])

example : ∃ v w, acqValue { name := .UCB, par := 2, plugin := none, minimize := true } {} { mean := 1, mse := 1 / 4 } = some v ∧
    acqValue { name := .UCB, par := 2, plugin := none, minimize := true } {} { mean := 2, mse := 1 / 4 } = some w ∧ v < w :=
  c74_ucb_ranks_backwards _ _ _ _ { mean := 1, mse := 1 / 4 } { mean := 2, mse := 1 / 4 } init_ucb rfl (by norm_num [BetterOutcome])

/-- C75: variances 1/4 and 1 with the same mean. -/
example : ∃ v w, acqValue { name := .EI, par := 0, plugin := some 3, minimize := true } { sigma2 := some 4 } { mean := 1, mse := 1 / 4 } = some v ∧
    acqValue { name := .EI, par := 0, plugin := some 3, minimize := true } { sigma2 := some 4 } { mean := 1, mse := 1 } = some w ∧ v ≤ w :=
  c75_ei_rewards_uncertainty _ _ _ _ { mean := 1, mse := 1 / 4 } { mean := 1, mse := 1 } init_ei (by intro v hv; cases hv; norm_num)
    (by norm_num) rfl (by norm_num)

example : ∃ v w, acqValue { name := .UCB, par := 2, plugin := none, minimize := true } {} { mean := 1, mse := 1 / 4 } = some v ∧
    acqValue { name := .UCB, par := 2, plugin := none, minimize := true } {} { mean := 1, mse := 1 } = some w ∧ v < w :=
  c75_ucb_rewards_uncertainty _ _ _ _ { mean := 1, mse := 1 / 4 } { mean := 1, mse := 1 } init_ucb (by norm_num) rfl (by norm_num)

/-- C76: probability of improvement for the mean `y ^ 2` and the variance `1 + y` at 3. -/
example : ∃ d, acqDx { name := .EpsilonPI, par := 1 / 10, plugin := some 3, minimize := true } {}
      { mean := (3 : ℝ) ^ 2, mse := 1 + 3, meanDx := 2 * 3, mseDx := 1 } = some d ∧
    HasDerivAt (fun y : ℝ => (acqValue { name := .EpsilonPI, par := 1 / 10, plugin := some 3, minimize := true } {}
      { mean := y ^ 2, mse := 1 + y }).getD 0) d 3 :=
  c76_gradient_correct _ _ _ _ _ (fun y => y ^ 2) (fun y => 1 + y) 3 (2 * 3) 1 init_epi (by intro v hv; cases hv)
    (by simpa using hasDerivAt_pow 2 (3 : ℝ)) ((hasDerivAt_id (3 : ℝ)).const_add 1) (by norm_num) (by simp [atKink])

example : acqDx { name := .UCB, par := 2, plugin := none, minimize := true } {} { mean := 1, mse := 0, meanDx := 1, mseDx := 1 } = none :=
  c76_ucb_gradient_undefined _ _ _ _ _ init_ucb rfl

private noncomputable def demoOpt (fn : AcqName) (par : AcqPar) : AcqOpt :=
  { fn := fn, acqPar := par, minimize := false, fmin := -1, fmax := 5, mdl := { y := some [-1, 5] } }

/-- C77 for a maximiser with best value 5. -/
example : ∃ a, singleCreate (demoOpt .MGFI { t := some 2 }) = .ok a ∧ a.plugin = some (-5) ∧ a.par = 1 := by
  obtain ⟨a, h1, -, -, h4, h5, -⟩ := c77_single_default_partial (demoOpt .MGFI { t := some 2 }) (Or.inr (Or.inl rfl))
  exact ⟨a, h1, by simpa [demoOpt] using h4, h5 rfl⟩

example : ∃ a, noisyCreate (demoOpt .EI {}) [-1, 4] none none = .ok a := by
  obtain ⟨a, -, h1, -⟩ := c77_noisy_plugin_partial (demoOpt .EI {}) [-1, 4] (by simp) (Or.inl rfl)
  exact ⟨a, h1⟩

/-- C78: three perturbations. -/
example : ∃ as, batchCreate (demoOpt .MGFI { t := some 2 }) [0, 1, -1] = .ok as ∧ as.length = 3 := by
  obtain ⟨as, h1, h2, -⟩ := c78_batch_mgfi_partial (demoOpt .MGFI { t := some 2 }) 2 (by norm_num) rfl rfl rfl rfl [0, 1, -1]
  exact ⟨as, h1, h2⟩

example : ∃ as, batchCreate (demoOpt .UCB { alpha := some 2 }) [0, 1, -1] = .ok as ∧ as.length = 3 := by
  obtain ⟨as, h1, h2, -⟩ := c78_batch_ucb_partial (demoOpt .UCB { alpha := some 2 }) 2 rfl rfl [0, 1, -1]
  exact ⟨as, h1, h2⟩

/-- C79: two rows. -/
example : ∃ vs, acqCall { name := .UCB, par := 2, plugin := none, minimize := true } {} [{ mean := 1, mse := 1 }, { mean := 2, mse := 0 }] = .ok vs ∧
    vs.length = 2 := by
  obtain ⟨vs, h1, h2, -⟩ := c79_rowwise_partial { name := .UCB, par := 2, plugin := none, minimize := true } {}
    [{ mean := 1, mse := 1 }, { mean := 2, mse := 0 }] (Or.inl rfl)
  exact ⟨vs, h1, h2⟩

example : acqCall { name := .EI, par := 0, plugin := some 3, minimize := true } {} [{ mean := 1, mse := 1 }, { mean := 2, mse := 0 }] =
    .error .valueError := c79_arrays_fail _ _ _ (by decide) (by simp)

end Verif.Props
