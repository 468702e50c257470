import Verif.Proofs.SkGpr

/-!
# The wrapper of scikit-learn's Gaussian processes

C115: the gradients are the derivatives of the predictions.  C116: every objective is predicted from its own column, with a variance above the noise.
-/
namespace Verif.Props

open Verif.Model Verif.Spec Verif.Proofs Matrix

variable {n N : ℕ}

/-- A regressor with one data point, used to show that the hypotheses can be met. -/
noncomputable def oneSample (n : ℕ) (kernel : SkKernel) : SkGp n 1 where
  kernel := kernel
  sigma2 := 1
  lengthScale := fun _ => 1
  noise := 1
  xTrain := fun _ _ => 0
  alpha := fun _ => 1
  L := fun _ _ => Real.sqrt (2 + 1 / 10 ^ 8)
  yMean := 5
  yStd := 1

theorem oneSample_fitted (n : ℕ) (kernel : SkKernel) : FittedRegressor (oneSample n kernel) where
  scale_pos := fun _ => one_pos
  sigma_pos := one_pos
  noise_pos := one_pos
  chol := by
    refine ⟨fun i j h => by omega, fun i => Real.sqrt_pos.2 (by norm_num), ?_⟩
    ext i j
    have h := Real.mul_self_sqrt (show (0 : ℝ) ≤ 2 + 1 / 10 ^ 8 by norm_num)
    fin_cases i; fin_cases j
    have e := skCov_self (oneSample n kernel) ((oneSample n kernel).xTrain 0)
    rw [Matrix.mul_apply, Matrix.add_apply, Matrix.smul_apply]
    simp only [Fin.zero_eta, Finset.univ_unique, Fin.default_eq_zero, Finset.sum_singleton, transpose_apply, of_apply, one_apply_eq, smul_eq_mul, e]
    show Real.sqrt (2 + 1 / 10 ^ 8) * Real.sqrt (2 + 1 / 10 ^ 8) = 1 + (1 + 1 / 10 ^ 8) * 1
    rw [h]
    norm_num

/-- A training routine that always returns such a regressor. -/
noncomputable def oneSampleTrain (n : ℕ) : SkKernel → List (List ℝ) → List ℝ → Option (SkTrained n) := fun kernel _ _ => some ⟨oneSample n kernel⟩

theorem oneSampleTrain_ok (n : ℕ) : TrainsRegressors (oneSampleTrain n) := by
  intro kernel X y t h
  have := (Option.some.inj h).symm
  subst this
  exact ⟨rfl, oneSample_fitted n kernel⟩

/-! ### C115 -/

/-- **C115.** `kernel_dx` is the gradient of the kernel: for the Matérn kernels with `nu = 1.5` and `nu = 2.5` at every point, the training points
included, and for `nu = 0.5` at every point that is not a training point. -/
theorem c115_kernel_gradient_partial (g : SkGp n N) (hp : ∀ k, 0 < g.lengthScale k) (nu : MaternNu) (hk : g.kernel = .matern nu) (x y : Fin n → ℝ)
    (hxy : nu = .half → x ≠ y) (k : Fin n) : PartialDerivative (fun z => skCov g z y) x k (skKernelDx g x y k) := by
  cases nu with
  | half => exact skKernelDx_half hp hk (hxy rfl) k
  | threeHalves => exact skKernelDx_smooth hp (.inl hk) x y k
  | fiveHalves => exact skKernelDx_smooth hp (.inr hk) x y k

/-- The derivative of the squared-exponential kernel is the value of `kernel_dx` times the distance: the code has lost a factor. -/
theorem c115_rbf_wrong (g : SkGp n N) (hp : ∀ k, 0 < g.lengthScale k) (hs : 0 < g.sigma2) (hk : g.kernel = .rbf) (x y : Fin n → ℝ) (k : Fin n) :
    PartialDerivative (fun z => skCov g z y) x k (skKernelDx g x y k) ↔ skDist g x y = 1 ∨ x k = y k := by
  have h := skCov_rbf_derivative hp hk x y k
  constructor
  · intro h'
    have e := HasDerivAt.unique h h'
    by_cases h0 : skDist g x y = 0
    · exact .inr (congrFun (skDist_zero hp h0) k)
    have h1 : (skDist g x y - 1) * skKernelDx g x y k = 0 := by linear_combination e
    rcases mul_eq_zero.1 h1 with h1 | h1
    · exact .inl (by linarith)
    · right
      simp only [skKernelDx, hk, skRatio] at h1
      have := (hp k).ne'
      have h2 := (Real.exp_pos (-0.5 * skDist g x y ^ 2)).ne'
      rcases mul_eq_zero.1 h1 with h3 | h3
      · rcases mul_eq_zero.1 h3 with h4 | h4
        · linarith
        · exact absurd h4 h2
      · rcases div_eq_zero_iff.1 h3 with h4 | h4
        · linarith
        · exact absurd h4 (mul_ne_zero h0 (pow_ne_zero _ this))
  · rintro (h1 | h1)
    · rw [h1, one_mul] at h; exact h
    · have e : skKernelDx g x y k = 0 := by simp [skKernelDx, hk, skRatio, h1]
      rw [e, mul_zero] at h
      rw [e]; exact h

/-- **C115.** After any history of calls of `fit` (successful or not) and of `gradient`, a call of `gradient` on rows `X` returns, for every objective
`i` and every row `j`, the partial derivatives of what `predict` returns there for mean and variance — unless there is one variable and the number of
rows is not one. -/
theorem c115_gradient_partial (train : SkKernel → List (List ℝ) → List ℝ → Option (SkTrained n)) (ht : TrainsRegressors train) (nObj : ℕ)
    (calls : List (SkCall n)) (X : List (Fin n → ℝ)) (hX : ¬ (n = 1 ∧ X.length ≠ 1))
    (hfit : (skRun train (skInit n nObj) calls).gprs.isSome) :
    ∃ G, (skGradientCall (skRun train (skInit n nObj) calls) X).2 = some G ∧
      ∃ P : (Fin n → ℝ) → ℕ → ℝ × ℝ, (∀ x, skPredictAt (skRun train (skInit n nObj) calls) x = some (P x)) ∧
        ∀ i, i < nObj → ∀ j (hj : j < X.length), ∀ k,
          PartialDerivative (fun x => (P x i).1) X[j] k ((G i j).1 k) ∧ PartialDerivative (fun x => (P x i).2) X[j] k ((G i j).2 k) := by
  obtain ⟨hinv, -⟩ := skRun_inv ht calls (s := skInit n nObj) (by intro gs h; simp [skInit] at h)
  generalize skRun train (skInit n nObj) calls = s at *
  obtain ⟨gs, hg⟩ := Option.isSome_iff_exists.1 hfit
  obtain ⟨-, h2⟩ := hinv gs hg
  have hv := skGradientLoop_value X ((skAssignOk_iff _ _).2 hX) gs
  refine ⟨fun i j => ((gs.map fun o => X.map o.cache.grad).getD i []).getD j (0, 0), ?_,
    fun x i => (gs[i]?.map fun o => skPredict o.gp x).getD (0, 0), ?_, ?_⟩
  · unfold skGradientCall
    rw [hg]
    show (skGradientLoop X gs).2.map _ = _
    rw [hv]
    rfl
  · intro x
    unfold skPredictAt
    rw [hg]
    rfl
  · intro i _ j hj k
    beta_reduce
    by_cases hi : i < gs.length
    · have ho := h2 gs[i] (List.getElem_mem hi)
      have ei : gs[i]? = some gs[i] := List.getElem?_eq_getElem hi
      have ej : X[j]? = some X[j] := List.getElem?_eq_getElem hj
      generalize gs[i] = o at ho ei
      generalize X[j] = x at ej
      have hd : ∀ l, PartialDerivative (fun x => skCov o.gp x (o.gp.xTrain l)) x k (skKernelDx o.gp x (o.gp.xTrain l) k) :=
        fun l => skKernelDx_smooth ho.2.1.scale_pos (.inl ho.1) _ _ k
      have e1 : ((gs.map fun o => X.map o.cache.grad).getD i []).getD j (0, 0) = skGradient o.gp (skKInv o.gp) x := by
        rw [List.getD_eq_getElem?_getD, List.getD_eq_getElem?_getD, List.getElem?_map, ei, Option.map_some, Option.getD_some, List.getElem?_map, ej,
          Option.map_some, Option.getD_some, cache_kInv o ho.2.2]
      have e2 : ∀ z, (gs[i]?.map fun o => skPredict o.gp z).getD (0, 0) = (skMean o.gp z, o.gp.yStd ^ 2 * skVarRaw o.gp z) := by
        intro z
        rw [ei, Option.map_some, Option.getD_some, skPredict_eq ho.2.1]
      simp only [e1, e2]
      exact ⟨skMean_partial hd _, skVarRaw_partial hd⟩
    · have hi : gs.length ≤ i := by omega
      simp only [List.getD_eq_getElem?_getD, List.getElem?_map, List.getElem?_eq_none hi, Option.map_none, Option.getD_none,
        List.getElem?_nil]
      exact ⟨hasDerivAt_const _ _, hasDerivAt_const _ _⟩

example : (skRun (oneSampleTrain 2) (skInit 2 1) [.fit 2 [[0, 0]] (.vector [1]), .gradient [fun _ => 3]]).gprs.isSome := by
  simp [skRun, skStep, skFit, skCheckDims, skInit, skFitLoop, oneSampleTrain, skGradientCall]

example : ¬ ((2 : ℕ) = 1 ∧ [fun _ : Fin 2 => (1 : ℝ), fun _ => 2].length ≠ 1) := by simp

/-- With one variable and a number of rows other than one, `gradient` of a fitted model raises, whatever was fitted. -/
theorem c115_one_variable_raises (train : SkKernel → List (List ℝ) → List ℝ → Option (SkTrained 1)) (nObj : ℕ) (calls : List (SkCall 1))
    (X : List (Fin 1 → ℝ)) (hX : X.length ≠ 1) (gs : List (SkObj 1)) (hg : (skRun train (skInit 1 nObj) calls).gprs = some gs) (hne : gs ≠ []) :
    (skGradientCall (skRun train (skInit 1 nObj) calls) X).2 = none := by
  unfold skGradientCall
  rw [hg]
  obtain ⟨o, rest, rfl⟩ := List.exists_cons_of_ne_nil hne
  have : ¬ skAssignOk X.length 1 = true := by rw [skAssignOk_iff]; tauto
  show (skGradientLoop X (o :: rest)).2.map _ = none
  unfold skGradientLoop
  rw [if_neg this]
  rfl

/-- **C115 refuted.** A fitted model of one variable has no gradient at two points. -/
theorem c115_refuted : ∃ train : SkKernel → List (List ℝ) → List ℝ → Option (SkTrained 1), TrainsRegressors train ∧
    ∃ calls : List (SkCall 1), (skRun train (skInit 1 1) calls).isFitted = true ∧
      ∃ X : List (Fin 1 → ℝ), (∀ x ∈ X, (skPredictAt (skRun train (skInit 1 1) calls) x).isSome) ∧
        (skGradientCall (skRun train (skInit 1 1) calls) X).2 = none := by
  refine ⟨oneSampleTrain 1, oneSampleTrain_ok 1, [.fit 1 [[0]] (.vector [1])], ?_, [fun _ => 1, fun _ => 2], ?_, ?_⟩
  · simp [skRun, skStep, skFit, skCheckDims, skInit, skFitLoop, oneSampleTrain]
  · intro x _
    simp [skRun, skStep, skFit, skCheckDims, skInit, skFitLoop, oneSampleTrain, skPredictAt]
  · refine c115_one_variable_raises _ 1 [.fit 1 [[0]] (.vector [1])] _ (by simp) [⟨oneSample 1 (.matern .threeHalves), none⟩] ?_ (by simp)
    simp [skRun, skStep, skFit, skCheckDims, skInit, skFitLoop, oneSampleTrain, skKernels, List.range_succ]

/-! ### C116 -/

private theorem skFitLoop_done {train : SkKernel → List (List ℝ) → List ℝ → Option (SkTrained n)} {X : List (List ℝ)} {y : SkTargets} (l : List ℕ)
    (acc : List (SkObj n)) (h : (skFitLoop train X y l acc).2 = true) :
    (skFitLoop train X y l acc).1.length = acc.length + l.length ∧
    (∀ i (hi : i < acc.length), (skFitLoop train X y l acc).1[i]? = some acc[i]) ∧
    ∀ i (hi : i < l.length), ∃ t, train (.matern .threeHalves) X (y.column l[i]) = some t ∧
      (skFitLoop train X y l acc).1[acc.length + i]? = some ⟨t.gp, none⟩ := by
  induction l generalizing acc with
  | nil => exact ⟨by simp [skFitLoop], by intro i hi; simp [skFitLoop, hi], by simp⟩
  | cons a rest ih =>
    unfold skFitLoop at h ⊢
    cases e : train (skKernels.getD 0 .rbf) X (y.column a) with
    | none => rw [e] at h; simp at h
    | some t =>
      rw [e] at h
      obtain ⟨h1, h2, h3⟩ := ih _ h
      dsimp only at h1 h2 h3 ⊢
      refine ⟨by rw [h1]; simp; omega, fun i hi => ?_, fun i hi => ?_⟩
      · rw [h2 i (by simp; omega), List.getElem_append_left hi]
      · cases i with
        | zero =>
          refine ⟨t, e, ?_⟩
          have := h2 acc.length (by simp)
          simpa using this
        | succ i =>
          obtain ⟨t', e', h4⟩ := h3 i (by simpa using hi)
          refine ⟨t', by simpa using e', ?_⟩
          rw [← h4]
          congr 1
          simp; omega

/-- **C116.** A call of `fit` that returns leaves a model in which objective `i` is predicted by the regressor trained on the `i`-th column (on the vector,
if there is one objective), with a variance that is at least the fitted noise; and a call whose dimensions do not match raises and changes nothing. -/
theorem c116_columns_partial (train : SkKernel → List (List ℝ) → List ℝ → Option (SkTrained n)) (ht : TrainsRegressors train) (s : SkWrapper n)
    (width : ℕ) (X : List (List ℝ)) (y : SkTargets) :
    ((skFit train s width X y).2 = true → (skFit train s width X y).1.isFitted = true ∧
      ∀ i, i < s.nObj → ∃ t, train (.matern .threeHalves) X (y.column i) = some t ∧
        ∀ x, ∃ P, skPredictAt (skFit train s width X y).1 x = some P ∧ P i = skPredict t.gp x ∧ t.gp.yStd ^ 2 * t.gp.noise ≤ (P i).2) ∧
    ((width ≠ n ∨ (∃ v, y = .vector v ∧ s.nObj ≠ 1) ∨ (∃ q r, y = .table q r ∧ s.nObj ≠ q)) → skFit train s width X y = (s, false)) := by
  constructor
  · intro h
    unfold skFit at h ⊢
    split_ifs at h ⊢ with hc
    · dsimp only at h ⊢
      rw [if_pos h]
      refine ⟨rfl, fun i hi => ?_⟩
      obtain ⟨-, -, h3⟩ := skFitLoop_done (List.range s.nObj) [] h
      obtain ⟨t, e, h4⟩ := h3 i (by simpa using hi)
      simp only [List.getElem_range] at e
      refine ⟨t, e, fun x => ⟨_, rfl, ?_⟩⟩
      have e2 : ((skFitLoop train X y (List.range s.nObj) []).1[i]?.map fun o => skPredict o.gp x).getD (0, 0) = skPredict t.gp x := by
        simp only [List.length_nil, zero_add] at h4
        rw [h4]; rfl
      beta_reduce
      rw [e2]
      refine ⟨rfl, ?_⟩
      have hf := (ht _ _ _ _ e).2
      rw [skPredict_eq hf]
      exact mul_le_mul_of_nonneg_left (skVarRaw_ge hf x) (sq_nonneg _)
  · intro h
    unfold skFit
    rw [if_neg]
    unfold skCheckDims
    rcases h with h | ⟨v, rfl, h⟩ | ⟨q, r, rfl, h⟩
    · rw [if_pos (Ne.symm h)]; simp
    · split_ifs <;> simp [h]
    · split_ifs <;> simp [h]

example : (skFit (oneSampleTrain 2) (skInit 2 2) 2 [[0, 0]] (.table 2 [[1, 2]])).2 = true := by
  simp [skFit, skCheckDims, skInit, skFitLoop, oneSampleTrain, List.range_succ]

/-- A training routine that fails on the second column of one table. -/
noncomputable def failsOnTwo (n : ℕ) : SkKernel → List (List ℝ) → List ℝ → Option (SkTrained n) := fun kernel _ y =>
  open Classical in if y = [2] then none else some ⟨oneSample n kernel⟩

/-- **C116 refuted.** A call of `fit` that raises half way destroys the model: the object still says that it is fitted, and `predict` returns mean zero
with variance zero for the objectives that were not trained, although every regressor predicts a positive variance. -/
theorem c116_refuted : ∃ train : SkKernel → List (List ℝ) → List ℝ → Option (SkTrained 1), TrainsRegressors train ∧
    ∃ s : SkWrapper 1, s = skRun train (skInit 1 2) [.fit 1 [[0]] (.table 2 [[1, 1]])] ∧
      (∀ x, ∃ P, skPredictAt s x = some P ∧ 1 ≤ (P 1).2) ∧
      (skFit train s 1 [[0]] (.table 2 [[1, 2]])).2 = false ∧ (skFit train s 1 [[0]] (.table 2 [[1, 2]])).1.isFitted = true ∧
      ∀ x, ∃ P, skPredictAt (skFit train s 1 [[0]] (.table 2 [[1, 2]])).1 x = some P ∧ P 1 = (0, 0) := by
  have ht : TrainsRegressors (failsOnTwo 1) := by
    intro kernel X y t h
    unfold failsOnTwo at h
    split_ifs at h
    have := (Option.some.inj h).symm
    subst this
    exact ⟨rfl, oneSample_fitted 1 kernel⟩
  have e1 : ∀ k X, failsOnTwo 1 k X [1] = some ⟨oneSample 1 k⟩ := fun k X => by simp [failsOnTwo]
  have e2 : ∀ k X, failsOnTwo 1 k X [2] = none := fun k X => by simp [failsOnTwo]
  refine ⟨failsOnTwo 1, ht, _, rfl, ?_, ?_, ?_, ?_⟩
  · intro x
    refine ⟨fun i => (([⟨oneSample 1 (.matern .threeHalves), none⟩, ⟨oneSample 1 (.matern .threeHalves), none⟩] : List (SkObj 1))[i]?.map
      fun o => skPredict o.gp x).getD (0, 0), ?_, ?_⟩
    · simp [skPredictAt, skRun, skStep, skFit, skCheckDims, skInit, skFitLoop, e1, List.range_succ, SkTargets.column, skKernels]
    · have := skVarRaw_ge (oneSample_fitted 1 (.matern .threeHalves)) x
      simp only [List.getElem?_cons_succ, List.getElem?_cons_zero, Option.map_some, Option.getD_some, skPredict_eq (oneSample_fitted 1 _)]
      simpa [oneSample] using this
  · simp [skRun, skStep, skFit, skCheckDims, skInit, skFitLoop, e1, e2, List.range_succ, SkTargets.column]
  · simp [skRun, skStep, skFit, skCheckDims, skInit, skFitLoop, e1, e2, List.range_succ, SkTargets.column]
  · intro x
    refine ⟨_, rfl, ?_⟩
    simp [skRun, skStep, skFit, skCheckDims, skInit, skFitLoop, e1, e2, List.range_succ, SkTargets.column]

end Verif.Props
