import Verif.Spec.SkGpr
import Verif.Proofs.Kernels
import Verif.Proofs.Gpr
import Mathlib.Analysis.Calculus.FDeriv.Extend
import Mathlib.Algebra.BigOperators.Option

/-!
# Lemmas for the wrapper of scikit-learn's Gaussian processes
-/
namespace Verif.Proofs

open Verif.Model Verif.Spec Matrix Set Filter Topology

variable {n N : ℕ}

/-! ### The kernels as functions of the squared distance -/

theorem skDist_eq (g : SkGp n N) (x y : Fin n → ℝ) : skDist g x y = Real.sqrt (sqDist (fun k => 1 / g.lengthScale k ^ 2) x y) := by
  unfold skDist sqDist
  congr 1
  refine Finset.sum_congr rfl fun k _ => ?_
  rw [← sub_div, div_pow]; ring

theorem inv_scale_nonneg (g : SkGp n N) (k : Fin n) : 0 ≤ 1 / g.lengthScale k ^ 2 := by positivity

theorem skDist_sq (g : SkGp n N) (x y : Fin n → ℝ) : skDist g x y ^ 2 = sqDist (fun k => 1 / g.lengthScale k ^ 2) x y := by
  rw [skDist_eq, Real.sq_sqrt (sqDist_nonneg (inv_scale_nonneg g) _ _)]

theorem hasDerivAt_sqDist (th x y : Fin n → ℝ) (k : Fin n) :
    HasDerivAt (fun t => sqDist th (Function.update x k t) y) (2 * (th k * (x k - y k))) (x k) := by
  have h : ∀ l ∈ Finset.univ, HasDerivAt (fun t => th l * (Function.update x k t l - y l) ^ 2)
      (if l = k then 2 * (th k * (x k - y k)) else 0) (x k) := by
    intro l _
    by_cases e : l = k
    · subst e
      simp only [Function.update_self, if_true]
      refine ((((hasDerivAt_id (x l)).sub_const (y l)).pow 2).const_mul (th l)).congr_deriv ?_
      simp; ring
    · simp only [Function.update_of_ne e, if_neg e]
      exact hasDerivAt_const _ _
  have := HasDerivAt.fun_sum h
  simpa [sqDist] using this

/-- The derivative with respect to the squared distance extends to zero. -/
theorem hasDerivWithin_extend {f f' : ℝ → ℝ} (hf : Continuous f) (hd : ∀ s, 0 < s → HasDerivAt f (f' s) s) (hc : Continuous f') {s : ℝ} (hs : 0 ≤ s) :
    HasDerivWithinAt f (f' s) (Ici 0) s := by
  rcases hs.lt_or_eq with h | h
  · exact (hd s h).hasDerivWithinAt
  · subst h
    refine hasDerivWithinAt_Ici_of_tendsto_deriv (s := Ioi 0) ?_ hf.continuousWithinAt self_mem_nhdsWithin ?_
    · exact fun x hx => (hd x hx).differentiableAt.differentiableWithinAt
    · refine (hc.continuousWithinAt (s := Ioi 0) (x := 0)).congr' ?_
      exact eventually_nhdsWithin_of_forall fun x hx => (hd x hx).deriv.symm

theorem hasDerivWithin_matern32 {s : ℝ} (hs : 0 ≤ s) :
    HasDerivWithinAt (fun s => maternValue .threeHalves (Real.sqrt s)) (-(3 / 2) * Real.exp (-(Real.sqrt 3 * Real.sqrt s))) (Ici 0) s := by
  refine hasDerivWithin_extend (f' := fun s => -(3 / 2) * Real.exp (-(Real.sqrt 3 * Real.sqrt s))) ?_ (fun s h => hasDerivAt_matern32 h) ?_ hs
  · unfold maternValue; fun_prop
  · fun_prop

theorem hasDerivAt_matern52 {s : ℝ} (hs : 0 < s) :
    HasDerivAt (fun s => maternValue .fiveHalves (Real.sqrt s))
      (-(5 / 6) * (1 + Real.sqrt 5 * Real.sqrt s) * Real.exp (-(Real.sqrt 5 * Real.sqrt s))) s := by
  have h5 : Real.sqrt 5 * Real.sqrt 5 = 5 := Real.mul_self_sqrt (by norm_num)
  have hr : Real.sqrt s ≠ 0 := (Real.sqrt_pos.2 hs).ne'
  have h1 := ((hasDerivAt_id s).sqrt hs.ne').mul_const (Real.sqrt 5)
  have := ((h1.const_add 1).add ((h1.pow 2).div_const 3)).mul h1.neg.exp
  unfold maternValue
  refine this.congr_deriv ?_
  simp only [id, Pi.neg_apply, Pi.add_apply, Pi.pow_apply]
  rw [mul_comm (Real.sqrt 5) (Real.sqrt s)]
  have h55 : Real.sqrt 5 ^ 3 = 5 * Real.sqrt 5 := by rw [pow_succ, sq, h5]
  have h25 : Real.sqrt 5 ^ 2 = 5 := by rw [sq, h5]
  push_cast
  field_simp
  ring_nf
  rw [h55, h25]
  ring

theorem hasDerivWithin_matern52 {s : ℝ} (hs : 0 ≤ s) :
    HasDerivWithinAt (fun s => maternValue .fiveHalves (Real.sqrt s))
      (-(5 / 6) * (1 + Real.sqrt 5 * Real.sqrt s) * Real.exp (-(Real.sqrt 5 * Real.sqrt s))) (Ici 0) s := by
  refine hasDerivWithin_extend (f' := fun s => -(5 / 6) * (1 + Real.sqrt 5 * Real.sqrt s) * Real.exp (-(Real.sqrt 5 * Real.sqrt s))) ?_
    (fun s h => hasDerivAt_matern52 h) ?_ hs
  · unfold maternValue; fun_prop
  · fun_prop

theorem partial_of_sqDist {φ : ℝ → ℝ} {φ' : ℝ} (g : SkGp n N) (x y : Fin n → ℝ) (k : Fin n)
    (h : HasDerivWithinAt φ φ' (Ici 0) (sqDist (fun k => 1 / g.lengthScale k ^ 2) x y)) :
    PartialDerivative (fun x => φ (sqDist (fun k => 1 / g.lengthScale k ^ 2) x y)) x k
      (φ' * (2 * (1 / g.lengthScale k ^ 2 * (x k - y k)))) := by
  have e : sqDist (fun k => 1 / g.lengthScale k ^ 2) (Function.update x k (x k)) y = sqDist (fun k => 1 / g.lengthScale k ^ 2) x y := by
    rw [Function.update_eq_self]
  have h2 := hasDerivAt_sqDist (fun k => 1 / g.lengthScale k ^ 2) x y k
  rw [← e] at h
  have := h.comp_hasDerivAt (x k) h2 (.of_forall fun t => sqDist_nonneg (inv_scale_nonneg g) _ _)
  exact this

theorem skDist_zero {g : SkGp n N} (hp : ∀ k, 0 < g.lengthScale k) {x y : Fin n → ℝ} (h : skDist g x y = 0) : x = y := by
  have h2 := skDist_sq g x y
  rw [h] at h2
  have h3 : ∀ k ∈ Finset.univ, 1 / g.lengthScale k ^ 2 * (x k - y k) ^ 2 = 0 :=
    (Finset.sum_eq_zero_iff_of_nonneg fun k _ => mul_nonneg (inv_scale_nonneg g k) (sq_nonneg _)).1 (by simpa [sqDist] using h2.symm)
  funext k
  have h4 := h3 k (Finset.mem_univ k)
  have := hp k
  have h5 : (x k - y k) ^ 2 = 0 := by
    rcases mul_eq_zero.1 h4 with h | h
    · exact absurd h (by positivity)
    · exact h
  exact sub_eq_zero.1 (pow_eq_zero_iff (two_ne_zero) |>.1 h5)

theorem dist_mul_ratio {g : SkGp n N} (hp : ∀ k, 0 < g.lengthScale k) (x y : Fin n → ℝ) (k : Fin n) :
    skDist g x y * skRatio g x y k = 1 / g.lengthScale k ^ 2 * (x k - y k) := by
  have := (hp k).ne'
  unfold skRatio
  by_cases h : skDist g x y = 0
  · rw [h, skDist_zero hp h]; simp
  · field_simp

/-- The smooth kernels: `kernel_dx` is the derivative everywhere. -/
theorem skKernelDx_smooth {g : SkGp n N} (hp : ∀ k, 0 < g.lengthScale k)
    (hk : g.kernel = .matern .threeHalves ∨ g.kernel = .matern .fiveHalves) (x y : Fin n → ℝ) (k : Fin n) :
    PartialDerivative (fun x => skCov g x y) x k (skKernelDx g x y k) := by
  have hd := dist_mul_ratio hp x y k
  have hn := sqDist_nonneg (inv_scale_nonneg g) x y
  rcases hk with hk | hk
  · have h := (partial_of_sqDist g x y k (hasDerivWithin_matern32 hn))
    have h2 := HasDerivAt.const_mul g.sigma2 h
    simp only [PartialDerivative, skCov, skKernelDx, hk, skDist_eq]
    refine h2.congr_deriv ?_
    rw [← hd, ← skDist_eq, neg_mul (Real.sqrt 3)]
    ring
  · have h := (partial_of_sqDist g x y k (hasDerivWithin_matern52 hn))
    have h2 := HasDerivAt.const_mul g.sigma2 h
    simp only [PartialDerivative, skCov, skKernelDx, hk, skDist_eq]
    refine h2.congr_deriv ?_
    rw [← hd, ← skDist_eq, neg_mul (Real.sqrt 5)]
    ring

theorem skKernelDx_half {g : SkGp n N} (hp : ∀ k, 0 < g.lengthScale k) (hk : g.kernel = .matern .half) {x y : Fin n → ℝ} (hxy : x ≠ y)
    (k : Fin n) : PartialDerivative (fun x => skCov g x y) x k (skKernelDx g x y k) := by
  have hd := dist_mul_ratio hp x y k
  have hne : skDist g x y ≠ 0 := fun h => hxy (skDist_zero hp h)
  have hs : 0 < sqDist (fun k => 1 / g.lengthScale k ^ 2) x y := by
    rw [← skDist_sq]; positivity
  have h1 : HasDerivAt (fun s => maternValue .half (Real.sqrt s)) (-(1 / (2 * Real.sqrt (sqDist (fun k => 1 / g.lengthScale k ^ 2) x y))) *
      Real.exp (-Real.sqrt (sqDist (fun k => 1 / g.lengthScale k ^ 2) x y))) (sqDist (fun k => 1 / g.lengthScale k ^ 2) x y) := by
    generalize sqDist (fun k => 1 / g.lengthScale k ^ 2) x y = u at hs
    refine ((hasDerivAt_id u).sqrt hs.ne').neg.exp.congr_deriv ?_
    simp only [id, Pi.neg_apply]
    ring
  have h := partial_of_sqDist g x y k h1.hasDerivWithinAt
  have h2 := HasDerivAt.const_mul g.sigma2 h
  simp only [PartialDerivative, skCov, skKernelDx, hk, skDist_eq]
  refine h2.congr_deriv ?_
  rw [← skDist_eq, ← hd]
  field_simp

theorem skCov_rbf_derivative {g : SkGp n N} (hp : ∀ k, 0 < g.lengthScale k) (hk : g.kernel = .rbf) (x y : Fin n → ℝ) (k : Fin n) :
    PartialDerivative (fun x => skCov g x y) x k (skDist g x y * skKernelDx g x y k) := by
  have hd := dist_mul_ratio hp x y k
  have h1 : HasDerivAt (fun s : ℝ => Real.exp (-0.5 * s)) (-0.5 * Real.exp (-0.5 * sqDist (fun k => 1 / g.lengthScale k ^ 2) x y))
      (sqDist (fun k => 1 / g.lengthScale k ^ 2) x y) := by
    refine ((hasDerivAt_id _).const_mul (-0.5 : ℝ)).exp.congr_deriv ?_
    simp only [id]
    ring
  have h := partial_of_sqDist g x y k h1.hasDerivWithinAt
  have h2 := HasDerivAt.const_mul g.sigma2 h
  simp only [PartialDerivative, skCov, skKernelDx, hk, skDist_sq]
  refine h2.congr_deriv ?_
  rw [← hd]
  ring

/-! ### Mean and variance -/

theorem skKInv_eq (g : SkGp n N) : skKInv g = (g.L * g.Lᵀ)⁻¹ := by
  unfold skKInv
  rw [Matrix.mul_inv_rev, transpose_nonsing_inv, transpose_transpose]

theorem skKInv_symm (g : SkGp n N) : (skKInv g)ᵀ = skKInv g := by
  unfold skKInv
  rw [transpose_mul, transpose_transpose]

theorem skMean_partial {g : SkGp n N} {x : Fin n → ℝ} {k : Fin n}
    (h : ∀ i, PartialDerivative (fun x => skCov g x (g.xTrain i)) x k (skKernelDx g x (g.xTrain i) k)) (kInv) :
    PartialDerivative (skMean g) x k ((skGradient g kInv x).1 k) := by
  have h1 : HasDerivAt (fun t => ∑ i, skCov g (Function.update x k t) (g.xTrain i) * g.alpha i)
      (∑ i, skKernelDx g x (g.xTrain i) k * g.alpha i) (x k) := HasDerivAt.fun_sum fun i _ => (h i).mul_const _
  exact (h1.const_mul g.yStd).add_const g.yMean

theorem skVarRaw_partial {g : SkGp n N} {x : Fin n → ℝ} {k : Fin n}
    (h : ∀ i, PartialDerivative (fun x => skCov g x (g.xTrain i)) x k (skKernelDx g x (g.xTrain i) k)) :
    PartialDerivative (fun x => g.yStd ^ 2 * skVarRaw g x) x k ((skGradient g (skKInv g) x).2 k) := by
  set A := skKInv g with hA
  have e : ∀ z, g.yStd ^ 2 * skVarRaw g z = g.yStd ^ 2 * (g.sigma2 + g.noise - ∑ i, ∑ j, skCov g z (g.xTrain i) * (A i j * skCov g z (g.xTrain j))) := by
    intro z
    unfold skVarRaw
    rw [← skKInv_eq, ← hA]
    simp only [dotProduct, mulVec, skCovVec, Finset.mul_sum]
  unfold PartialDerivative
  simp only [e]
  set v := fun i => skCov g x (g.xTrain i) with hv
  set d := fun i => skKernelDx g x (g.xTrain i) k with hd
  have h1 : HasDerivAt (fun t => ∑ i, ∑ j, skCov g (Function.update x k t) (g.xTrain i) * (A i j * skCov g (Function.update x k t) (g.xTrain j)))
      (∑ i, ∑ j, (d i * (A i j * v j) + v i * (A i j * d j))) (x k) := by
    refine HasDerivAt.fun_sum fun i _ => HasDerivAt.fun_sum fun j _ => ?_
    refine ((h i).mul ((h j).const_mul (A i j))).congr_deriv ?_
    simp only [Function.update_eq_self, hd, hv]
  refine ((h1.const_sub (g.sigma2 + g.noise)).const_mul (g.yStd ^ 2)).congr_deriv ?_
  have hs : ∀ i j, A i j = A j i := fun i j => by
    have := congrFun (congrFun (skKInv_symm g) j) i
    rw [← hA] at this
    simpa [transpose_apply] using this
  have h2 : ∑ i, ∑ j, v i * (A i j * d j) = ∑ i, ∑ j, d i * (A i j * v j) := by
    rw [Finset.sum_comm]
    refine Finset.sum_congr rfl fun i _ => Finset.sum_congr rfl fun j _ => ?_
    rw [hs j i]; ring
  have h3 : ((skKernelDxMat g x * A) *ᵥ skCovVec g x) k = ∑ i, ∑ j, d i * (A i j * v j) := by
    rw [← mulVec_mulVec]
    simp only [mulVec, dotProduct, skKernelDxMat, of_apply, Finset.mul_sum, hd, hv, skCovVec]
  simp only [Finset.sum_add_distrib, h2]
  simp only [skGradient, Pi.smul_apply, h3, smul_eq_mul]
  ring

theorem skCov_psd {ι : Type*} [Fintype ι] {g : SkGp n N} (hs : 0 ≤ g.sigma2) (X : ι → Fin n → ℝ) : Psd (fun i j => skCov g (X i) (X j)) := by
  have hnn := inv_scale_nonneg g
  have hsc : ∀ a : ℝ, ∀ i j, sqDist (fun k => 1 / g.lengthScale k ^ 2) (X i) (X j) * a =
      sqDist (fun k => 1 / g.lengthScale k ^ 2 * a) (X i) (X j) := by
    intro a i j
    unfold sqDist
    rw [Finset.sum_mul]
    exact Finset.sum_congr rfl fun k _ => by ring
  unfold skCov
  cases g.kernel with
  | rbf =>
    refine ((psd_gauss hnn X (s := 1 / 2) (by norm_num)).smul hs).congr fun i j => ?_
    simp only [skDist_sq]
    norm_num
  | matern nu =>
    cases nu with
    | half =>
      refine ((psd_exp_sqrt hnn X (v := 0) (le_refl 0)).smul hs).congr fun i j => ?_
      simp only [maternValue, skDist_eq, add_zero]
    | threeHalves =>
      refine ((psd_matern32 (th := fun k => 1 / g.lengthScale k ^ 2 * 3) (fun k => mul_nonneg (hnn k) (by norm_num)) X
        (v := 0) (le_refl 0)).smul hs).congr fun i j => ?_
      simp only [maternValue, skDist_eq, add_zero]
      rw [← hsc, Real.sqrt_mul (sqDist_nonneg hnn _ _)]
    | fiveHalves =>
      refine ((psd_matern52 (th := fun k => 1 / g.lengthScale k ^ 2 * 5) (fun k => mul_nonneg (hnn k) (by norm_num)) X).smul hs).congr
        fun i j => ?_
      simp only [maternValue, skDist_eq]
      rw [← hsc, Real.sqrt_mul (sqDist_nonneg hnn _ _)]

theorem skCov_self (g : SkGp n N) (x : Fin n → ℝ) : skCov g x x = g.sigma2 := by
  have : skDist g x x = 0 := by simp [skDist]
  unfold skCov
  cases g.kernel with
  | rbf => simp [this]
  | matern nu => simp [this, maternValue_zero]

/-- The predicted variance is never smaller than the fitted noise. -/
theorem skVarRaw_ge {g : SkGp n N} (h : FittedRegressor g) (x : Fin n → ℝ) : g.noise ≤ skVarRaw g x := by
  have hu := chol_det h.chol
  have hu2 : IsUnit (g.L * g.Lᵀ).det := by rw [det_mul, det_transpose]; exact hu.mul hu
  set A := g.L * g.Lᵀ with hA
  set kv := skCovVec g x with hkv
  set w := A⁻¹ *ᵥ kv with hw
  have hAw : A *ᵥ w = kv := by rw [hw, mulVec_mulVec, mul_nonsing_inv _ hu2, one_mulVec]
  have hp := (skCov_psd h.sigma_pos.le (fun o : Option (Fin N) => o.elim x g.xTrain)).2 (fun o => o.elim 1 (fun i => -w i))
  simp only [Fintype.sum_option, Option.elim, skCov_self] at hp
  have e1 : w ⬝ᵥ (A *ᵥ w) = ∑ i, ∑ j, w i * w j * skCov g (g.xTrain i) (g.xTrain j) + (g.noise + 1 / 10 ^ 8) * (w ⬝ᵥ w) := by
    rw [hA, h.chol.mul, add_mulVec, dotProduct_add, smul_mulVec, one_mulVec, dotProduct_smul, smul_eq_mul]
    congr 1
    simp only [dotProduct, mulVec, of_apply, Finset.mul_sum]
    exact Finset.sum_congr rfl fun i _ => Finset.sum_congr rfl fun j _ => by ring
  have e2 : ∑ i, 1 * -w i * skCov g x (g.xTrain i) = -(kv ⬝ᵥ w) := by
    simp only [dotProduct, hkv, skCovVec, ← Finset.sum_neg_distrib]
    exact Finset.sum_congr rfl fun i _ => by ring
  have e3 : ∑ i, -w i * 1 * skCov g (g.xTrain i) x = -(kv ⬝ᵥ w) := by
    rw [← e2]
    refine Finset.sum_congr rfl fun i _ => ?_
    have := (skCov_psd h.sigma_pos.le (fun o : Option (Fin N) => o.elim x g.xTrain)).1 (some i) none
    simp only [Option.elim] at this
    rw [this]; ring
  have e4 : ∑ i, ∑ j, -w i * -w j * skCov g (g.xTrain i) (g.xTrain j) = ∑ i, ∑ j, w i * w j * skCov g (g.xTrain i) (g.xTrain j) :=
    Finset.sum_congr rfl fun i _ => Finset.sum_congr rfl fun j _ => by ring
  rw [Finset.sum_add_distrib, e2, e3, e4] at hp
  have h5 : w ⬝ᵥ (A *ᵥ w) = kv ⬝ᵥ w := by rw [hAw, dotProduct_comm]
  have h6 := dot_self_nonneg w
  have h7 : 0 ≤ (g.noise + 1 / 10 ^ 8) * (w ⬝ᵥ w) := mul_nonneg (by have := h.noise_pos; positivity) h6
  unfold skVarRaw
  rw [← hA, ← hkv, ← hw]
  nlinarith

/-- For a fitted regressor nothing is cut off: the predicted variance is the formula. -/
theorem skPredict_eq {g : SkGp n N} (h : FittedRegressor g) (x : Fin n → ℝ) : skPredict g x = (skMean g x, g.yStd ^ 2 * skVarRaw g x) := by
  have h1 := skVarRaw_ge h x
  have h2 := h.noise_pos
  unfold skPredict
  rw [if_neg (by linarith), Real.sq_sqrt (by have : 0 ≤ skVarRaw g x := by linarith
                                             positivity)]

/-! ### The calls -/

/-- What holds of every regressor of the wrapper, after every history. -/
def SkInv (s : SkWrapper n) : Prop :=
  ∀ gs, s.gprs = some gs → gs.length ≤ s.nObj ∧
    ∀ o ∈ gs, o.gp.kernel = .matern .threeHalves ∧ FittedRegressor o.gp ∧ ∀ A, o.kInv = some A → A = skKInv o.gp

variable {train : SkKernel → List (List ℝ) → List ℝ → Option (SkTrained n)}

theorem skFitLoop_inv (ht : TrainsRegressors train) (X : List (List ℝ)) (y : SkTargets) (l : List ℕ) (acc : List (SkObj n))
    (h : ∀ o ∈ acc, o.gp.kernel = .matern .threeHalves ∧ FittedRegressor o.gp ∧ ∀ A, o.kInv = some A → A = skKInv o.gp) :
    (skFitLoop train X y l acc).1.length ≤ acc.length + l.length ∧
    ∀ o ∈ (skFitLoop train X y l acc).1, o.gp.kernel = .matern .threeHalves ∧ FittedRegressor o.gp ∧ ∀ A, o.kInv = some A → A = skKInv o.gp := by
  induction l generalizing acc with
  | nil => exact ⟨by simp [skFitLoop], by simpa [skFitLoop] using h⟩
  | cons i rest ih =>
    unfold skFitLoop
    split
    · exact ⟨by simp, h⟩
    · rename_i t e
      obtain ⟨h1, h2⟩ := ht _ _ _ _ e
      have := ih (acc ++ [⟨t.gp, none⟩]) ?_
      · refine ⟨?_, this.2⟩
        have h3 := this.1
        simp only [List.length_append, List.length_cons, List.length_nil] at h3 ⊢
        omega
      · intro o ho
        rcases List.mem_append.1 ho with ho | ho
        · exact h o ho
        · rw [List.mem_singleton.1 ho]
          exact ⟨h1, h2, by simp⟩

theorem cache_ok {o : SkObj n} (h : o.gp.kernel = .matern .threeHalves ∧ FittedRegressor o.gp ∧ ∀ A, o.kInv = some A → A = skKInv o.gp) :
    o.cache.gp.kernel = .matern .threeHalves ∧ FittedRegressor o.cache.gp ∧ ∀ A, o.cache.kInv = some A → A = skKInv o.cache.gp := by
  unfold SkObj.cache
  split
  · exact ⟨h.1, h.2.1, by simp⟩
  · exact h

theorem skGradientLoop_inv (X : List (Fin n → ℝ)) (gs : List (SkObj n))
    (h : ∀ o ∈ gs, o.gp.kernel = .matern .threeHalves ∧ FittedRegressor o.gp ∧ ∀ A, o.kInv = some A → A = skKInv o.gp) :
    (skGradientLoop X gs).1.length = gs.length ∧
    ∀ o ∈ (skGradientLoop X gs).1, o.gp.kernel = .matern .threeHalves ∧ FittedRegressor o.gp ∧ ∀ A, o.kInv = some A → A = skKInv o.gp := by
  induction gs with
  | nil => simp [skGradientLoop]
  | cons o rest ih =>
    have ih := ih fun o ho => h o (List.mem_cons_of_mem _ ho)
    have h0 := cache_ok (h o (List.mem_cons_self ..))
    unfold skGradientLoop
    split_ifs
    · refine ⟨by simp [ih.1], fun p hp => ?_⟩
      rcases List.mem_cons.1 hp with hp | hp
      · rw [hp]; exact h0
      · exact ih.2 p hp
    · refine ⟨by simp, fun p hp => ?_⟩
      rcases List.mem_cons.1 hp with hp | hp
      · rw [hp]; exact h0
      · exact h p (List.mem_cons_of_mem _ hp)

theorem skStep_inv (ht : TrainsRegressors train) {s : SkWrapper n} (h : SkInv s) (c : SkCall n) : SkInv (skStep train s c) := by
  cases c with
  | fit width X y =>
    show SkInv (skFit train s width X y).1
    unfold skFit
    split_ifs with hc
    · intro gs hg
      have := skFitLoop_inv ht X y (List.range s.nObj) [] (by simp)
      simp only [Option.some.injEq] at hg
      rw [← hg]
      simpa using this
    · exact h
  | gradient X =>
    show SkInv (skGradientCall s X).1
    unfold skGradientCall
    split
    · exact h
    · rename_i gs hg
      obtain ⟨h1, h2⟩ := h gs hg
      intro gs' hg'
      simp only [Option.some.injEq] at hg'
      have := skGradientLoop_inv X gs h2
      rw [← hg']
      exact ⟨by rw [this.1]; exact h1, this.2⟩

theorem skStep_nObj (s : SkWrapper n) (c : SkCall n) : (skStep train s c).nObj = s.nObj := by
  cases c with
  | fit width X y =>
    show (skFit train s width X y).1.nObj = _
    unfold skFit; split_ifs <;> rfl
  | gradient X =>
    show (skGradientCall s X).1.nObj = _
    unfold skGradientCall; split <;> rfl

theorem skRun_inv (ht : TrainsRegressors train) (calls : List (SkCall n)) {s : SkWrapper n} (h : SkInv s) :
    SkInv (skRun train s calls) ∧ (skRun train s calls).nObj = s.nObj := by
  induction calls generalizing s with
  | nil => exact ⟨h, rfl⟩
  | cons c rest ih =>
    have := ih (skStep_inv ht h c)
    exact ⟨this.1, this.2.trans (skStep_nObj s c)⟩

theorem skAssignOk_iff (m dim : ℕ) : skAssignOk m dim = true ↔ ¬ (dim = 1 ∧ m ≠ 1) := by
  unfold skAssignOk npSqueeze
  by_cases h1 : m = 1 <;> by_cases h2 : dim = 1 <;> simp [h1, h2, List.filter, npBroadcasts]

theorem skGradientLoop_value (X : List (Fin n → ℝ)) (hX : skAssignOk X.length n = true) (gs : List (SkObj n)) :
    (skGradientLoop X gs).2 = some (gs.map fun o => X.map o.cache.grad) := by
  induction gs with
  | nil => rfl
  | cons o rest ih =>
    unfold skGradientLoop
    rw [if_pos hX]
    show (skGradientLoop X rest).2.map _ = _
    rw [ih]
    rfl

theorem cache_kInv (o : SkObj n) (h : ∀ A, o.kInv = some A → A = skKInv o.gp) (x : Fin n → ℝ) :
    o.cache.grad x = skGradient o.gp (skKInv o.gp) x := by
  rcases o with ⟨gp, kInv⟩
  cases kInv with
  | none => rfl
  | some A =>
    have := h A rfl
    show skGradient gp A x = skGradient gp (skKInv gp) x
    rw [this]

end Verif.Proofs
