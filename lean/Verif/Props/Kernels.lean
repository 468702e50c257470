import Verif.Proofs.Kernels

/-!
# C89-C94: the correlation functions of the Gaussian process
-/
namespace Verif.Props

open Verif.Model Verif.Spec Verif.Proofs

variable {n N : ℕ}

/-! ### C89 -/

/-- **C89.**  For positive parameters, every built-in correlation is one for equal points, between zero and one, and does
not grow when the points move apart in any coordinates (so it depends on the absolute differences only). -/
theorem c89_correlation_function (name : CorrName) (theta : List ℝ) (hp : ∀ t ∈ theta, 0 < t) :
    (∀ v, corr (n := n) name theta 0 = some v → v = 1) ∧
    (∀ (d : Fin n → ℝ) v, corr name theta d = some v → 0 ≤ v ∧ v ≤ 1) ∧
    ∀ (d e : Fin n → ℝ) v w, (∀ k, |d k| ≤ |e k|) → corr name theta d = some v → corr name theta e = some w → w ≤ v := by
  have hz : ∀ v, corr (n := n) name theta 0 = some v → v = 1 := by
    intro v h
    rw [corr_eq h]
    refine corrValue_zero name fun hn => ?_
    subst hn
    have hs := corr_isSome.1 (by rw [h]; rfl : (corr (n := n) .generalizedExponential theta 0).isSome = true)
    rw [if_pos rfl] at hs
    exact (getD_pos hp (by omega)).ne'
  refine ⟨hz, fun d v h => ?_, fun d e v w hde h1 h2 => ?_⟩
  · have h0 : (corr (n := n) name theta 0).isSome = true := by
      have hs := corr_isSome.1 (by rw [h]; rfl : (corr name theta d).isSome = true)
      exact corr_isSome.2 hs
    obtain ⟨u, hu⟩ := Option.isSome_iff_exists.1 h0
    have h1 := hz u hu
    rw [corr_eq hu] at h1
    rw [corr_eq h]
    refine ⟨corrValue_nonneg name hp d, ?_⟩
    rw [← h1]
    exact corrValue_anti name hp fun k => by simp
  · rw [corr_eq h1, corr_eq h2]
    exact corrValue_anti name hp hde

/-- Non-vacuity: the Matérn correlation with two parameters. -/
example : (∀ t ∈ [(1 : ℝ), 2], 0 < t) ∧ (corr (n := 2) (.matern .threeHalves) [1, 2] (fun _ => 1)).isSome = true := by
  refine ⟨by simp, corr_isSome.2 ?_⟩
  simp

/-! ### C90 -/

/-- **C90.**  For any number of samples in any dimension, also repeated ones, the matrix that the model is fitted with is a
correlation matrix, for the Matérn, the squared and absolute exponential and the generalised exponential correlation with
an exponent of at most two. -/
theorem c90_matrix_valid (name : CorrName) (theta : List ℝ) (hp : ∀ t ∈ theta, 0 < t) (hc : name ≠ .cubic)
    (hg : name = .generalizedExponential → theta.getD n 0 ≤ 2) (c : (Fin n → ℝ) → ℝ)
    (h : ∀ d, corr name theta d = some (c d)) (X : Fin N → Fin n → ℝ) : IsCorrelationMatrix (correlationMatrix c X) := by
  have hlen : name = .generalizedExponential → theta.length = n + 1 := by
    rintro rfl
    have hs := corr_isSome.1 (by rw [h 0]; rfl : (corr (n := n) .generalizedExponential theta 0).isSome = true)
    rw [if_pos rfl] at hs
    exact hs.1
  obtain ⟨hz, hb, -⟩ := c89_correlation_function (n := n) name theta hp
  have hcv : ∀ d, c d = corrValue name theta d := fun d => corr_eq (h d)
  have hR : ∀ i j, correlationMatrix c X i j = corrValue name theta (absDiff (X i) (X j)) := by
    intro i j
    rw [correlationMatrix_apply]
    split_ifs with e
    · subst e
      rw [← hcv, show absDiff (X i) (X i) = 0 by funext k; simp [absDiff], hz _ (h 0)]
    · exact hcv _
  have hpsd := psd_corr hp hc (fun hn => ⟨hlen hn, hg hn⟩) X
  refine ⟨fun i j => ?_, fun i => ?_, fun i j => ?_, fun w => ?_⟩
  · rw [hR, hR]; exact hpsd.1 i j
  · rw [correlationMatrix_apply, if_pos rfl]
  · rw [hR, ← hcv]; exact hb _ _ (h _)
  · simp only [hR]; exact hpsd.2 w

/-- **C90.**  With a positive noise variance the scaled matrix is positive definite, so that its Cholesky factorisation
exists. -/
theorem c90_noisy_matrix_definite (R : Fin N → Fin N → ℝ) (h : IsCorrelationMatrix R) (sigma2 noise : ℝ) (hs : 0 ≤ sigma2)
    (hn : 0 < noise) :
    IsPositiveDefinite (fun i j => (sigma2 * R i j + noise * (if i = j then 1 else 0)) / (sigma2 + noise)) := by
  obtain ⟨h1, -, -, h4⟩ := h
  refine ⟨fun i j => by simp only [h1 i j, eq_comm], fun w hw => ?_⟩
  have e : ∑ i, ∑ j, w i * w j * ((sigma2 * R i j + noise * (if i = j then 1 else 0)) / (sigma2 + noise)) =
      (sigma2 * (∑ i, ∑ j, w i * w j * R i j) + noise * ∑ i, w i * w i) / (sigma2 + noise) := by
    rw [add_div, Finset.mul_sum, Finset.mul_sum, Finset.sum_div, Finset.sum_div, ← Finset.sum_add_distrib]
    refine Finset.sum_congr rfl fun i _ => ?_
    have : ∀ j, w i * w j * ((sigma2 * R i j + noise * (if i = j then 1 else 0)) / (sigma2 + noise)) =
        sigma2 * (w i * w j * R i j) / (sigma2 + noise) + if i = j then noise * (w i * w j) / (sigma2 + noise) else 0 := by
      intro j; split_ifs <;> ring
    simp only [this, Finset.sum_add_distrib, Finset.sum_ite_eq, Finset.mem_univ, if_true, Finset.mul_sum, Finset.sum_div]
  rw [e]
  obtain ⟨k, hk⟩ : ∃ k, w k ≠ 0 := Function.ne_iff.1 hw
  have hpos : 0 < ∑ i, w i * w i :=
    Finset.sum_pos' (fun i _ => mul_self_nonneg _) ⟨k, Finset.mem_univ k, mul_self_pos.2 hk⟩
  have := h4 w
  positivity

/-- Non-vacuity: the Matérn correlation used by PCA-BO, in two dimensions. -/
example : ∃ c : (Fin 2 → ℝ) → ℝ, ∀ d, corr (.matern .threeHalves) [1, 2] d = some (c d) :=
  ⟨fun d => (corr (.matern .threeHalves) [1, 2] d).getD 0, fun d => by
    have : (corr (.matern .threeHalves) [1, 2] d).isSome = true := corr_isSome.2 (by simp)
    obtain ⟨v, hv⟩ := Option.isSome_iff_exists.1 this
    beta_reduce; rw [hv]; rfl⟩

/-! ### C91 -/

/-- The values of the cubic correlation at multiples of 0.42. -/
private def cubicStep (m : ℕ) : ℚ :=
  if m = 0 then 1 else if m = 1 then 1 - (42 / 100) ^ 2 * (3 - 84 / 100) else if m = 2 then 1 - (84 / 100) ^ 2 * (3 - 168 / 100) else 0

/-- **C91, refuted.**  The cubic correlation is not a correlation: for ten equally spaced samples on a line there is a
combination with a negative variance. -/
theorem c91_cubic_not_valid : ∃ (c : (Fin 1 → ℝ) → ℝ) (X : Fin 10 → Fin 1 → ℝ), (∀ d, corr .cubic [1] d = some (c d)) ∧
    ∃ w : Fin 10 → ℝ, ∑ i, ∑ j, w i * w j * correlationMatrix c X i j < 0 := by
  refine ⟨fun d => cubicFactor (|d 0| * 1), fun i _ => (i.val : ℝ) * (42 / 100), fun d => by simp [corr, cubicValue],
    fun i => (((if i.val % 2 = 0 then 1 else -1 : ℚ)) : ℝ), ?_⟩
  have hv : ∀ i j : Fin 10, correlationMatrix (fun d : Fin 1 → ℝ => cubicFactor (|d 0| * 1)) (fun i _ => (i.val : ℝ) * (42 / 100)) i j =
      ((cubicStep (i.val - j.val + (j.val - i.val)) : ℚ) : ℝ) := by
    intro i j
    rw [correlationMatrix_apply]
    split_ifs with e
    · subst e; simp [cubicStep]
    · have h1 : |absDiff (fun _ : Fin 1 => (i.val : ℝ) * (42 / 100)) (fun _ => (j.val : ℝ) * (42 / 100)) 0| * 1 =
          ((i.val - j.val + (j.val - i.val) : ℕ) : ℝ) * (42 / 100) := by
        have h2 : |(i.val : ℝ) - j.val| = ((i.val - j.val + (j.val - i.val) : ℕ) : ℝ) := by
          rcases le_total i.val j.val with h | h
          · rw [Nat.sub_eq_zero_of_le h, zero_add, Nat.cast_sub h, abs_sub_comm, abs_of_nonneg]
            rw [sub_nonneg]; exact_mod_cast h
          · rw [Nat.sub_eq_zero_of_le h, add_zero, Nat.cast_sub h, abs_of_nonneg]
            rw [sub_nonneg]; exact_mod_cast h
        rw [absDiff, abs_abs, mul_one, ← sub_mul, abs_mul, h2, abs_of_pos (by norm_num : (0 : ℝ) < 42 / 100)]
      rw [h1]
      have hne : i.val - j.val + (j.val - i.val) ≠ 0 := fun h => e (Fin.ext (by omega))
      generalize i.val - j.val + (j.val - i.val) = m at hne ⊢
      unfold cubicStep cubicFactor
      rw [if_neg hne]
      by_cases h1 : m = 1
      · subst h1; norm_num
      · by_cases h2 : m = 2
        · subst h2; norm_num
        · rw [if_neg h1, if_neg h2, if_pos]
          · norm_num
          · have : (3 : ℝ) ≤ m := by exact_mod_cast (by omega : 3 ≤ m)
            linarith
  have hq : ∑ i : Fin 10, ∑ j : Fin 10, (if i.val % 2 = 0 then (1 : ℚ) else -1) * (if j.val % 2 = 0 then 1 else -1) *
      cubicStep (i.val - j.val + (j.val - i.val)) < 0 := by decide +kernel
  simp only [hv]
  have := (Rat.cast_lt (K := ℝ)).2 hq
  push_cast at this ⊢
  exact this

/-- **C91, refuted.**  Nor is the generalised exponential correlation with an exponent above two (here four). -/
theorem c91_exponent_above_two_not_valid : ∃ (theta : List ℝ) (c : (Fin 1 → ℝ) → ℝ) (X : Fin 3 → Fin 1 → ℝ),
    (∀ t ∈ theta, 0 < t) ∧ (∀ d, corr .generalizedExponential theta d = some (c d)) ∧
    ∃ w : Fin 3 → ℝ, ∑ i, ∑ j, w i * w j * correlationMatrix c X i j < 0 := by
  have hlog : 0 < -Real.log (95 / 100) := by
    have := Real.log_neg (by norm_num : (0 : ℝ) < 95 / 100) (by norm_num)
    linarith
  have hexp : Real.exp (Real.log (95 / 100)) = 95 / 100 := Real.exp_log (by norm_num)
  refine ⟨[-Real.log (95 / 100), 4], fun d => Real.exp (-(-Real.log (95 / 100) * |d 0| ^ (4 : ℝ))), fun i _ => (i.val : ℝ), ?_, ?_,
    fun i => if i.val = 1 then -2 else 1, ?_⟩
  · intro t ht
    rcases List.mem_pair.1 ht with rfl | rfl
    · exact hlog
    · norm_num
  · intro d
    simp [corr, generalizedExponential]
  · have h1 : Real.exp (-(-Real.log (95 / 100) * |(1 : ℝ)| ^ (4 : ℝ))) = 95 / 100 := by simp [hexp]
    have h16 : Real.exp (-(-Real.log (95 / 100) * |(2 : ℝ)| ^ (4 : ℝ))) = (95 / 100) ^ 16 := by
      have : |(2 : ℝ)| ^ (4 : ℝ) = 16 := by
        rw [show (4 : ℝ) = ((4 : ℕ) : ℝ) by norm_num, Real.rpow_natCast]; norm_num
      rw [this, neg_mul, neg_neg, mul_comm, show (16 : ℝ) = ((16 : ℕ) : ℝ) by norm_num, Real.exp_nat_mul, hexp]
    have hv : ∀ i j : Fin 3, correlationMatrix (fun d : Fin 1 → ℝ => Real.exp (-(-Real.log (95 / 100) * |d 0| ^ (4 : ℝ))))
        (fun i _ => (i.val : ℝ)) i j = if i = j then 1 else if i.val = 1 ∨ j.val = 1 then 95 / 100 else (95 / 100) ^ 16 := by
      intro i j
      rw [correlationMatrix_apply]
      simp only [absDiff, abs_abs]
      rw [← h16]
      nth_rewrite 3 [← h1]
      have hexp' : Real.exp (Real.log (19 / 20)) = 19 / 20 := Real.exp_log (by norm_num)
      fin_cases i <;> fin_cases j <;> norm_num [hexp']
    simp only [hv, Fin.sum_univ_three]
    norm_num [Fin.ext_iff]

/-- **C91, the part that holds.**  For the other correlations and any samples, the matrix that is factorised in the noisy mode
is positive definite. -/
theorem c91_factorisable_partial (name : CorrName) (theta : List ℝ) (hp : ∀ t ∈ theta, 0 < t) (hc : name ≠ .cubic)
    (hg : name = .generalizedExponential → theta.getD n 0 ≤ 2) (c : (Fin n → ℝ) → ℝ)
    (h : ∀ d, corr name theta d = some (c d)) (X : Fin N → Fin n → ℝ) (sigma2 noise : ℝ) (hs : 0 ≤ sigma2) (hn : 0 < noise) :
    IsPositiveDefinite (fun i j => (sigma2 * correlationMatrix c X i j + noise * (if i = j then 1 else 0)) / (sigma2 + noise)) :=
  c90_noisy_matrix_definite _ (c90_matrix_valid name theta hp hc hg c h X) sigma2 noise hs hn

/-! ### C92 -/

/-- **C92, the part that holds.**  A single parameter is accepted for any number of coordinates and stands for the same
parameter in each of them, except for the generalised exponential. -/
theorem c92_isotropic_partial (name : CorrName) (hn : name ≠ .generalizedExponential) (t : ℝ) (d : Fin n → ℝ) :
    ∃ v, corr name [t] d = some v ∧ corr name (List.replicate n t) d = some v := by
  have h1 : (corr name [t] d).isSome = true := corr_isSome.2 (by rw [if_neg hn]; simp)
  have h2 : (corr name (List.replicate n t) d).isSome = true := corr_isSome.2 (by rw [if_neg hn]; simp)
  obtain ⟨v, hv⟩ := Option.isSome_iff_exists.1 h1
  obtain ⟨w, hw⟩ := Option.isSome_iff_exists.1 h2
  refine ⟨v, hv, ?_⟩
  rw [hw, corr_eq hv, corr_eq hw]
  have : ∀ k : Fin n, thetaAt (List.replicate n t) k.val = thetaAt [t] k.val := by
    intro k
    have hk := k.2
    simp [thetaAt, List.getD_eq_getElem?_getD, List.getElem?_replicate]
    intro h
    rw [if_pos (by omega)]; rfl
  cases name <;> simp only [corrValue, this]
  exact absurd rfl hn

/-- **C92, refuted.**  The documented isotropic form of the generalised exponential, one scale and one exponent, raises an
exception for every pair of points with two or more coordinates. -/
theorem c92_generalized_isotropic_raises (t p : ℝ) (hn : 2 ≤ n) (d : Fin n → ℝ) : corr .generalizedExponential [t, p] d = none := by
  simp only [corr, generalizedExponential]
  rw [if_pos ⟨by omega, rfl⟩]

/-- Non-vacuity. -/
example : corr (n := 2) .squaredExponential [1] (fun _ => 1) = corr (n := 2) .squaredExponential [1, 1] (fun _ => 1) := by
  obtain ⟨v, h1, h2⟩ := c92_isotropic_partial (n := 2) .squaredExponential (by simp) 1 (fun _ => 1)
  rw [h1, show [(1 : ℝ), 1] = List.replicate 2 1 from rfl, h2]

/-! ### C93 -/

private theorem corr_fun {name : CorrName} {theta : List ℝ} {c : (Fin n → ℝ) → ℝ} (h : ∀ d, corr name theta d = some (c d)) :
    c = corrValue name theta := funext fun d => corr_eq (h d)

private theorem length_of_corr {name : CorrName} {theta : List ℝ} {c : (Fin n → ℝ) → ℝ} (h : ∀ d, corr name theta d = some (c d))
    (hn : name ≠ .generalizedExponential) : theta.length = 1 ∨ theta.length = n := by
  have hs := corr_isSome.1 (by rw [h 0]; rfl : (corr (n := n) name theta 0).isSome = true)
  rwa [if_neg hn] at hs

private theorem scaledSum_pos {theta : List ℝ} (hp : ∀ t ∈ theta, 0 < t) (hl : theta.length = 1 ∨ theta.length = n)
    {x y : Fin n → ℝ} (h : x ≠ y) : 0 < ∑ k : Fin n, thetaAt theta k.val * (x k - y k) ^ 2 := by
  obtain ⟨k, hk⟩ := Function.ne_iff.1 h
  refine Finset.sum_pos' (fun l _ => mul_nonneg (thetaAt_nonneg hp _) (sq_nonneg _)) ⟨k, Finset.mem_univ k, ?_⟩
  have := thetaAt_pos hp hl k
  have : 0 < (x k - y k) ^ 2 := pow_pos_of_ne (sub_ne_zero.2 hk)
  positivity
where
  pow_pos_of_ne {a : ℝ} (h : a ≠ 0) : 0 < a ^ 2 := by positivity

private theorem scaledDist_pos {theta : List ℝ} (hp : ∀ t ∈ theta, 0 < t) (hl : theta.length = 1 ∨ theta.length = n)
    {x y : Fin n → ℝ} (h : x ≠ y) : 0 < scaledDist theta (fun k => x k - y k) :=
  Real.sqrt_pos.2 (scaledSum_pos hp hl h)

/-- **C93, the part that holds.**  The derivatives that the prediction's gradient is built from are the derivatives of the
correlations with the samples in each coordinate: for the squared exponential everywhere, for the Matérn correlation with
`nu` = 1.5 at any point that is not a sample, for the absolute exponential where the coordinate differs from the sample's. -/
theorem c93_gradient_partial (name : CorrName) (theta : List ℝ) (hp : ∀ t ∈ theta, 0 < t)
    (hn : name = .squaredExponential ∨ name = .matern .threeHalves ∨ name = .absoluteExponential) (c : (Fin n → ℝ) → ℝ)
    (h : ∀ d, corr name theta d = some (c d)) (X : Fin N → Fin n → ℝ) (x : Fin n → ℝ) :
    ∃ g, corrDx name theta X x (corrVector c X x) = some g ∧
      ∀ k i, (name = .matern .threeHalves → ∀ j, x ≠ X j) → (name = .absoluteExponential → x k ≠ X i k) →
        HasDerivAt (fun t => corrVector c X (Function.update x k t) i) (g k i) (x k) := by
  have hc := corr_fun h
  have hl := length_of_corr h (by rcases hn with rfl | rfl | rfl <;> simp)
  have hupd : ∀ k : Fin n, Function.update x k (x k) = x := fun k => Function.update_eq_self k x
  have hsq : ∀ i, (∑ l : Fin n, thetaAt theta l.val * absDiff x (X i) l ^ 2) = ∑ l : Fin n, thetaAt theta l.val * (x l - X i l) ^ 2 :=
    fun i => Finset.sum_congr rfl fun l _ => by rw [absDiff, sq_abs]
  rcases hn with rfl | rfl | rfl
  · refine ⟨_, rfl, fun k i _ _ => ?_⟩
    subst hc
    have := (hasDerivAt_scaledSum theta x (X i) k).neg.exp
    simp only [corrVector, corrValue]
    refine this.congr_deriv ?_
    simp only [hupd, Pi.neg_apply]
    ring
  · classical
    by_cases hx : ∃ j, scaledDist theta (fun l => x l - X j l) = 0
    · refine ⟨fun _ _ => 0, by simp only [corrDx]; rw [if_pos hx], fun k i hj _ => ?_⟩
      obtain ⟨j, hj'⟩ := hx
      exact absurd hj' (scaledDist_pos hp hl (hj rfl j)).ne'
    · refine ⟨_, by simp only [corrDx]; rw [if_neg hx], fun k i hj _ => ?_⟩
      subst hc
      have hs := scaledSum_pos hp hl (hj rfl i)
      have h1 := hasDerivAt_scaledSum theta x (X i) k
      have h2 : HasDerivAt (fun s => maternValue .threeHalves (Real.sqrt s))
          (-(3 / 2) * Real.exp (-(Real.sqrt 3 * Real.sqrt (∑ l : Fin n, thetaAt theta l.val * absDiff (Function.update x k (x k)) (X i) l ^ 2))))
          (∑ l : Fin n, thetaAt theta l.val * absDiff (Function.update x k (x k)) (X i) l ^ 2) := by
        apply hasDerivAt_matern32
        rw [hupd, hsq]; exact hs
      have := h2.comp (x k) h1
      simp only [corrVector, corrValue]
      refine this.congr_deriv ?_
      rw [hupd, hsq]
      have hD := scaledDist_pos hp hl (hj rfl i)
      unfold scaledDist at hD ⊢
      set D := Real.sqrt (∑ l : Fin n, thetaAt theta l.val * (x l - X i l) ^ 2)
      field_simp
  · refine ⟨_, rfl, fun k i _ hk => ?_⟩
    subst hc
    have hne := hk rfl
    have h1 : ∀ l ∈ Finset.univ, HasDerivAt (fun t => thetaAt theta l.val * |absDiff (Function.update x k t) (X i) l|)
        (if l = k then thetaAt theta k.val * (SignType.sign (x k - X i k) : ℝ) else 0) (x k) := by
      intro l _
      simp only [absDiff, abs_abs]
      by_cases e : l = k
      · subst e
        simp only [Function.update_self, if_true]
        have h0 : x l - X i l ≠ 0 := sub_ne_zero.2 hne
        have := ((hasDerivAt_abs h0).comp (x l) ((hasDerivAt_id (x l)).sub_const (X i l))).const_mul (thetaAt theta l.val)
        refine this.congr_deriv ?_
        simp
      · simp only [Function.update_of_ne e, if_neg e]
        exact hasDerivAt_const _ _
    have := (HasDerivAt.fun_sum h1).neg.exp
    simp only [corrVector, corrValue]
    refine this.congr_deriv ?_
    simp only [hupd, Pi.neg_apply, Finset.sum_ite_eq', Finset.mem_univ, if_true]
    ring

/-- **C93, refuted.**  At a sample the gradient of the Matérn correlation is zero for all samples, while the correlation
with every sample that differs in coordinate `k` has a derivative other than zero. -/
theorem c93_matern_gradient_wrong_at_sample (theta : List ℝ) (hp : ∀ t ∈ theta, 0 < t) (c : (Fin n → ℝ) → ℝ)
    (h : ∀ d, corr (.matern .threeHalves) theta d = some (c d)) (X : Fin N → Fin n → ℝ) (i j : Fin N) (k : Fin n)
    (hk : X i k ≠ X j k) :
    ∃ g, corrDx (.matern .threeHalves) theta X (X i) (corrVector c X (X i)) = some g ∧ g k j = 0 ∧
      ¬ HasDerivAt (fun t => corrVector c X (Function.update (X i) k t) j) (g k j) (X i k) := by
  have hc := corr_fun h
  have hl := length_of_corr h (by simp)
  refine ⟨fun _ _ => 0, ?_, rfl, fun hd => ?_⟩
  · simp only [corrDx]
    rw [if_pos ⟨i, by simp [scaledDist]⟩]
  · -- the same point with only sample `j` has the derivative of the formula
    have hne : X i ≠ X j := fun e => hk (congrFun e k)
    obtain ⟨g, hg, hd'⟩ := c93_gradient_partial (N := 1) (.matern .threeHalves) theta hp (by simp) c h (fun _ => X j) (X i)
    have h2 := hd' k 0 (fun _ _ => hne) (by simp)
    have h3 := hd.unique h2
    have hD := scaledDist_pos hp hl hne
    simp only [corrDx] at hg
    rw [if_neg (fun ⟨_, e⟩ => hD.ne' e)] at hg
    rw [← Option.some.inj hg] at h3
    have ht := (thetaAt_pos hp hl k).ne'
    have hk' : X i k - X j k ≠ 0 := sub_ne_zero.2 hk
    refine absurd h3.symm ?_
    have hD' := hD.ne'
    have he := (Real.exp_pos (-(Real.sqrt 3 * scaledDist theta (fun l => X i l - X j l)))).ne'
    simp only [mul_eq_zero, div_eq_zero_iff, not_or]
    exact ⟨⟨⟨hk', ht⟩, hD'⟩, ⟨by norm_num, hD'⟩, he⟩

/-- **C93, refuted.**  For the other two correlations there is no gradient: the call raises an exception. -/
theorem c93_no_gradient (theta : List ℝ) (X : Fin N → Fin n → ℝ) (x : Fin n → ℝ) (r : Fin N → ℝ) :
    corrDx .generalizedExponential theta X x r = none ∧ corrDx .cubic theta X x r = none := ⟨rfl, rfl⟩

/-- The second derivatives, for the squared exponential with one parameter for each coordinate: entry `[k, l]` is the
derivative in coordinate `l` of entry `k` of the gradient. -/
theorem c93_hessian_partial (theta : List ℝ) (hl : theta.length = n) (c : (Fin n → ℝ) → ℝ)
    (h : ∀ d, corr .squaredExponential theta d = some (c d)) (X : Fin N → Fin n → ℝ) (x : Fin n → ℝ) :
    ∃ H, corrHessian .squaredExponential theta X x (corrVector c X x) = some H ∧
      ∀ k l i, HasDerivAt (fun t => (corrDx .squaredExponential theta X (Function.update x l t) (corrVector c X (Function.update x l t))).elim 0
        (fun g => g k i)) (H k l i) (x l) := by
  have hc := corr_fun h
  refine ⟨_, by simp only [corrHessian]; rw [if_neg (by omega)], fun k l i => ?_⟩
  simp only [corrDx, Option.elim_some]
  subst hc
  have hupd : ∀ k : Fin n, Function.update x k (x k) = x := fun k => Function.update_eq_self k x
  have h1 : HasDerivAt (fun t => corrVector (corrValue .squaredExponential theta) X (Function.update x l t) i)
      (-2 * corrVector (corrValue .squaredExponential theta) X x i * (thetaAt theta l.val * (x l - X i l))) (x l) := by
    have := (hasDerivAt_scaledSum theta x (X i) l).neg.exp
    simp only [corrVector, corrValue]
    refine this.congr_deriv ?_
    simp only [hupd, Pi.neg_apply]
    ring
  have h2 : HasDerivAt (fun t => thetaAt theta k.val * (Function.update x l t k - X i k)) (if l = k then thetaAt theta k.val else 0) (x l) := by
    by_cases e : l = k
    · subst e
      simp only [Function.update_self, if_true]
      simpa using ((hasDerivAt_id (x l)).sub_const (X i l)).const_mul (thetaAt theta l.val)
    · rw [if_neg e]
      simp only [Function.update_of_ne (Ne.symm e)]
      exact hasDerivAt_const _ _
  have := (h1.const_mul (-2)).mul h2
  refine this.congr_deriv ?_
  have ht : theta.getD k.val 0 = thetaAt theta k.val := by
    unfold thetaAt
    split_ifs with h1
    · have : k.val = 0 := by have := k.2; omega
      rw [this]
    · rfl
  simp only [hupd, ht]
  split_ifs <;> ring

/-- The Hessian of the other correlations, and that of the squared exponential with a single parameter and more than one
coordinate, cannot be computed. -/
theorem c93_no_hessian (name : CorrName) (theta : List ℝ) (X : Fin N → Fin n → ℝ) (x : Fin n → ℝ) (r : Fin N → ℝ)
    (h : name ≠ .squaredExponential ∨ theta.length < n) : corrHessian name theta X x r = none := by
  cases name with
  | squaredExponential =>
    rcases h with h | h
    · exact absurd rfl h
    · simp only [corrHessian]; rw [if_pos h]
  | _ => rfl

/-- Non-vacuity: a point that is no sample, and a pair of samples that differ. -/
example : (∀ j : Fin 2, (fun _ : Fin 1 => (2 : ℝ)) ≠ (fun _ => (j.val : ℝ))) ∧ (fun _ : Fin 1 => ((0 : Fin 2).val : ℝ)) 0 ≠ (fun _ : Fin 1 => ((1 : Fin 2).val : ℝ)) 0 := by
  refine ⟨fun j e => ?_, by simp⟩
  have := congrFun e 0
  have h2 : (2 : ℕ) = j.val := by exact_mod_cast this
  omega

/-! ### C94 -/

private theorem thetaAt_set {theta : List ℝ} (hl : theta.length = n) (k l : Fin n) (t : ℝ) :
    thetaAt (theta.set k.val t) l.val = if l = k then t else thetaAt theta l.val := by
  have hlen : (theta.set k.val t).length = theta.length := List.length_set
  unfold thetaAt
  rw [hlen]
  split_ifs with h1 h2 h2
  · have hk : k.val = 0 := by have := k.2; omega
    rw [hk, List.getD_eq_getElem?_getD, List.getElem?_set_self (by omega)]; rfl
  · exfalso; apply h2; apply Fin.ext; have := k.2; have := l.2; omega
  · subst h2; rw [List.getD_eq_getElem?_getD, List.getElem?_set_self (by have := l.2; omega)]; rfl
  · rw [List.getD_eq_getElem?_getD, List.getElem?_set_ne (fun e => h2 (Fin.ext e.symm)), ← List.getD_eq_getElem?_getD]

private theorem hasDerivAt_sum_set {theta : List ℝ} (hl : theta.length = n) (k : Fin n) (q : Fin n → ℝ) (t0 : ℝ) :
    HasDerivAt (fun t => ∑ l : Fin n, thetaAt (theta.set k.val t) l.val * q l) (q k) t0 := by
  have h : ∀ l ∈ Finset.univ, HasDerivAt (fun t => thetaAt (theta.set k.val t) l.val * q l) (if l = k then q k else 0) t0 := by
    intro l _
    simp only [thetaAt_set hl]
    by_cases e : l = k
    · subst e
      simp only [if_true]
      simpa using (hasDerivAt_id t0).mul_const (q l)
    · simp only [if_neg e]
      exact hasDerivAt_const _ _
  have := HasDerivAt.fun_sum h
  simpa using this

/-- **C94, the part that holds.**  With one parameter for each coordinate, entry `[i, j, k]` of the array that the gradient of
the likelihood is built from is the derivative of entry `[i, j]` of the correlation matrix in parameter `k`: for the squared
and the absolute exponential and for the Matérn correlation with `nu` = 1.5. -/
theorem c94_parameter_gradient_partial (name : CorrName) (theta : List ℝ) (hp : ∀ t ∈ theta, 0 < t) (hl : theta.length = n)
    (hn : name = .squaredExponential ∨ name = .matern .threeHalves ∨ name = .absoluteExponential) (X : Fin N → Fin n → ℝ) :
    ∃ g, corrGradTheta name theta X (correlationMatrix (fun d => (corr name theta d).getD 0) X) = some g ∧
      ∀ i j (k : Fin n), HasDerivAt (fun t => correlationMatrix (fun d => (corr name (theta.set k.val t) d).getD 0) X i j) (g i j k)
        (theta.getD k.val 0) := by
  have hval : ∀ th : List ℝ, th.length = n → ∀ d : Fin n → ℝ, (corr name th d).getD 0 = corrValue name th d := by
    intro th hth d
    have hs : (corr name th d).isSome = true := corr_isSome.2 (by
      rw [if_neg (by rcases hn with rfl | rfl | rfl <;> simp)]; exact Or.inr hth)
    obtain ⟨v, hv⟩ := Option.isSome_iff_exists.1 hs
    rw [hv, Option.getD_some, corr_eq hv]
  have hset : ∀ (k : Fin n) t, (theta.set k.val t).length = n := fun k t => by rw [List.length_set, hl]
  have hself : ∀ k : Fin n, theta.set k.val (theta.getD k.val 0) = theta := by
    intro k
    have hk : k.val < theta.length := by rw [hl]; exact k.2
    rw [List.getD_eq_getElem?_getD, List.getElem?_eq_getElem hk, Option.getD_some]
    exact List.set_getElem_self _
  simp only [correlationMatrix_apply, hval theta hl, hval _ (hset _ _)]
  have hdiag : ∀ (i j : Fin N) (k : Fin n), i = j → (X i k - X j k) ^ 2 = 0 := by
    rintro i j k rfl; simp
  rcases hn with rfl | rfl | rfl
  · refine ⟨_, rfl, fun i j k => ?_⟩
    by_cases e : i = j
    · simp only [e, if_true, sub_self]
      simpa using hasDerivAt_const (theta.getD k.val 0) (1 : ℝ)
    · simp only [e, if_false, corrValue]
      have := (hasDerivAt_sum_set hl k (fun l => absDiff (X i) (X j) l ^ 2) (theta.getD k.val 0)).neg.exp
      refine this.congr_deriv ?_
      simp only [hself, Pi.neg_apply, correlationMatrix_apply, e, if_false, corrValue, absDiff, sq_abs]
      ring
  · refine ⟨_, rfl, fun i j k => ?_⟩
    by_cases e : X i = X j
    · have h0 : ∀ t, (if i = j then (1 : ℝ) else corrValue (.matern .threeHalves) (theta.set k.val t) (absDiff (X i) (X j))) = 1 := by
        intro t
        split_ifs
        · rfl
        · simp [corrValue, maternValue, absDiff, e]
      simp only [h0]
      simp only [e, sub_self]
      simpa using hasDerivAt_const (theta.getD k.val 0) (1 : ℝ)
    · have hij : i ≠ j := fun h => e (by rw [h])
      simp only [hij, if_false, corrValue]
      have h1 := hasDerivAt_sum_set hl k (fun l => absDiff (X i) (X j) l ^ 2) (theta.getD k.val 0)
      have hs := scaledSum_pos hp (Or.inr hl) e
      have hsum : (∑ l : Fin n, thetaAt (theta.set k.val (theta.getD k.val 0)) l.val * absDiff (X i) (X j) l ^ 2) =
          ∑ l : Fin n, thetaAt theta l.val * (X i l - X j l) ^ 2 := by
        rw [hself]
        exact Finset.sum_congr rfl fun l _ => by rw [absDiff, sq_abs]
      have h2 := hasDerivAt_matern32 (s := ∑ l : Fin n, thetaAt (theta.set k.val (theta.getD k.val 0)) l.val * absDiff (X i) (X j) l ^ 2)
        (by rw [hsum]; exact hs)
      have := h2.comp (theta.getD k.val 0) h1
      refine this.congr_deriv ?_
      rw [hsum]
      simp only [scaledDist, absDiff, sq_abs]
      ring
  · refine ⟨_, rfl, fun i j k => ?_⟩
    by_cases e : i = j
    · simp only [e, if_true, sub_self]
      simpa using hasDerivAt_const (theta.getD k.val 0) (1 : ℝ)
    · simp only [e, if_false, corrValue]
      have := (hasDerivAt_sum_set hl k (fun l => |absDiff (X i) (X j) l|) (theta.getD k.val 0)).neg.exp
      refine this.congr_deriv ?_
      simp only [hself, Pi.neg_apply, correlationMatrix_apply, e, if_false, corrValue, absDiff, abs_abs, Real.sqrt_sq_eq_abs]
      ring

/-- **C94, refuted.**  With a single parameter for two coordinates the entry for the first coordinate, which is the one used
for the first (and only) parameter, is not the derivative. -/
theorem c94_isotropic_gradient_wrong : ∃ (X : Fin 2 → Fin 2 → ℝ) (g : Fin 2 → Fin 2 → Fin 2 → ℝ),
    corrGradTheta .squaredExponential [1] X (correlationMatrix (fun d => (corr .squaredExponential [1] d).getD 0) X) = some g ∧
    ¬ HasDerivAt (fun t => correlationMatrix (fun d => (corr .squaredExponential [t] d).getD 0) X 0 1) (g 0 1 0) 1 := by
  refine ⟨fun i _ => i.val, _, rfl, fun hd => ?_⟩
  have hv : ∀ t : ℝ, correlationMatrix (fun d : Fin 2 → ℝ => (corr .squaredExponential [t] d).getD 0) (fun i _ => (i.val : ℝ)) (0 : Fin 2) 1 =
      Real.exp (-(t * 2)) := by
    intro t
    rw [correlationMatrix_apply, if_neg (by simp)]
    simp [corr, weightedSum, absDiff]
  simp only [hv] at hd
  have h2 : HasDerivAt (fun t : ℝ => Real.exp (-(t * 2))) (Real.exp (-(1 * 2)) * -(1 * 2)) 1 :=
    ((hasDerivAt_id (1 : ℝ)).mul_const 2).neg.exp
  have h3 := hd.unique h2
  have he := Real.exp_pos (-(1 * 2 : ℝ))
  norm_num at h3

/-- Non-vacuity. -/
example : (∀ t ∈ [(1 : ℝ), 2], 0 < t) ∧ [(1 : ℝ), 2].length = 2 := by simp

end Verif.Props
