import Verif.Model.GprHessian
import Verif.Props.Gpr

/-!
# C130: the Hessian of a fitted Gaussian process
-/
namespace Verif.Props

open Verif.Model Verif.Spec Verif.Proofs Matrix

variable {N n : ℕ}

/-- `H` are the second partial derivatives of `m` at `x`: there are first partial derivatives `g` everywhere, and entry `[k, l]` is
the derivative in coordinate `l` of the partial derivative in coordinate `k`. -/
def SecondDerivatives (m : (Fin n → ℝ) → ℝ) (x : Fin n → ℝ) (H : Fin n → Fin n → ℝ) : Prop :=
  ∃ g : (Fin n → ℝ) → Fin n → ℝ, (∀ y k, HasDerivAt (fun t => m (Function.update y k t)) (g y k) (y k)) ∧
    ∀ k l, HasDerivAt (fun t => g (Function.update x l t) k) (H k l) (x l)

/-- There is at most one matrix of second derivatives. -/
theorem SecondDerivatives.unique {m : (Fin n → ℝ) → ℝ} {x : Fin n → ℝ} {H H' : Fin n → Fin n → ℝ}
    (h : SecondDerivatives m x H) (h' : SecondDerivatives m x H') : H = H' := by
  obtain ⟨g, h1, h2⟩ := h
  obtain ⟨g', h1', h2'⟩ := h'
  have e : g = g' := by funext y k; exact (h1 y k).unique (h1' y k)
  subst e
  funext k l
  exact (h2 k l).unique (h2' k l)

private theorem basis_deriv {kind : TrendKind} (hk : kind ≠ .quadratic) (p : Fin (trendDim kind n)) (k : Fin n) :
    ∃ d : ℝ, ∀ y : Fin n → ℝ, HasDerivAt (fun t => trendBasis kind (Function.update y k t) p) d (y k) := by
  cases kind with
  | quadratic => exact absurd rfl hk
  | constant =>
    refine ⟨0, fun y => ?_⟩
    simp only [trendBasis, trendRow]
    exact hasDerivAt_const _ _
  | linear =>
    obtain ⟨p, hp⟩ := p
    cases p with
    | zero =>
      refine ⟨0, fun y => ?_⟩
      simp only [trendBasis, trendRow, List.getD_cons_zero]
      exact hasDerivAt_const _ _
    | succ p =>
      have hp' : p < n := by simp only [trendDim] at hp; omega
      have e : ∀ z : Fin n → ℝ, trendBasis .linear z ⟨p + 1, hp⟩ = z ⟨p, hp'⟩ := by
        intro z
        simp only [trendBasis, trendRow, List.getD_cons_succ]
        rw [List.getD_eq_getElem?_getD, List.getElem?_ofFn, dif_pos hp']; rfl
      refine ⟨if (⟨p, hp'⟩ : Fin n) = k then 1 else 0, fun y => ?_⟩
      simp only [e]
      by_cases h : (⟨p, hp'⟩ : Fin n) = k
      · rw [if_pos h, h]
        simp only [Function.update_self]
        exact hasDerivAt_id _
      · rw [if_neg h]
        simp only [Function.update_of_ne h]
        exact hasDerivAt_const _ _

private theorem dot_deriv {q : ℕ} {f : ℝ → Fin q → ℝ} {d b : Fin q → ℝ} {t : ℝ} (h : ∀ p, HasDerivAt (fun s => f s p) (d p) t) :
    HasDerivAt (fun s => f s ⬝ᵥ b) (d ⬝ᵥ b) t := by
  simp only [dotProduct]
  exact HasDerivAt.fun_sum fun p _ => (h p).mul_const (b p)

/-- **C130, the part that holds.**  For the squared exponential with one parameter for each coordinate and a constant or linear trend, at
every point and for every fitted state, the returned matrix holds the second partial derivatives of the predicted mean, and is symmetric. -/
theorem c130_hessian_partial (kind : TrendKind) (hk : kind ≠ .quadratic) (theta : List ℝ) (hp : ∀ t ∈ theta, 0 < t)
    (hl : theta.length = n) (c : (Fin n → ℝ) → ℝ) (h : ∀ d, corr .squaredExponential theta d = some (c d))
    (X : Fin N → Fin n → ℝ) (a : GpAux N (trendDim kind n)) (beta : Option (Fin (trendDim kind n) → ℝ)) (x : Fin n → ℝ) :
    ∃ H, gpHessian kind .squaredExponential theta c X a beta x = some H ∧
      SecondDerivatives (fun z => gpMean a beta (trendBasis kind z) (corrVector c X z)) x H ∧ ∀ k l, H k l = H l k := by
  obtain ⟨H, hH, hd⟩ := c93_hessian_partial theta hl c h X x
  have hg := fun y => c93_gradient_partial .squaredExponential theta hp (Or.inl rfl) c h X y
  choose g hg1 hg2 using hg
  choose fd hfd using fun k => fun p => basis_deriv (n := n) hk p k
  have hf2 : trendHessian kind x = some fun _ _ _ => 0 := by cases kind <;> first | rfl | exact absurd rfl hk
  refine ⟨_, by simp only [gpHessian, hf2, Option.bind_some, corrHessianDot, hH, Option.map_some]; rfl,
    ⟨fun y k => fd k ⬝ᵥ gpBeta a beta + (fun i => g y k i) ⬝ᵥ gpGamma a, fun y k => ?_, fun k l => ?_⟩, fun k l => ?_⟩
  · exact (dot_deriv fun p => hfd k p y).add (dot_deriv fun i => hg2 y k i (by simp) (by simp))
  · have e : ∀ i, HasDerivAt (fun t => g (Function.update x l t) k i) (H k l i) (x l) := by
      intro i
      have := hd k l i
      simpa only [hg1, Option.elim_some] using this
    refine ((hasDerivAt_const (x l) (fd k ⬝ᵥ gpBeta a beta)).add (dot_deriv (b := gpGamma a) e)).congr_deriv ?_
    simp [dotProduct]
  · have hs : H k l = H l k := by
      simp only [corrHessian] at hH
      rw [if_neg (by omega)] at hH
      rw [← Option.some.inj hH]
      funext i
      by_cases e : l = k
      · subst e; rfl
      · simp only [e, Ne.symm e, if_false]; ring
    simp only [dotProduct, hs]

/-- **C130, exactly when a matrix is returned**, for at least two samples: with a quadratic trend never; otherwise for the squared exponential
with a parameter for each coordinate, for the Matérn correlation at the samples, and for the
absolute exponential where a coordinate equals that of the first sample. -/
theorem c130_returns (kind : TrendKind) (name : CorrName) (theta : List ℝ) (hp : ∀ t ∈ theta, 0 < t)
    (hl : theta.length = 1 ∨ theta.length = n) (c : (Fin n → ℝ) → ℝ) (hN : 2 ≤ N)
    (X : Fin N → Fin n → ℝ) (a : GpAux N (trendDim kind n)) (beta : Option (Fin (trendDim kind n) → ℝ)) (x : Fin n → ℝ) :
    (gpHessian kind name theta c X a beta x).isSome ↔ kind ≠ .quadratic ∧
      ((name = .squaredExponential ∧ n ≤ theta.length) ∨
       ((∃ nu, name = .matern nu) ∧ ∃ i, x = X i) ∨
       (name = .absoluteExponential ∧ ∃ k, x k = X ⟨0, by omega⟩ k)) := by
  have hN1 : ¬ N = 1 := by omega
  have hex : (∃ (i : Fin N) (k : Fin n), i.val = 0 ∧ x k = X i k) ↔ ∃ k, x k = X ⟨0, by omega⟩ k := by
    constructor
    · rintro ⟨i, k, hi, e⟩
      have : i = ⟨0, by omega⟩ := Fin.ext hi
      exact ⟨k, this ▸ e⟩
    · rintro ⟨k, e⟩; exact ⟨_, k, rfl, e⟩
  have hdist : (∃ i, scaledDist theta (fun k => x k - X i k) = 0) ↔ ∃ i, x = X i := by
    refine exists_congr fun i => ⟨fun h => ?_, fun h => by simp [scaledDist, h]⟩
    by_contra hne
    obtain ⟨k, hk⟩ := Function.ne_iff.1 hne
    have hk2 : 0 < (x k - X i k) ^ 2 := by have := sub_ne_zero.2 hk; positivity
    have hs : 0 < ∑ k : Fin n, thetaAt theta k.val * (x k - X i k) ^ 2 :=
      Finset.sum_pos' (fun l _ => mul_nonneg (thetaAt_pos hp hl l).le (sq_nonneg _))
        ⟨k, Finset.mem_univ k, mul_pos (thetaAt_pos hp hl k) hk2⟩
    exact (Real.sqrt_pos.2 hs).ne' h
  have key : (corrHessianDot name theta X x (corrVector c X x) (gpGamma a)).isSome ↔
      ((name = .squaredExponential ∧ n ≤ theta.length) ∨
       ((∃ nu, name = .matern nu) ∧ ∃ i, x = X i) ∨
       (name = .absoluteExponential ∧ ∃ k, x k = X ⟨0, by omega⟩ k)) := by
    cases name with
    | squaredExponential =>
      simp only [corrHessianDot, corrHessian, Option.isSome_map]
      split_ifs with h
      · simp; omega
      · simp; omega
    | matern nu =>
      simp only [corrHessianDot, hdist]
      split_ifs with h <;> simp [h]
    | absoluteExponential =>
      simp only [corrHessianDot, hex]
      split_ifs with h h2
      · simp [h]
      · exact absurd h2.1 hN1
      · simp [h]
    | generalizedExponential => simp [corrHessianDot]
    | cubic => simp [corrHessianDot]
  rw [← key]
  unfold gpHessian
  cases kind <;> simp [trendHessian]

private theorem matern_abs_deriv (t : ℝ) :
    HasDerivAt (fun s => maternValue .threeHalves |s|) (-3 * t * Real.exp (-(Real.sqrt 3 * |t|))) t := by
  have h3 : Real.sqrt 3 * Real.sqrt 3 = 3 := Real.mul_self_sqrt (by norm_num)
  have hq : ∀ u : ℝ, HasDerivAt (fun s => maternValue .threeHalves s) (-3 * u * Real.exp (-(Real.sqrt 3 * u))) u := by
    intro u
    have h1 : HasDerivAt (fun s : ℝ => s * Real.sqrt 3) (Real.sqrt 3) u := by simpa using (hasDerivAt_id u).mul_const (Real.sqrt 3)
    have h2 := (h1.const_add 1).mul h1.neg.exp
    simp only [maternValue]
    refine h2.congr_deriv ?_
    have e : u * Real.sqrt 3 = Real.sqrt 3 * u := mul_comm _ _
    simp only [Pi.neg_apply, e]
    linear_combination (-u * Real.exp (-(Real.sqrt 3 * u))) * h3
  by_cases ht : t = 0
  · subst ht
    have h0 := hq 0
    have h0' := (hasDerivAt_iff_isLittleO_nhds_zero).1 h0
    rw [hasDerivAt_iff_isLittleO_nhds_zero]
    have hab : Filter.Tendsto (fun h : ℝ => |h|) (nhds 0) (nhds 0) := by simpa using (continuous_abs (G := ℝ)).tendsto 0
    have := (h0'.comp_tendsto hab)
    have this' := this.trans_isBigO (Asymptotics.isBigO_refl (fun h : ℝ => h) (nhds 0)).norm_left
    simpa [Function.comp_def] using this'
  · have h1 := (hq |t|).comp t (hasDerivAt_abs ht)
    refine h1.congr_deriv ?_
    have : |t| * (SignType.sign t : ℝ) = t := abs_mul_sign t
    linear_combination (-3 * Real.exp (-(Real.sqrt 3 * |t|))) * this

/-- **C130, refuted for the Matérn correlation.**  A process in one dimension with one observation, one at the origin, and mean zero: the
Hessian returned at the sample is zero, and the second derivative of the predicted mean is -3. -/
theorem c130_matern_refuted : ∃ (c : (Fin 1 → ℝ) → ℝ) (a : GpAux 1 (trendDim .constant 1)),
    (∀ d, corr (.matern .threeHalves) [1] d = some (c d)) ∧
    computeAux (fun A => if A = 1 then some 1 else none) (fun A => (A, 1)) (of (correlationMatrix c fun _ _ => 0)) (of fun _ => trendBasis .constant fun _ => 0)
      (some fun _ => 0) (fun _ => 1) = some a ∧
    gpHessian .constant (.matern .threeHalves) [1] c (fun _ _ => 0) a (some fun _ => 0) (fun _ => 0) = some (fun _ _ => 0) ∧
    SecondDerivatives (fun z => gpMean a (some fun _ => 0) (trendBasis .constant z) (corrVector c (fun _ _ => 0) z)) (fun _ => 0) (fun _ _ => -3) := by
  have hc : ∀ d : Fin 1 → ℝ, corr (.matern .threeHalves) [1] d = some (maternValue .threeHalves |d 0|) := by
    intro d
    simp [corr, weightedSum, Real.sqrt_sq_eq_abs]
  have hm0 : maternValue .threeHalves (0 : ℝ) = 1 := by simp [maternValue]
  have hR : (of (correlationMatrix (fun d : Fin 1 → ℝ => maternValue .threeHalves |d 0|) (fun _ _ => 0 : Fin 1 → Fin 1 → ℝ)) : Matrix (Fin 1) (Fin 1) ℝ) = 1 := by
    funext i j
    rw [Subsingleton.elim i 0, Subsingleton.elim j 0]
    simp [correlationMatrix_apply, absDiff, hm0]
  refine ⟨_, _, hc, by rw [hR]; simp only [computeAux, if_true, Option.map_some]; rfl, ?_, ?_⟩
  · simp only [gpHessian, trendHessian, Option.bind_some, corrHessianDot]
    rw [if_pos ⟨0, by simp [scaledDist]⟩]
    simp [dotProduct]
  · refine ⟨fun y _ => -3 * y 0 * Real.exp (-(Real.sqrt 3 * |y 0|)), fun y k => ?_, fun k l => ?_⟩
    · rw [Subsingleton.elim k 0]
      have := matern_abs_deriv (y 0)
      simpa [gpMean, gpBeta, gpGamma, corrVector, absDiff, dotProduct, mulVec] using this
    · simp only [Function.update_self, Subsingleton.elim l 0]
      rw [hasDerivAt_iff_tendsto_slope_zero]
      have hcont : Continuous fun t : ℝ => -3 * Real.exp (-(Real.sqrt 3 * |t|)) := by fun_prop
      have h0 : Filter.Tendsto (fun t : ℝ => -3 * Real.exp (-(Real.sqrt 3 * |t|))) (nhdsWithin 0 {0}ᶜ) (nhds (-3)) := by
        have := hcont.tendsto 0
        simp only [abs_zero, mul_zero, neg_zero, Real.exp_zero, mul_one] at this
        exact this.mono_left nhdsWithin_le_nhds
      refine h0.congr' ?_
      filter_upwards [self_mem_nhdsWithin] with t ht
      have ht' : t ≠ 0 := ht
      simp only [zero_add, smul_eq_mul]
      field_simp
      simp

/-- Non-vacuity of `c130_hessian_partial`: the hypotheses hold for a linear trend in two dimensions. -/
example : ∃ c : (Fin 2 → ℝ) → ℝ, (∀ d, corr .squaredExponential [1, 2] d = some (c d)) ∧ ([1, 2] : List ℝ).length = 2 ∧
    (∀ t ∈ ([1, 2] : List ℝ), 0 < t) ∧ TrendKind.linear ≠ .quadratic := by
  refine ⟨fun d => (corr .squaredExponential [1, 2] d).getD 0, fun d => ?_, rfl, by simp, by simp⟩
  simp [corr, weightedSum]

end Verif.Props
