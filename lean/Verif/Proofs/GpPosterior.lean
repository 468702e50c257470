import Verif.Spec.GpPosterior
import Verif.Spec.Acquisition
import Verif.Proofs.Gpr
import Mathlib.Probability.Distributions.Gaussian.HasGaussianLaw.Independence
import Mathlib.Probability.Kernel.CondDistrib

/-!
# Lemmas for the posterior distribution of a Gaussian process
-/
namespace Verif.Proofs

open Matrix MeasureTheory ProbabilityTheory Verif.Model Verif.Spec

variable {N k : ℕ}

/-- A minimum of the error variance along a line is a stationary point. -/
theorem errVar_stationary {R : Matrix (Fin N) (Fin N) ℝ} (hs : Rᵀ = R) (r w v : Fin N → ℝ)
    (hopt : ∀ s : ℝ, errVar R r w ≤ errVar R r (w + s • v)) : v ⬝ᵥ (R *ᵥ w) = v ⬝ᵥ r := by
  have hsym : w ⬝ᵥ (R *ᵥ v) = v ⬝ᵥ (R *ᵥ w) := by
    rw [dotProduct_mulVec, ← mulVec_transpose, hs, dotProduct_comm]
  have hexp : ∀ s : ℝ, errVar R r (w + s • v) = errVar R r w + 2 * s * (v ⬝ᵥ (R *ᵥ w) - v ⬝ᵥ r) + s ^ 2 * (v ⬝ᵥ (R *ᵥ v)) := by
    intro s
    unfold errVar
    simp only [mulVec_add, mulVec_smul, add_dotProduct, dotProduct_add, smul_dotProduct, dotProduct_smul, smul_eq_mul, hsym]
    ring
  set A := v ⬝ᵥ (R *ᵥ w) - v ⬝ᵥ r with hA
  set B := v ⬝ᵥ (R *ᵥ v) with hB
  by_contra hne
  have hA0 : A ≠ 0 := sub_ne_zero.2 hne
  have hd : 0 < |B| + 1 := by positivity
  have h1 := hopt (-A / (|B| + 1))
  rw [hexp] at h1
  have h2 : 2 * (-A / (|B| + 1)) * A + (-A / (|B| + 1)) ^ 2 * B ≤ -(A ^ 2 / (|B| + 1)) := by
    have e : 2 * (-A / (|B| + 1)) * A + (-A / (|B| + 1)) ^ 2 * B = A ^ 2 / (|B| + 1) * (B / (|B| + 1) - 2) := by
      field_simp; ring
    have hb : B / (|B| + 1) ≤ 1 := by rw [div_le_one hd]; linarith [le_abs_self B]
    have hp : 0 ≤ A ^ 2 / (|B| + 1) := by positivity
    rw [e]
    nlinarith
  have h3 : 0 < A ^ 2 / (|B| + 1) := by positivity
  linarith

section
variable {Ω : Type*} [MeasurableSpace Ω] {P : Measure Ω} {Y : Fin N → Ω → ℝ} {Z : Ω → ℝ} {F : Matrix (Fin N) (Fin k) ℝ}
    {f beta : Fin k → ℝ} {R : Matrix (Fin N) (Fin N) ℝ} {r : Fin N → ℝ} {sigma2 : ℝ}

/-- The expectation of the error of a linear predictor. -/
theorem error_mean (h : IsProcess P Y Z F f beta R r sigma2 0) (w : Fin N → ℝ) :
    ∫ ω, (Z ω - ∑ i, w i * Y i ω) ∂P = f ⬝ᵥ beta - w ⬝ᵥ (F *ᵥ beta) := by
  have := h.prob
  have iZ := h.memZ.integrable one_le_two
  have iY : ∀ i, Integrable (fun ω => w i * Y i ω) P := fun i => ((h.memY i).const_mul (w i)).integrable one_le_two
  have iS : Integrable (fun ω => ∑ i, w i * Y i ω) P := integrable_finsetSum _ fun i _ => iY i
  rw [integral_sub iZ iS, integral_finsetSum _ (fun i _ => iY i), h.meanZ]
  simp only [integral_const_mul, h.meanY, dotProduct, mulVec]

/-- The variance of the error of a linear predictor. -/
theorem error_variance (h : IsProcess P Y Z F f beta R r sigma2 0) (w : Fin N → ℝ) :
    Var[fun ω => Z ω - ∑ i, w i * Y i ω; P] = errVar R r w * sigma2 := by
  have := h.prob
  have hS : MemLp (fun ω => ∑ i, w i * Y i ω) 2 P := memLp_finsetSum Finset.univ fun i _ => (h.memY i).const_mul (w i)
  have hD : MemLp (fun ω => Z ω - ∑ i, w i * Y i ω) 2 P := h.memZ.sub hS
  have h1 := mse_affine h (f ⬝ᵥ beta - w ⬝ᵥ (F *ᵥ beta)) w
  rw [variance_eq_integral hD.aestronglyMeasurable.aemeasurable, error_mean h w]
  have e : meanSquaredError P Y Z (fun y => (f ⬝ᵥ beta - w ⬝ᵥ (F *ᵥ beta)) + w ⬝ᵥ y) =
      ∫ ω, (Z ω - ∑ i, w i * Y i ω - (f ⬝ᵥ beta - w ⬝ᵥ (F *ᵥ beta))) ^ 2 ∂P := by
    unfold meanSquaredError
    congr 1
    funext ω
    simp only [dotProduct]
    ring
  rw [← e, h1]
  ring

/-- The error of a linear predictor of a Gaussian process is normal. -/
theorem error_law (h : IsGaussianModel P Y Z F f beta R r sigma2 0) (w : Fin N → ℝ) :
    P.map (fun ω => Z ω - ∑ i, w i * Y i ω) = gaussianReal (f ⬝ᵥ beta - w ⬝ᵥ (F *ᵥ beta)) (errVar R r w * sigma2).toNNReal := by
  have := h.prob
  let D : ((Fin N → ℝ) × ℝ) →L[ℝ] ℝ :=
    ContinuousLinearMap.snd ℝ _ _ - (∑ i, w i • ContinuousLinearMap.proj i).comp (ContinuousLinearMap.fst ℝ _ _)
  have hg : HasGaussianLaw (fun ω => Z ω - ∑ i, w i * Y i ω) P := by
    have := h.joint.map_fun D
    simpa [D] using this
  rw [hg.map_eq_gaussianReal, error_variance h.toIsProcess w, error_mean h.toIsProcess w]

/-- Linear functions of the observations that are uncorrelated with the error are independent of it. -/
theorem error_indep (h : IsGaussianModel P Y Z F f beta R r sigma2 0) (w : Fin N → ℝ) {q : ℕ} (C : Matrix (Fin q) (Fin N) ℝ)
    (hC : ∀ j, C j ⬝ᵥ (R *ᵥ w) = C j ⬝ᵥ r) :
    IndepFun (fun ω => C *ᵥ (fun i => Y i ω)) (fun ω => Z ω - ∑ i, w i * Y i ω) P := by
  have := h.prob
  let D : ((Fin N → ℝ) × ℝ) →L[ℝ] ((Fin q → ℝ) × (Fin 1 → ℝ)) :=
    (ContinuousLinearMap.pi fun j => (∑ i, C j i • ContinuousLinearMap.proj i).comp (ContinuousLinearMap.fst ℝ _ _)).prod
      (ContinuousLinearMap.pi fun _ => ContinuousLinearMap.snd ℝ _ _ - (∑ i, w i • ContinuousLinearMap.proj i).comp (ContinuousLinearMap.fst ℝ _ _))
  have hg : HasGaussianLaw (fun ω => ((fun j => ∑ i, C j i * Y i ω), (fun _ : Fin 1 => Z ω - ∑ i, w i * Y i ω))) P := by
    have := h.joint.map_fun D
    have e : (fun ω => D ((fun i => Y i ω), Z ω)) = fun ω => ((fun j => ∑ i, C j i * Y i ω), (fun _ : Fin 1 => Z ω - ∑ i, w i * Y i ω)) := by
      funext ω
      refine Prod.ext ?_ ?_ <;> funext j <;> simp [D]
    rwa [e] at this
  have hw : ∀ i, MemLp (fun ω => w i * Y i ω) 2 P := fun i => (h.memY i).const_mul (w i)
  have hS : MemLp (fun ω => ∑ i, w i * Y i ω) 2 P := memLp_finsetSum Finset.univ fun i _ => hw i
  have hv : ∀ j i, MemLp (fun ω => C j i * Y i ω) 2 P := fun j i => (h.memY i).const_mul (C j i)
  have hind := hg.indepFun_of_covariance_eval (X := fun j ω => ∑ i, C j i * Y i ω) (Y := fun _ ω => Z ω - ∑ i, w i * Y i ω) (fun j _ => by
    rw [covariance_fun_sub_right (memLp_finsetSum Finset.univ fun i _ => hv j i) h.memZ hS,
      covariance_fun_sum_left (hv j) h.memZ, covariance_fun_sum_fun_sum (hv j) hw]
    have c1 : ∀ i, cov[fun ω => C j i * Y i ω, Z; P] = C j i * (sigma2 * r i) := fun i => by
      rw [covariance_const_mul_left, h.covYZ]
    have c2 : ∀ i l, cov[fun ω => C j i * Y i ω, fun ω => w l * Y l ω; P] = C j i * (w l * (sigma2 * R i l)) := fun i l => by
      rw [covariance_const_mul_left, covariance_const_mul_right, h.covY]
      simp
    simp only [c1, c2]
    have h1 := hC j
    have e1 : ∑ i, C j i * (sigma2 * r i) = sigma2 * (C j ⬝ᵥ r) := by
      simp only [dotProduct, Finset.mul_sum]; exact Finset.sum_congr rfl fun i _ => by ring
    have e2 : ∑ i, ∑ l, C j i * (w l * (sigma2 * R i l)) = sigma2 * (C j ⬝ᵥ (R *ᵥ w)) := by
      simp only [dotProduct, mulVec, Finset.mul_sum]
      exact Finset.sum_congr rfl fun i _ => Finset.sum_congr rfl fun l _ => by ring
    rw [e1, e2, h1, sub_self])
  have hψ : Measurable fun x : Fin 1 → ℝ => x 0 := measurable_pi_apply 0
  exact hind.comp (φ := id) measurable_id hψ

/-- If the error of a predictor is independent of the observations, the conditional law of the value is the law of the error, moved by
the prediction. -/
theorem cond_of_indep [IsProbabilityMeasure P] (hY : AEMeasurable (fun ω i => Y i ω) P) (hZ : AEMeasurable Z P) {a : (Fin N → ℝ) → ℝ} (ha : Measurable a)
    (hind : IndepFun (fun ω i => Y i ω) (fun ω => Z ω - a (fun i => Y i ω)) P) {m v : ℝ}
    (hlaw : P.map (fun ω => Z ω - a (fun i => Y i ω)) = gaussianReal m v.toNNReal) :
    ∀ᵐ y ∂(P.map fun ω i => Y i ω), condDistrib Z (fun ω i => Y i ω) P y = predictive (m + a y) v := by
  have hk : Measurable fun y : Fin N → ℝ => predictive (m + a y) v := by
    have e : (fun y : Fin N → ℝ => predictive (m + a y) v) = fun y => (gaussianReal m v.toNNReal).map (fun d => a y + d) := by
      funext y
      rw [gaussianReal_map_const_add]
      rfl
    rw [e]
    refine Measure.measurable_of_measurable_coe _ fun s hs => ?_
    have e2 : (fun y => ((gaussianReal m v.toNNReal).map (fun d => a y + d)) s) =
        fun y => gaussianReal m v.toNNReal (Prod.mk y ⁻¹' {p : (Fin N → ℝ) × ℝ | a p.1 + p.2 ∈ s}) := by
      funext y
      rw [Measure.map_apply (by fun_prop) hs]
      rfl
    rw [e2]
    exact measurable_measure_prodMk_left (((ha.comp measurable_fst).add measurable_snd) hs)
  let κ : Kernel (Fin N → ℝ) ℝ := ⟨fun y => predictive (m + a y) v, hk⟩
  have : IsMarkovKernel κ := ⟨fun y => by change IsProbabilityMeasure (gaussianReal _ _); infer_instance⟩
  have hD : AEMeasurable (fun ω => Z ω - a (fun i => Y i ω)) P := hZ.sub (ha.comp_aemeasurable hY)
  refine (condDistrib_ae_eq_of_measure_eq_compProd (κ := κ) _ hZ ?_)
  have hprod := (indepFun_iff_map_prod_eq_prod_map_map hY hD).1 hind
  have hpair : (fun ω => ((fun i => Y i ω), Z ω)) =
      (fun p : (Fin N → ℝ) × ℝ => (p.1, a p.1 + p.2)) ∘ (fun ω => ((fun i => Y i ω), Z ω - a (fun i => Y i ω))) := by
    funext ω; simp
  have hm : Measurable (fun p : (Fin N → ℝ) × ℝ => (p.1, a p.1 + p.2)) :=
    measurable_fst.prodMk ((ha.comp measurable_fst).add measurable_snd)
  rw [hpair, ← AEMeasurable.map_map_of_aemeasurable hm.aemeasurable (hY.prodMk hD), hprod, hlaw]
  have : IsProbabilityMeasure (P.map fun ω i => Y i ω) := Measure.isProbabilityMeasure_map hY
  ext s hs
  rw [Measure.map_apply hm hs, Measure.prod_apply (hm hs), Measure.compProd_apply hs]
  refine lintegral_congr fun y => ?_
  change _ = gaussianReal (m + a y) v.toNNReal _
  rw [← gaussianReal_map_const_add (a y), Measure.map_apply (by fun_prop) (measurable_prodMk_left hs)]
  rfl

end

end Verif.Proofs
