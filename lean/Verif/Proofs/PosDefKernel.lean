import Mathlib.Analysis.Matrix.Order
import Mathlib.Analysis.SpecialFunctions.ImproperIntegrals
import Mathlib.Analysis.SpecialFunctions.Exponential
import Mathlib.MeasureTheory.Integral.IntegralEqImproper
import Mathlib.Analysis.SpecialFunctions.Sqrt
import Mathlib.Analysis.SpecialFunctions.Pow.Asymptotics

/-!
# Positive semidefinite kernels on a finite set of points
-/
namespace Verif.Proofs

open MeasureTheory Set Filter Topology

variable {ι : Type*} [Fintype ι]

/-- A symmetric table whose quadratic form is never negative. -/
def Psd (K : ι → ι → ℝ) : Prop :=
  (∀ i j, K i j = K j i) ∧ ∀ c : ι → ℝ, 0 ≤ ∑ i, ∑ j, c i * c j * K i j

/-- A symmetric table whose quadratic form is never positive on weights that sum to zero. -/
def Cnd (W : ι → ι → ℝ) : Prop :=
  (∀ i j, W i j = W j i) ∧ ∀ c : ι → ℝ, ∑ i, c i = 0 → ∑ i, ∑ j, c i * c j * W i j ≤ 0

theorem Psd.congr {K K' : ι → ι → ℝ} (h : Psd K) (e : ∀ i j, K' i j = K i j) : Psd K' := by
  have : K' = K := by funext i j; exact e i j
  rw [this]; exact h

theorem psd_iff (K : ι → ι → ℝ) : Psd K ↔ (Matrix.of K).PosSemidef := by
  rw [Matrix.posSemidef_iff_dotProduct_mulVec]
  refine and_congr ?_ ?_
  · constructor
    · intro h; ext i j; simp [Matrix.conjTranspose_apply, h j i]
    · intro h i j
      have := congrFun (congrFun h j) i
      simpa [Matrix.conjTranspose_apply] using this
  · refine forall_congr' fun c => ?_
    have : star c ⬝ᵥ Matrix.mulVec (Matrix.of K) c = ∑ i, ∑ j, c i * c j * K i j := by
      simp only [dotProduct, Matrix.mulVec, Finset.mul_sum, Pi.star_apply, star_trivial, Matrix.of_apply]
      exact Finset.sum_congr rfl fun i _ => Finset.sum_congr rfl fun j _ => by ring
    rw [this]

theorem Psd.mul {K L : ι → ι → ℝ} (hK : Psd K) (hL : Psd L) : Psd (fun i j => K i j * L i j) := by
  rw [psd_iff] at *
  exact hK.hadamard hL

theorem Psd.add {K L : ι → ι → ℝ} (hK : Psd K) (hL : Psd L) : Psd (fun i j => K i j + L i j) := by
  refine ⟨fun i j => by beta_reduce; rw [hK.1, hL.1], fun c => ?_⟩
  simp only [mul_add, Finset.sum_add_distrib]
  exact add_nonneg (hK.2 c) (hL.2 c)

theorem Psd.smul {K : ι → ι → ℝ} (hK : Psd K) {a : ℝ} (ha : 0 ≤ a) : Psd (fun i j => a * K i j) := by
  refine ⟨fun i j => by beta_reduce; rw [hK.1], fun c => ?_⟩
  have : ∑ i, ∑ j, c i * c j * (a * K i j) = a * ∑ i, ∑ j, c i * c j * K i j := by
    simp only [Finset.mul_sum]
    exact Finset.sum_congr rfl fun i _ => Finset.sum_congr rfl fun j _ => by ring
  rw [this]
  exact mul_nonneg ha (hK.2 c)

theorem psd_outer (f : ι → ℝ) : Psd (fun i j => f i * f j) := by
  refine ⟨fun i j => mul_comm _ _, fun c => ?_⟩
  have : ∑ i, ∑ j, c i * c j * (f i * f j) = (∑ i, c i * f i) ^ 2 := by
    rw [sq, Finset.sum_mul_sum]
    exact Finset.sum_congr rfl fun i _ => Finset.sum_congr rfl fun j _ => by ring
  rw [this]
  positivity

theorem psd_one : Psd (fun _ _ : ι => (1 : ℝ)) := (psd_outer (fun _ => (1 : ℝ))).congr (fun _ _ => by ring)

theorem psd_sum {κ : Type*} (s : Finset κ) {K : κ → ι → ι → ℝ} (h : ∀ k ∈ s, Psd (K k)) :
    Psd (fun i j => ∑ k ∈ s, K k i j) := by
  classical
  induction s using Finset.induction_on with
  | empty => exact (psd_one.smul (le_refl 0)).congr (fun _ _ => by simp)
  | insert a s ha ih =>
    refine ((h a (Finset.mem_insert_self a s)).add (ih fun k hk => h k (Finset.mem_insert_of_mem hk))).congr ?_
    intro i j
    rw [Finset.sum_insert ha]

theorem psd_prod {κ : Type*} (s : Finset κ) {K : κ → ι → ι → ℝ} (h : ∀ k ∈ s, Psd (K k)) :
    Psd (fun i j => ∏ k ∈ s, K k i j) := by
  classical
  induction s using Finset.induction_on with
  | empty => exact psd_one.congr (fun _ _ => by simp)
  | insert a s ha ih =>
    refine ((h a (Finset.mem_insert_self a s)).mul (ih fun k hk => h k (Finset.mem_insert_of_mem hk))).congr ?_
    intro i j
    rw [Finset.prod_insert ha]

theorem Psd.pow {K : ι → ι → ℝ} (h : Psd K) (n : ℕ) : Psd (fun i j => K i j ^ n) :=
  (psd_prod (Finset.range n) (fun _ _ => h)).congr (fun i j => by simp)

theorem psd_limit {K : ℕ → ι → ι → ℝ} {L : ι → ι → ℝ} (h : ∀ n, Psd (K n))
    (hl : ∀ i j, Tendsto (fun n => K n i j) atTop (𝓝 (L i j))) : Psd L := by
  refine ⟨fun i j => ?_, fun c => ?_⟩
  · refine tendsto_nhds_unique (hl i j) ?_
    simp only [(h _).1 i j]
    exact hl j i
  · refine ge_of_tendsto' (tendsto_finsetSum _ fun i _ => tendsto_finsetSum _ fun j _ => (hl i j).const_mul (c i * c j))
      (fun n => (h n).2 c)

theorem Psd.exp {K : ι → ι → ℝ} (h : Psd K) : Psd (fun i j => Real.exp (K i j)) := by
  refine psd_limit (K := fun n i j => ∑ k ∈ Finset.range n, (k.factorial : ℝ)⁻¹ * K i j ^ k)
    (fun n => psd_sum _ fun k _ => (h.pow k).smul (by positivity)) ?_
  intro i j
  have := (NormedSpace.expSeries_div_hasSum_exp (𝔸 := ℝ) (K i j)).tendsto_sum_nat
  rw [← Real.exp_eq_exp_ℝ] at this
  refine this.congr fun n => Finset.sum_congr rfl fun k _ => ?_
  rw [div_eq_inv_mul]

/-- Integration of a family of such tables. -/
theorem psd_integral {μ : Measure ℝ} {K : ℝ → ι → ι → ℝ} (h : ∀ᵐ s ∂μ, Psd (K s))
    (hi : ∀ i j, Integrable (fun s => K s i j) μ) : Psd (fun i j => ∫ s, K s i j ∂μ) := by
  refine ⟨fun i j => ?_, fun c => ?_⟩
  · exact integral_congr_ae (h.mono fun s hs => hs.1 i j)
  · have : ∑ i, ∑ j, c i * c j * ∫ s, K s i j ∂μ = ∫ s, ∑ i, ∑ j, c i * c j * K s i j ∂μ := by
      rw [integral_finsetSum _ fun i _ => integrable_finsetSum _ fun j _ => (hi i j).const_mul _]
      refine Finset.sum_congr rfl fun i _ => ?_
      rw [integral_finsetSum _ fun j _ => (hi i j).const_mul _]
      exact Finset.sum_congr rfl fun j _ => (integral_const_mul _ _).symm
    rw [this]
    exact integral_nonneg_of_ae (h.mono fun s hs => hs.2 c)

/-- Schoenberg: minus a conditionally negative table can be exponentiated. -/
theorem Cnd.exp_neg {W : ι → ι → ℝ} (h : Cnd W) : Psd (fun i j => Real.exp (-W i j)) := by
  classical
  rcases isEmpty_or_nonempty ι with he | ⟨⟨o⟩⟩
  · exact ⟨fun i => (he.false i).elim, fun c => by simp⟩
  have hφ : Psd (fun i j => W i o + W o j - W i j - W o o) := by
    refine ⟨fun i j => by beta_reduce; rw [h.1 i o, h.1 o j, h.1 i j]; ring, fun c => ?_⟩
    set S := ∑ i, c i with hS
    have h0 := h.2 (fun i => c i - if i = o then S else 0) (by
      rw [Finset.sum_sub_distrib, Finset.sum_ite_eq' Finset.univ o]; simp [hS])
    have e1 : ∑ i, ∑ j, (c i - if i = o then S else 0) * (c j - if j = o then S else 0) * W i j =
        ∑ i, ∑ j, c i * c j * W i j - S * ∑ i, c i * W i o - S * ∑ j, c j * W o j + S * S * W o o := by
      have : ∀ i, ∑ j, (c i - if i = o then S else 0) * (c j - if j = o then S else 0) * W i j =
          (∑ j, c i * c j * W i j) - S * (c i * W i o) -
            (if i = o then S * ∑ j, c j * W i j - S * S * W i o else 0) := by
        intro i
        have : ∀ j, (c i - if i = o then S else 0) * (c j - if j = o then S else 0) * W i j =
            c i * c j * W i j - (if j = o then c i * S * W i j else 0) -
            (if i = o then S * (c j * W i j) else 0) + (if j = o then (if i = o then S * S * W i j else 0) else 0) := by
          intro j; by_cases a : i = o <;> by_cases b : j = o <;> simp [a, b] <;> ring
        simp only [this, Finset.sum_add_distrib, Finset.sum_sub_distrib, Finset.sum_ite_eq', Finset.mem_univ, if_true]
        by_cases a : i = o
        · simp [a, Finset.mul_sum]; ring
        · simp [a]; ring
      simp only [this, Finset.sum_sub_distrib, Finset.sum_ite_eq', Finset.mem_univ, if_true, Finset.mul_sum]
      ring
    rw [e1] at h0
    have e2 : ∑ i, ∑ j, c i * c j * (W i o + W o j - W i j - W o o) =
        S * ∑ i, c i * W i o + S * ∑ j, c j * W o j - ∑ i, ∑ j, c i * c j * W i j - S * S * W o o := by
      have : ∀ i, ∑ j, c i * c j * (W i o + W o j - W i j - W o o) =
          S * (c i * W i o) + c i * (∑ j, c j * W o j) - (∑ j, c i * c j * W i j) - c i * (S * W o o) := by
        intro i
        rw [hS]
        simp only [Finset.sum_mul, Finset.mul_sum, ← Finset.sum_add_distrib, ← Finset.sum_sub_distrib]
        exact Finset.sum_congr rfl fun j _ => by ring
      simp only [this, Finset.sum_sub_distrib, Finset.sum_add_distrib, ← Finset.sum_mul, ← Finset.mul_sum, ← hS]
      ring
    rw [e2]
    linarith
  refine ((hφ.exp.mul (psd_outer fun i => Real.exp (-W i o))).smul (Real.exp_pos (W o o)).le).congr ?_
  intro i j
  rw [← Real.exp_add, ← Real.exp_add, ← Real.exp_add, h.1 j o]
  congr 1
  ring

theorem Cnd.add {V W : ι → ι → ℝ} (hV : Cnd V) (hW : Cnd W) : Cnd (fun i j => V i j + W i j) := by
  refine ⟨fun i j => by beta_reduce; rw [hV.1, hW.1], fun c hc => ?_⟩
  simp only [mul_add, Finset.sum_add_distrib]
  exact add_nonpos (hV.2 c hc) (hW.2 c hc)

theorem Cnd.smul {W : ι → ι → ℝ} (hW : Cnd W) {a : ℝ} (ha : 0 ≤ a) : Cnd (fun i j => a * W i j) := by
  refine ⟨fun i j => by beta_reduce; rw [hW.1], fun c hc => ?_⟩
  have : ∑ i, ∑ j, c i * c j * (a * W i j) = a * ∑ i, ∑ j, c i * c j * W i j := by
    simp only [Finset.mul_sum]
    exact Finset.sum_congr rfl fun i _ => Finset.sum_congr rfl fun j _ => by ring
  rw [this]
  exact mul_nonpos_of_nonneg_of_nonpos ha (hW.2 c hc)

theorem cnd_sum {κ : Type*} (s : Finset κ) {W : κ → ι → ι → ℝ} (h : ∀ k ∈ s, Cnd (W k)) :
    Cnd (fun i j => ∑ k ∈ s, W k i j) := by
  classical
  induction s using Finset.induction_on with
  | empty => exact ⟨fun _ _ => rfl, fun c _ => by simp⟩
  | insert a s ha ih =>
    have := (h a (Finset.mem_insert_self a s)).add (ih fun k hk => h k (Finset.mem_insert_of_mem hk))
    simpa only [Finset.sum_insert ha] using this

/-! ### Powers of squared distances -/

theorem integrable_bernstein {α : ℝ} (h0 : 0 < α) (h1 : α < 1) :
    IntegrableOn (fun s : ℝ => (1 - Real.exp (-s)) * s ^ (-1 - α)) (Ioi 0) := by
  have hm : AEStronglyMeasurable (fun s : ℝ => (1 - Real.exp (-s)) * s ^ (-1 - α)) (volume.restrict (Ioi 0)) := by
    refine (ContinuousOn.mul (by fun_prop) ?_).aestronglyMeasurable measurableSet_Ioi
    exact fun s hs => (Real.continuousAt_rpow_const _ _ (Or.inl (ne_of_gt hs))).continuousWithinAt
  have hb : ∀ s : ℝ, 0 < s → 0 ≤ 1 - Real.exp (-s) ∧ 1 - Real.exp (-s) ≤ s ∧ 1 - Real.exp (-s) ≤ 1 := by
    intro s hs
    have := Real.add_one_le_exp (-s)
    refine ⟨?_, by linarith, by linarith [Real.exp_pos (-s)]⟩
    have : Real.exp (-s) ≤ 1 := Real.exp_le_one_iff.2 (by linarith)
    linarith
  rw [← Ioc_union_Ioi_eq_Ioi (zero_le_one : (0 : ℝ) ≤ 1)]
  refine IntegrableOn.union ?_ ?_
  · have hi : IntegrableOn (fun s : ℝ => s ^ (-α)) (Ioc 0 1) := by
      have := (intervalIntegral.intervalIntegrable_rpow' (a := 0) (b := 1) (r := -α) (by linarith))
      rwa [intervalIntegrable_iff_integrableOn_Ioc_of_le zero_le_one] at this
    refine hi.mono' (hm.mono_set Ioc_subset_Ioi_self) ?_
    refine (ae_restrict_mem measurableSet_Ioc).mono fun s hs => ?_
    have hs0 : 0 < s := hs.1
    rw [Real.norm_of_nonneg (mul_nonneg (hb s hs0).1 (Real.rpow_nonneg hs0.le _))]
    calc (1 - Real.exp (-s)) * s ^ (-1 - α) ≤ s * s ^ (-1 - α) :=
          mul_le_mul_of_nonneg_right (hb s hs0).2.1 (Real.rpow_nonneg hs0.le _)
      _ = s ^ (-α) := by
          nth_rewrite 1 [← Real.rpow_one s]
          rw [← Real.rpow_add hs0]; congr 1; ring
  · have hi : IntegrableOn (fun s : ℝ => s ^ (-1 - α)) (Ioi 1) := integrableOn_Ioi_rpow_of_lt (by linarith) one_pos
    refine hi.mono' (hm.mono_set (Ioi_subset_Ioi zero_le_one)) ?_
    refine (ae_restrict_mem measurableSet_Ioi).mono fun s hs => ?_
    have hs0 : 0 < s := lt_trans one_pos hs
    rw [Real.norm_of_nonneg (mul_nonneg (hb s hs0).1 (Real.rpow_nonneg hs0.le _))]
    exact mul_le_of_le_one_left (Real.rpow_nonneg hs0.le _) (hb s hs0).2.2

/-- The constant in the integral representation of a power. -/
noncomputable def bernsteinConst (α : ℝ) : ℝ := ∫ s in Ioi (0 : ℝ), (1 - Real.exp (-s)) * s ^ (-1 - α)

theorem bernsteinConst_pos {α : ℝ} (h0 : 0 < α) (h1 : α < 1) : 0 < bernsteinConst α := by
  refine (setIntegral_pos_iff_support_of_nonneg_ae ?_ (integrable_bernstein h0 h1)).2 ?_
  · refine (ae_restrict_mem measurableSet_Ioi).mono fun s hs => ?_
    have : Real.exp (-s) ≤ 1 := Real.exp_le_one_iff.2 (by linarith [mem_Ioi.1 hs])
    exact mul_nonneg (by linarith) (Real.rpow_nonneg (le_of_lt hs) _)
  · have : Ioi (0 : ℝ) ⊆ Function.support (fun s : ℝ => (1 - Real.exp (-s)) * s ^ (-1 - α)) ∩ Ioi 0 := by
      intro s hs
      refine ⟨?_, hs⟩
      have : Real.exp (-s) < 1 := by rw [Real.exp_lt_one_iff]; linarith [mem_Ioi.1 hs]
      exact mul_ne_zero (by linarith) (Real.rpow_pos_of_pos hs _).ne'
    refine lt_of_lt_of_le ?_ (measure_mono this)
    simp

theorem bernstein_scaled {α : ℝ} (h0 : 0 < α) (h1 : α < 1) {u : ℝ} (hu : 0 ≤ u) :
    IntegrableOn (fun s : ℝ => (1 - Real.exp (-(s * u))) * s ^ (-1 - α)) (Ioi 0) ∧
    ∫ s in Ioi (0 : ℝ), (1 - Real.exp (-(s * u))) * s ^ (-1 - α) = bernsteinConst α * u ^ α := by
  rcases hu.eq_or_lt with rfl | hu
  · simp [Real.zero_rpow h0.ne']
  have e : EqOn (fun s : ℝ => (1 - Real.exp (-(s * u))) * s ^ (-1 - α))
      (fun s => u ^ (1 + α) * ((1 - Real.exp (-(u * s))) * (u * s) ^ (-1 - α))) (Ioi 0) := by
    intro s hs
    simp only
    rw [Real.mul_rpow hu.le (le_of_lt hs), mul_comm s u]
    have : u ^ (1 + α) * u ^ (-1 - α) = 1 := by
      rw [← Real.rpow_add hu]; ring_nf; exact Real.rpow_zero u
    calc _ = (u ^ (1 + α) * u ^ (-1 - α)) * ((1 - Real.exp (-(u * s))) * s ^ (-1 - α)) := by rw [this, one_mul]
      _ = _ := by ring
  have hg := integrable_bernstein h0 h1
  constructor
  · refine IntegrableOn.congr_fun ?_ e.symm measurableSet_Ioi
    refine Integrable.const_mul ?_ _
    have := (integrableOn_Ioi_comp_mul_left_iff (fun s : ℝ => (1 - Real.exp (-s)) * s ^ (-1 - α)) 0 hu).2
      (by simpa using hg)
    exact this
  · rw [setIntegral_congr_fun measurableSet_Ioi e, integral_const_mul]
    have := integral_comp_mul_left_Ioi (fun s : ℝ => (1 - Real.exp (-s)) * s ^ (-1 - α)) 0 hu
    rw [this]
    simp only [mul_zero, smul_eq_mul]
    rw [Real.rpow_add hu, Real.rpow_one]
    unfold bernsteinConst
    field_simp

/-- Powers with exponent below one of a table whose Gaussian is positive semidefinite. -/
theorem cnd_rpow {U : ι → ι → ℝ} (hnn : ∀ i j, 0 ≤ U i j) (hg : ∀ s : ℝ, 0 < s → Psd (fun i j => Real.exp (-(s * U i j))))
    {α : ℝ} (h0 : 0 < α) (h1 : α < 1) {v : ℝ} (hv : 0 ≤ v) : Cnd (fun i j => (U i j + v) ^ α) := by
  have hsym : ∀ i j, U i j = U j i := by
    intro i j
    have := (hg 1 one_pos).1 i j
    have := Real.exp_injective this
    linarith
  refine ⟨fun i j => by beta_reduce; rw [hsym], fun c hc => ?_⟩
  have hC := bernsteinConst_pos h0 h1
  have hw : ∀ i j, 0 ≤ U i j + v := fun i j => add_nonneg (hnn i j) hv
  have key : bernsteinConst α * ∑ i, ∑ j, c i * c j * (U i j + v) ^ α =
      ∫ s in Ioi (0 : ℝ), ∑ i, ∑ j, c i * c j * ((1 - Real.exp (-(s * (U i j + v)))) * s ^ (-1 - α)) := by
    have hi := fun i j => (bernstein_scaled h0 h1 (hw i j)).1.const_mul (c i * c j)
    rw [integral_finsetSum _ fun i _ => integrable_finsetSum _ fun j _ => hi i j, Finset.mul_sum]
    refine Finset.sum_congr rfl fun i _ => ?_
    rw [integral_finsetSum _ fun j _ => hi i j, Finset.mul_sum]
    refine Finset.sum_congr rfl fun j _ => ?_
    rw [integral_const_mul, (bernstein_scaled h0 h1 (hw i j)).2]
    ring
  have hle : ∫ s in Ioi (0 : ℝ), ∑ i, ∑ j, c i * c j * ((1 - Real.exp (-(s * (U i j + v)))) * s ^ (-1 - α)) ≤ 0 := by
    refine setIntegral_nonpos measurableSet_Ioi fun s hs => ?_
    have e : ∑ i, ∑ j, c i * c j * ((1 - Real.exp (-(s * (U i j + v)))) * s ^ (-1 - α)) =
        s ^ (-1 - α) * ((∑ i, c i) * (∑ j, c j) - Real.exp (-(s * v)) * ∑ i, ∑ j, c i * c j * Real.exp (-(s * U i j))) := by
      rw [Finset.sum_mul_sum]
      simp only [Finset.mul_sum, ← Finset.sum_sub_distrib]
      refine Finset.sum_congr rfl fun i _ => Finset.sum_congr rfl fun j _ => ?_
      have : Real.exp (-(s * (U i j + v))) = Real.exp (-(s * v)) * Real.exp (-(s * U i j)) := by
        rw [← Real.exp_add]; congr 1; ring
      rw [this]; ring
    rw [e, hc]
    have h2 := (hg s hs).2 c
    have := mul_nonneg (Real.exp_pos (-(s * v))).le h2
    exact mul_nonpos_of_nonneg_of_nonpos (Real.rpow_nonneg (le_of_lt hs) _) (by linarith)
  rw [← key] at hle
  by_contra hcon
  push Not at hcon
  exact absurd hle (not_le.2 (mul_pos hC hcon))

/-! ### Weighted squared distances -/

/-- The weighted squared distance of two points. -/
def sqDist {n : ℕ} (th : Fin n → ℝ) (x y : Fin n → ℝ) : ℝ := ∑ k, th k * (x k - y k) ^ 2

theorem sqDist_nonneg {n : ℕ} {th : Fin n → ℝ} (h : ∀ k, 0 ≤ th k) (x y : Fin n → ℝ) : 0 ≤ sqDist th x y :=
  Finset.sum_nonneg fun k _ => mul_nonneg (h k) (sq_nonneg _)

theorem psd_gauss {n : ℕ} {th : Fin n → ℝ} (h : ∀ k, 0 ≤ th k) (x : ι → Fin n → ℝ) {s : ℝ} (hs : 0 ≤ s) :
    Psd (fun i j => Real.exp (-(s * sqDist th (x i) (x j)))) := by
  have hg : Psd (fun i j => ∑ k, (2 * s * th k) * (x i k * x j k)) :=
    psd_sum _ fun k _ => (psd_outer fun i => x i k).smul (by have := h k; positivity)
  refine (hg.exp.mul (psd_outer fun i => Real.exp (-(s * ∑ k, th k * x i k ^ 2)))).congr ?_
  intro i j
  rw [← Real.exp_add, ← Real.exp_add]
  congr 1
  unfold sqDist
  simp only [Finset.mul_sum, ← Finset.sum_neg_distrib, ← Finset.sum_add_distrib]
  exact Finset.sum_congr rfl fun k _ => by ring

theorem cnd_dist {n : ℕ} {th : Fin n → ℝ} (h : ∀ k, 0 ≤ th k) (x : ι → Fin n → ℝ) {α : ℝ} (h0 : 0 < α) (h1 : α < 1)
    {v : ℝ} (hv : 0 ≤ v) : Cnd (fun i j => (sqDist th (x i) (x j) + v) ^ α) :=
  cnd_rpow (fun _ _ => sqDist_nonneg h _ _) (fun _ hs => psd_gauss h x hs.le) h0 h1 hv

theorem psd_exp_sqrt {n : ℕ} {th : Fin n → ℝ} (h : ∀ k, 0 ≤ th k) (x : ι → Fin n → ℝ) {v : ℝ} (hv : 0 ≤ v) :
    Psd (fun i j => Real.exp (-Real.sqrt (sqDist th (x i) (x j) + v))) := by
  refine (cnd_dist h x (α := 1 / 2) (by norm_num) (by norm_num) hv).exp_neg.congr fun i j => ?_
  rw [Real.sqrt_eq_rpow]

theorem tendsto_sqrt_add (u : ℝ) : Tendsto (fun v : ℝ => Real.sqrt (u + v)) atTop atTop :=
  Real.tendsto_sqrt_atTop.comp (tendsto_atTop_add_const_left _ _ tendsto_id)

theorem hasDerivAt_sqrt_add {u v : ℝ} (h : 0 < u + v) :
    HasDerivAt (fun v => Real.sqrt (u + v)) (1 / (2 * Real.sqrt (u + v))) v := by
  have := ((hasDerivAt_id v).const_add u).sqrt h.ne'
  simpa using this

/-- `(1 + √u) exp(-√u)` as an integral of exponentials of square roots. -/
theorem integral_exp_sqrt {u : ℝ} (hu : 0 ≤ u) :
    IntegrableOn (fun v : ℝ => Real.exp (-Real.sqrt (u + v)) / 2) (Ioi 0) ∧
    ∫ v in Ioi (0 : ℝ), Real.exp (-Real.sqrt (u + v)) / 2 = (1 + Real.sqrt u) * Real.exp (-Real.sqrt u) := by
  have hc : Continuous (fun v : ℝ => -((1 + Real.sqrt (u + v)) * Real.exp (-Real.sqrt (u + v)))) := by fun_prop
  have hd : ∀ v ∈ Ioi (0 : ℝ), HasDerivAt (fun v : ℝ => -((1 + Real.sqrt (u + v)) * Real.exp (-Real.sqrt (u + v))))
      (Real.exp (-Real.sqrt (u + v)) / 2) v := by
    intro v hv
    have hp : 0 < u + v := by have := mem_Ioi.1 hv; linarith
    have h1 := hasDerivAt_sqrt_add hp
    have := (((h1.const_add 1).mul (h1.neg.exp))).neg
    refine this.congr_deriv ?_
    have : Real.sqrt (u + v) ≠ 0 := (Real.sqrt_pos.2 hp).ne'
    simp only [Pi.neg_apply]
    field_simp
    ring
  have ht : Tendsto (fun v : ℝ => -((1 + Real.sqrt (u + v)) * Real.exp (-Real.sqrt (u + v)))) atTop (𝓝 0) := by
    have h1 := (Real.tendsto_pow_mul_exp_neg_atTop_nhds_zero 1).comp (tendsto_sqrt_add u)
    have h2 := (Real.tendsto_pow_mul_exp_neg_atTop_nhds_zero 0).comp (tendsto_sqrt_add u)
    have := (h2.add h1).neg
    simp only [add_zero, neg_zero] at this
    refine this.congr fun v => ?_
    simp only [Function.comp]; ring
  have hnn : ∀ v ∈ Ioi (0 : ℝ), 0 ≤ Real.exp (-Real.sqrt (u + v)) / 2 := fun v _ => by positivity
  refine ⟨integrableOn_Ioi_deriv_of_nonneg hc.continuousWithinAt hd hnn ht, ?_⟩
  rw [integral_Ioi_of_hasDerivAt_of_nonneg hc.continuousWithinAt hd hnn ht]
  simp

/-- `(1 + √u + u / 3) exp(-√u)` as an integral of the previous functions. -/
theorem integral_matern {u : ℝ} (hu : 0 ≤ u) :
    IntegrableOn (fun v : ℝ => (1 + Real.sqrt (u + v)) * Real.exp (-Real.sqrt (u + v)) / 6) (Ioi 0) ∧
    ∫ v in Ioi (0 : ℝ), (1 + Real.sqrt (u + v)) * Real.exp (-Real.sqrt (u + v)) / 6 =
      (1 + Real.sqrt u + Real.sqrt u ^ 2 / 3) * Real.exp (-Real.sqrt u) := by
  have hc : Continuous (fun v : ℝ => -((1 + Real.sqrt (u + v) + Real.sqrt (u + v) ^ 2 / 3) * Real.exp (-Real.sqrt (u + v)))) := by
    fun_prop
  have hd : ∀ v ∈ Ioi (0 : ℝ), HasDerivAt
      (fun v : ℝ => -((1 + Real.sqrt (u + v) + Real.sqrt (u + v) ^ 2 / 3) * Real.exp (-Real.sqrt (u + v))))
      ((1 + Real.sqrt (u + v)) * Real.exp (-Real.sqrt (u + v)) / 6) v := by
    intro v hv
    have hp : 0 < u + v := by have := mem_Ioi.1 hv; linarith
    have h1 := hasDerivAt_sqrt_add hp
    have := ((((h1.const_add 1).add ((h1.pow 2).div_const 3)).mul (h1.neg.exp))).neg
    refine this.congr_deriv ?_
    have : Real.sqrt (u + v) ≠ 0 := (Real.sqrt_pos.2 hp).ne'
    simp only [Nat.cast_ofNat, Pi.add_apply, Pi.pow_apply, Pi.neg_apply]
    field_simp
    ring
  have ht : Tendsto (fun v : ℝ => -((1 + Real.sqrt (u + v) + Real.sqrt (u + v) ^ 2 / 3) * Real.exp (-Real.sqrt (u + v)))) atTop
      (𝓝 0) := by
    have h1 := (Real.tendsto_pow_mul_exp_neg_atTop_nhds_zero 1).comp (tendsto_sqrt_add u)
    have h2 := (Real.tendsto_pow_mul_exp_neg_atTop_nhds_zero 0).comp (tendsto_sqrt_add u)
    have h3 := ((Real.tendsto_pow_mul_exp_neg_atTop_nhds_zero 2).comp (tendsto_sqrt_add u)).div_const 3
    have := ((h2.add h1).add h3).neg
    simp only [add_zero, neg_zero, zero_div] at this
    refine this.congr fun v => ?_
    simp only [Function.comp]; ring
  have hnn : ∀ v ∈ Ioi (0 : ℝ), 0 ≤ (1 + Real.sqrt (u + v)) * Real.exp (-Real.sqrt (u + v)) / 6 := fun v _ => by positivity
  refine ⟨integrableOn_Ioi_deriv_of_nonneg hc.continuousWithinAt hd hnn ht, ?_⟩
  rw [integral_Ioi_of_hasDerivAt_of_nonneg hc.continuousWithinAt hd hnn ht]
  simp

theorem psd_matern32 {n : ℕ} {th : Fin n → ℝ} (h : ∀ k, 0 ≤ th k) (x : ι → Fin n → ℝ) {v : ℝ} (hv : 0 ≤ v) :
    Psd (fun i j => (1 + Real.sqrt (sqDist th (x i) (x j) + v)) * Real.exp (-Real.sqrt (sqDist th (x i) (x j) + v))) := by
  have hu : ∀ i j, 0 ≤ sqDist th (x i) (x j) + v := fun i j => add_nonneg (sqDist_nonneg h _ _) hv
  refine (psd_integral (μ := volume.restrict (Ioi 0))
    (K := fun w i j => Real.exp (-Real.sqrt (sqDist th (x i) (x j) + v + w)) / 2) ?_
    (fun i j => (integral_exp_sqrt (hu i j)).1)).congr fun i j => (integral_exp_sqrt (hu i j)).2.symm
  refine (ae_restrict_mem measurableSet_Ioi).mono fun w hw => ?_
  refine ((psd_exp_sqrt h x (v := v + w) (add_nonneg hv (le_of_lt hw))).smul (a := 1 / 2) (by norm_num)).congr fun i j => ?_
  rw [← add_assoc]; ring

theorem psd_matern52 {n : ℕ} {th : Fin n → ℝ} (h : ∀ k, 0 ≤ th k) (x : ι → Fin n → ℝ) :
    Psd (fun i j => (1 + Real.sqrt (sqDist th (x i) (x j)) + Real.sqrt (sqDist th (x i) (x j)) ^ 2 / 3) *
      Real.exp (-Real.sqrt (sqDist th (x i) (x j)))) := by
  have hu : ∀ i j, 0 ≤ sqDist th (x i) (x j) := fun i j => sqDist_nonneg h _ _
  refine (psd_integral (μ := volume.restrict (Ioi 0))
    (K := fun w i j => (1 + Real.sqrt (sqDist th (x i) (x j) + w)) * Real.exp (-Real.sqrt (sqDist th (x i) (x j) + w)) / 6) ?_
    (fun i j => (integral_matern (hu i j)).1)).congr fun i j => (integral_matern (hu i j)).2.symm
  refine (ae_restrict_mem measurableSet_Ioi).mono fun w hw => ?_
  exact ((psd_matern32 h x (v := w) (le_of_lt hw)).smul (a := 1 / 6) (by norm_num)).congr fun i j => by ring

end Verif.Proofs
