import Verif.Proofs.Pcabo
import Mathlib.Data.Fin.VecNotation

/-!
# C42, C85-C88: PCA-BO
-/
namespace Verif.Props

open Verif.Model Verif.Spec Verif.Proofs

variable {d r : ℕ}

/-- The identity map of two coordinates, used to show that the hypotheses can be met. -/
private def unitRows : Fin 2 → Fin 2 → ℝ := fun i j => if i = j then 1 else 0

private theorem unitRows_ok : OrthonormalRows unitRows := by
  intro i j
  unfold unitRows
  rw [Fin.sum_univ_two]
  fin_cases i <;> fin_cases j <;> simp

/-! ### C42 -/

/-- **C42.**  Every point of the original box is mapped into the box that PCA-BO searches, for any fitted map with
orthonormal components, in any dimension. -/
theorem c42_box_contains (p : PcaMap r d) (h : OrthonormalRows p.components) (lo hi x : Fin d → ℝ)
    (hx : WithinBox lo hi x) (j : Fin r) :
    (pcaBounds p lo hi j).1 ≤ pcaTransform p x j ∧ pcaTransform p x j ≤ (pcaBounds p lo hi j).2 := by
  have hb : ∑ k, p.components j k * p.components j k ≤ 1 := by rw [h j j, if_pos rfl]
  have key := abs_sum_le_radius hb (box_radius hx)
  rw [abs_le] at key
  have e : ∑ k, (x k - (lo k + hi k) / 2) * p.components j k =
      pcaTransform p x j - ∑ k, ((lo k + hi k) / 2 - p.mean k - p.center k) * p.components j k := by
    unfold pcaTransform
    rw [← Finset.sum_sub_distrib]
    exact Finset.sum_congr rfl (fun k _ => by ring)
  rw [e] at key
  simp only [pcaBounds]
  constructor <;> linarith [key.1, key.2]

/-- Non-vacuity: orthonormal rows and a point of a box. -/
example : OrthonormalRows (PcaMap.mk unitRows (fun _ => 0) (fun _ => 1)).components ∧
    WithinBox (fun _ : Fin 2 => -5) (fun _ => 5) (fun _ => 3) :=
  ⟨unitRows_ok, fun _ => by norm_num⟩

/-! ### C85 -/

/-- **C85.**  A point of the reduced space is recovered from its image in the original space. -/
theorem c85_reduced_roundtrip (p : PcaMap r d) (h : OrthonormalRows p.components) (z : Fin r → ℝ) :
    pcaTransform p (pcaInverse p z) = z := transform_inverse h z

/-- **C85.**  A point of the original space is recovered exactly when it is the image of a reduced point. -/
theorem c85_original_roundtrip (p : PcaMap r d) (h : OrthonormalRows p.components) (x : Fin d → ℝ) :
    pcaInverse p (pcaTransform p x) = x ↔ ∃ z, pcaInverse p z = x := by
  constructor
  · intro e; exact ⟨_, e⟩
  · rintro ⟨z, rfl⟩
    rw [transform_inverse h]

/-- **C85.**  When no component is dropped (the components are also orthonormal by columns), every point is
recovered. -/
theorem c85_full_roundtrip (p : PcaMap d d) (h : OrthonormalRows (fun i j => p.components j i)) (x : Fin d → ℝ) :
    pcaInverse p (pcaTransform p x) = x := by
  funext k
  rw [inverse_sub]
  have e : ∑ j, (∑ i, (x i - p.center i - p.mean i) * p.components j i) * p.components j k =
      x k - p.center k - p.mean k := by
    simp only [Finset.sum_mul]
    rw [Finset.sum_comm]
    have : ∀ i, ∑ j, (x i - p.center i - p.mean i) * p.components j i * p.components j k =
        (x i - p.center i - p.mean i) * if i = k then 1 else 0 := by
      intro i
      rw [← h i k, Finset.mul_sum]
      exact Finset.sum_congr rfl (fun j _ => by ring)
    simp only [this]
    simp
  rw [e]; ring

/-- Non-vacuity. -/
example : OrthonormalRows (fun i j => unitRows j i) := by
  intro i j
  unfold unitRows
  rw [Fin.sum_univ_two]
  fin_cases i <;> fin_cases j <;> simp

/-! ### C86 -/

/-- **C86.**  With at least two points, the weights given to the points before the decomposition are not negative, add
up to one, and give a better point a larger weight and equal points equal weights. -/
theorem c86_weights (minimize : Bool) (ys : List ℝ) (hN : 2 ≤ ys.length) :
    (fitWeights minimize ys).length = ys.length ∧ (∀ w ∈ fitWeights minimize ys, 0 ≤ w) ∧
    (fitWeights minimize ys).sum = 1 ∧
    ∀ (i j : ℕ) (y z v w : ℝ), ys[i]? = some y → ys[j]? = some z → (fitWeights minimize ys)[i]? = some v →
      (fitWeights minimize ys)[j]? = some w → (BetterValue minimize y z → w < v) ∧ (y = z → v = w) := by
  refine ⟨fitWeights_length minimize ys, fitWeights_nonneg minimize hN, fitWeights_sum minimize hN, ?_⟩
  intro i j y z v w hy hz hv hw
  have hsum := rawWeights_sum_pos minimize hN
  have hs : ∀ {i : ℕ} {y : ℝ}, ys[i]? = some y →
      (signedValues minimize ys)[i]? = some (if minimize then y else -1 * y) := by
    intro i y h
    cases minimize
    · simp [signedValues, h]
    · simp [signedValues, h]
  have hval : ∀ {i : ℕ} {y v : ℝ}, ys[i]? = some y → (fitWeights minimize ys)[i]? = some v →
      v = (Real.log ys.length - Real.log (avgRank (signedValues minimize ys) (if minimize then y else -1 * y))) /
        (rawWeights minimize ys).sum := by
    intro i y v h1 h2
    unfold fitWeights at h2
    rw [List.getElem?_map, show (rawWeights minimize ys)[i]? = _ from List.getElem?_map .., hs h1] at h2
    exact (Option.some.inj h2).symm
  have ev := hval hy hv
  have ew := hval hz hw
  constructor
  · intro hb
    have hlt : (if minimize then y else -1 * y) < (if minimize then z else -1 * z) := by
      unfold BetterValue at hb
      cases minimize
      · simp only [Bool.false_eq_true, if_false] at hb ⊢; linarith
      · exact hb
    have hmem := List.mem_of_getElem? (hs hy)
    have hr := avgRank_lt (List.mem_of_getElem? (hs hz)) hlt hmem
    have h1 := one_le_avgRank hmem
    have hlog := Real.log_lt_log (by linarith) hr
    rw [ev, ew]
    exact div_lt_div_of_pos_right (by linarith) hsum
  · rintro rfl
    rw [ev, ew]

/-- **C86, refuted for a single point.**  With one recorded point the weights are a quotient by zero. -/
theorem c86_single_point (minimize : Bool) (y : ℝ) : (rawWeights minimize [y]).sum = 0 := by
  cases minimize <;> simp [rawWeights, signedValues, avgRank]

/-- Non-vacuity: two different values. -/
example : 2 ≤ [(1 : ℝ), 2].length ∧ BetterValue true (1 : ℝ) 2 := ⟨le_refl _, by simp [BetterValue]⟩

/-! ### C87 -/

/-- **C87.**  A reduced point whose image is in the original box has the value of the acquisition function; any other
has minus the distance of its image to the box (sum over the coordinates), which is negative. -/
theorem c87_value (p : PcaMap r d) (lo hi : Fin d → ℝ) (acq : (Fin r → ℝ) → ℝ) (z : Fin r → ℝ) :
    (WithinBox lo hi (pcaInverse p z) → penalizedAcq p lo hi acq z = acq z) ∧
    (¬ WithinBox lo hi (pcaInverse p z) → (∀ k, lo k ≤ hi k) → penalizedAcq p lo hi acq z < 0 ∧
      penalizedAcq p lo hi acq z =
        - ∑ k, |pcaInverse p z k - max (lo k) (min (pcaInverse p z k) (hi k))|) := by
  unfold penalizedAcq
  constructor
  · intro h
    rw [if_pos ((penalty_zero_iff _ _ _).2 h)]
  · intro h hle
    have hne : boxPenalty lo hi (pcaInverse p z) ≠ 0 := fun h' => h ((penalty_zero_iff _ _ _).1 h')
    rw [if_neg hne]
    refine ⟨lt_of_le_of_ne (penalty_nonpos _ _ _) hne, ?_⟩
    unfold boxPenalty
    rw [← Finset.sum_add_distrib, neg_one_mul]
    congr 1
    apply Finset.sum_congr rfl
    intro k _
    set x := pcaInverse p z k
    have hk := hle k
    rcases lt_or_ge x (lo k) with h1 | h1
    · rw [if_pos h1, if_neg (by linarith), min_eq_left (by linarith), max_eq_left h1.le, abs_of_neg (by linarith)]
      ring
    · rcases lt_or_ge (hi k) x with h2 | h2
      · rw [if_neg (not_lt.2 h1), if_pos h2, min_eq_right h2.le, max_eq_right hk, abs_of_pos (by linarith)]
        ring
      · rw [if_neg (not_lt.2 h1), if_neg (not_lt.2 h2), min_eq_left h2, max_eq_right h1]
        simp

/-- **C87.**  The gradient returned outside the original box is the derivative of the returned value, wherever no
coordinate of the image is exactly on a bound. -/
theorem c87_gradient (p : PcaMap r d) (lo hi : Fin d → ℝ) (hle : ∀ k, lo k ≤ hi k) (acq : (Fin r → ℝ) → ℝ)
    (z : Fin r → ℝ) (hout : ¬ WithinBox lo hi (pcaInverse p z))
    (hoff : ∀ k, pcaInverse p z k ≠ lo k ∧ pcaInverse p z k ≠ hi k) (j : Fin r) :
    HasDerivAt (fun t => penalizedAcq p lo hi acq (Function.update z j t)) (penaltyDx p lo hi z j) (z j) := by
  have hz : Function.update z j (z j) = z := Function.update_eq_self j z
  have hp : HasDerivAt (fun t => boxPenalty lo hi (pcaInverse p (Function.update z j t))) (penaltyDx p lo hi z j) (z j) := by
    unfold boxPenalty
    have h1 : ∀ k ∈ Finset.univ, HasDerivAt (fun t => if pcaInverse p (Function.update z j t) k < lo k then
        lo k - pcaInverse p (Function.update z j t) k else 0)
        (if pcaInverse p z k < lo k then -p.components j k else 0) (z j) := by
      intro k _
      have := hasDerivAt_ramp (c := lo k) (hasDerivAt_inverse p z j k) (by rw [hz]; exact (hoff k).1)
      rwa [hz] at this
    have h2 : ∀ k ∈ Finset.univ, HasDerivAt (fun t => if hi k < pcaInverse p (Function.update z j t) k then
        pcaInverse p (Function.update z j t) k - hi k else 0)
        (if hi k < pcaInverse p z k then p.components j k else 0) (z j) := by
      intro k _
      have := hasDerivAt_ramp' (c := hi k) (hasDerivAt_inverse p z j k) (by rw [hz]; exact (hoff k).2)
      rwa [hz] at this
    have h := ((HasDerivAt.fun_sum h1).add (HasDerivAt.fun_sum h2)).const_mul (-1 : ℝ)
    have e : -1 * ((∑ k, if pcaInverse p z k < lo k then -p.components j k else 0) +
        ∑ k, if hi k < pcaInverse p z k then p.components j k else 0) = penaltyDx p lo hi z j := by
      unfold penaltyDx boxPenaltyGrad
      rw [← Finset.sum_add_distrib, Finset.mul_sum]
      apply Finset.sum_congr rfl
      intro k _
      have hk := hle k
      by_cases a : hi k < pcaInverse p z k
      · rw [if_neg (by linarith), if_pos a, if_pos a]; ring
      · by_cases b : pcaInverse p z k < lo k
        · rw [if_pos b, if_neg a, if_neg a, if_pos b]; ring
        · rw [if_neg b, if_neg a, if_neg a, if_neg b]; ring
    rw [e] at h
    exact h
  have hne : boxPenalty lo hi (pcaInverse p (Function.update z j (z j))) ≠ 0 := by
    rw [hz]; exact fun h' => hout ((penalty_zero_iff _ _ _).1 h')
  refine hp.congr_of_eventuallyEq ?_
  filter_upwards [hp.continuousAt.eventually_ne hne] with t ht
  unfold penalizedAcq
  rw [if_neg ht]

/-- Non-vacuity of the hypotheses of the gradient theorem: a point outside the unit square, off its sides. -/
example : ¬ WithinBox (fun _ : Fin 2 => 0) (fun _ => 1) (pcaInverse (PcaMap.mk unitRows (fun _ => 0) (fun _ => 0)) ![2, 1 / 2]) ∧
    ∀ k, pcaInverse (PcaMap.mk unitRows (fun _ => 0) (fun _ => 0)) ![2, 1 / 2] k ≠ 0 ∧
      pcaInverse (PcaMap.mk unitRows (fun _ => 0) (fun _ => 0)) ![2, 1 / 2] k ≠ 1 := by
  have h0 : pcaInverse (PcaMap.mk unitRows (fun _ => 0) (fun _ => 0)) ![2, 1 / 2] 0 = 2 := by
    simp [pcaInverse, unitRows]
  have h1 : pcaInverse (PcaMap.mk unitRows (fun _ => 0) (fun _ => 0)) ![2, 1 / 2] 1 = 1 / 2 := by
    simp [pcaInverse, unitRows]
  refine ⟨fun h => ?_, fun k => ?_⟩
  · have := (h 0).2
    rw [h0] at this
    norm_num at this
  · fin_cases k
    · show pcaInverse _ _ 0 ≠ 0 ∧ pcaInverse _ _ 0 ≠ 1
      rw [h0]; norm_num
    · show pcaInverse _ _ 1 ≠ 0 ∧ pcaInverse _ _ 1 ≠ 1
      rw [h1]; norm_num

/-- **C87, partial.**  If the acquisition function is not negative, a point outside the domain is never preferred to one
inside.  Missing: acquisition functions with negative values (`c87_negative_acquisition`). -/
theorem c87_inside_preferred_partial (p : PcaMap r d) (lo hi : Fin d → ℝ) (hle : ∀ k, lo k ≤ hi k)
    (acq : (Fin r → ℝ) → ℝ) (hacq : ∀ z, 0 ≤ acq z) (z z' : Fin r → ℝ) (h : WithinBox lo hi (pcaInverse p z))
    (h' : ¬ WithinBox lo hi (pcaInverse p z')) : penalizedAcq p lo hi acq z' < penalizedAcq p lo hi acq z := by
  rw [(c87_value p lo hi acq z).1 h]
  exact lt_of_lt_of_le ((c87_value p lo hi acq z').2 h' hle).1 (hacq z)

/-- **C87, refuted.**  With an acquisition function that is negative in the domain, such as the confidence bound, a
point outside the domain can be preferred to every point inside. -/
theorem c87_negative_acquisition : ∃ (p : PcaMap 2 2) (acq : (Fin 2 → ℝ) → ℝ) (z' : Fin 2 → ℝ),
    OrthonormalRows p.components ∧ ¬ WithinBox (fun _ => 0) (fun _ => 1) (pcaInverse p z') ∧
    ∀ z, WithinBox (fun _ => 0) (fun _ => 1) (pcaInverse p z) →
      penalizedAcq p (fun _ => 0) (fun _ => 1) acq z < penalizedAcq p (fun _ => 0) (fun _ => 1) acq z' := by
  refine ⟨⟨unitRows, fun _ => 0, fun _ => 0⟩, fun _ => -2, fun k => if k = 0 then 2 else 0, unitRows_ok, ?_, ?_⟩
  · intro h
    have := (h 0).2
    simp [pcaInverse, unitRows] at this
  · intro z hz
    rw [(c87_value _ _ _ _ z).1 hz]
    have h0 : pcaInverse ⟨unitRows, fun _ => 0, fun _ => 0⟩ (fun k : Fin 2 => if k = 0 then (2 : ℝ) else 0) 0 = 2 := by
      simp [pcaInverse, unitRows]
    have h1 : pcaInverse ⟨unitRows, fun _ => 0, fun _ => 0⟩ (fun k : Fin 2 => if k = 0 then (2 : ℝ) else 0) 1 = 0 := by
      simp [pcaInverse, unitRows]
    have hb : boxPenalty (fun _ => 0) (fun _ => 1)
        (pcaInverse ⟨unitRows, fun _ => 0, fun _ => 0⟩ (fun k : Fin 2 => if k = 0 then (2 : ℝ) else 0)) = -1 := by
      unfold boxPenalty
      simp only [Fin.sum_univ_two, h0, h1]
      norm_num
    unfold penalizedAcq
    rw [hb, if_neg (by norm_num)]
    norm_num

/-! ### C88 -/

/-- **C88, partial.**  After at least two points of the domain have been told, an exact maximiser of the penalised
acquisition function over the box that is searched is mapped to a point of the domain, provided the acquisition
function is not negative.  Before the first `tell` the points of the design are returned unchanged.  Missing: inexact
maximisers and other acquisition functions (`c88_proposal_outside`). -/
theorem c88_proposals_inside_partial (svd : List (Fin d → ℝ) → Fin r → Fin d → ℝ) (hsvd : ∀ l, OrthonormalRows (svd l))
    (minimize : Bool) (xs : List (Fin d → ℝ)) (ys : List ℝ) (hlen : ys.length = xs.length) (hN : 2 ≤ xs.length)
    (lo hi : Fin d → ℝ) (hx : ∀ x ∈ xs, WithinBox lo hi x) (acq : (Fin r → ℝ) → ℝ) (hacq : ∀ z, 0 ≤ acq z)
    (zs : List (Fin d → ℝ)) :
    (∀ x ∈ zs, WithinBox lo hi x) → (∀ x ∈ pcaAskFirst zs, WithinBox lo hi x) ∧
    let p := pcaFit svd minimize xs ys
    ∀ ws : List (Fin r → ℝ), (∀ z ∈ ws, ∀ z', (∀ j, (pcaBounds p lo hi j).1 ≤ z' j ∧ z' j ≤ (pcaBounds p lo hi j).2) →
        penalizedAcq p lo hi acq z' ≤ penalizedAcq p lo hi acq z) →
      ∀ x ∈ pcaAsk p ws, WithinBox lo hi x := by
  intro hz
  refine ⟨fun x h => hz x h, ?_⟩
  intro p ws hmax x hxw
  obtain ⟨z, hzw, rfl⟩ := List.mem_map.1 hxw
  have horigin := fit_origin_mem (svd := svd) (minimize := minimize) hlen hN hx
  have hinv : pcaInverse p (fun _ => 0) = fun k => p.mean k + p.center k := by
    funext k
    simp [pcaInverse]
  have h0 : WithinBox lo hi (pcaInverse p (fun _ => 0)) := by rw [hinv]; exact horigin
  have hin := fun j => c42_box_contains p (hsvd _) lo hi _ h0 j
  rw [transform_inverse (hsvd _)] at hin
  have hle : ∀ k, lo k ≤ hi k := fun k => le_trans (h0 k).1 (h0 k).2
  by_contra hout
  exact absurd (hmax z hzw _ hin) (not_le.2 (c87_inside_preferred_partial p lo hi hle acq hacq _ z h0 hout))

/-- Non-vacuity: a constant orthonormal decomposition, two points in a box. -/
example : (∀ l : List (Fin 2 → ℝ), OrthonormalRows ((fun _ => unitRows) l)) ∧
    ∀ x ∈ [![(0 : ℝ), 1], ![1, 0]], WithinBox (fun _ => 0) (fun _ => 1) x := by
  refine ⟨fun _ => unitRows_ok, ?_⟩
  intro x hx
  simp only [List.mem_cons, List.not_mem_nil, or_false] at hx
  rcases hx with rfl | rfl <;> intro k <;> fin_cases k <;> norm_num

/-- **C88, refuted.**  The box that is searched contains points whose image is not in the domain, even with the two
corner points of the square told, so a point proposed by an inexact search can be outside the domain. -/
theorem c88_proposal_outside :
    let p := pcaFit (fun _ => unitRows) true [(fun _ => 0), fun _ => 1] [0, 1]
    ∃ z : Fin 2 → ℝ, (∀ j, (pcaBounds p (fun _ => 0) (fun _ => 1) j).1 ≤ z j ∧
      z j ≤ (pcaBounds p (fun _ => 0) (fun _ => 1) j).2) ∧
      ∃ x ∈ pcaAsk p [z], ¬ WithinBox (fun _ => 0) (fun _ => 1) x := by
  intro p
  have hin : ∀ j, pcaInverse p (fun j => (pcaBounds p (fun _ => 0) (fun _ => 1) j).2) j = 1 / 2 + Real.sqrt (1 / 2) := by
    intro j
    have hr : Real.sqrt (∑ k : Fin 2, ((0 : ℝ) - (0 + 1) / 2) ^ 2) = Real.sqrt (1 / 2) := by
      congr 1; rw [Fin.sum_univ_two]; norm_num
    have hp : p.components = unitRows := rfl
    simp only [pcaInverse, pcaBounds, hp, unitRows]
    rw [hr]
    generalize Real.sqrt (1 / 2) = s
    simp only [Fin.sum_univ_two]
    fin_cases j <;> simp <;> ring
  have hs : 1 / 2 < Real.sqrt (1 / 2) := by
    rw [Real.lt_sqrt (by norm_num)]; norm_num
  refine ⟨fun j => (pcaBounds p (fun _ => 0) (fun _ => 1) j).2, ?_, _, List.mem_map_of_mem (List.mem_singleton.2 rfl), ?_⟩
  · intro j
    refine ⟨?_, le_refl _⟩
    simp only [pcaBounds]
    have := Real.sqrt_nonneg (∑ k : Fin 2, ((0 : ℝ) - (0 + 1) / 2) ^ 2)
    linarith
  · intro h
    have := (h 0).2
    rw [hin] at this
    linarith

end Verif.Props
