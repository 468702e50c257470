import Verif.Props.Ehvi
import Verif.Spec.EhviOrder

/-!
# C178: the multi-objective criterion rewards better predictions and falls with more data
-/
namespace Verif.Props

open MeasureTheory ProbabilityTheory Verif.Model Verif.Spec Verif.Proofs

variable {m : ℕ}

private theorem gain_nonneg (ref : Fin m → ℝ) (Y : List (Fin m → ℝ)) (y : Fin m → ℝ) : 0 ≤ hypervolumeGain ref Y y := by
  rw [gain_eq_volume]; exact ENNReal.toReal_nonneg

private theorem region_ne_top (ref : Fin m → ℝ) (Y : List (Fin m → ℝ)) (y : Fin m → ℝ) :
    volume (improvementRegion ref Y ∩ ioc ref y) ≠ ⊤ := by
  refine ne_top_of_le_ne_top ?_ (measure_mono Set.inter_subset_right)
  unfold ioc
  rw [Real.volume_pi_Ioc]
  exact ENNReal.prod_ne_top fun k _ => ENNReal.ofReal_ne_top

private theorem gain_mono (ref : Fin m → ℝ) {Y Y' : List (Fin m → ℝ)} (h : Superseded Y' Y) {y y' : Fin m → ℝ} (hy : ∀ k, y k ≤ y' k) :
    hypervolumeGain ref Y y ≤ hypervolumeGain ref Y' y' := by
  rw [gain_eq_volume, gain_eq_volume]
  refine ENNReal.toReal_mono (region_ne_top _ _ _) (measure_mono fun v hv => ?_)
  obtain ⟨⟨h1, h2⟩, h3⟩ := hv
  refine ⟨⟨h1, fun z hz hle => ?_⟩, mem_ioc.2 fun k => ⟨(mem_ioc.1 h3 k).1, (mem_ioc.1 h3 k).2.trans (hy k)⟩⟩
  obtain ⟨z', hz', hle'⟩ := h z hz
  exact h2 z' hz' fun k => (hle k).trans (hle' k)

private theorem gain_integrable (cap : ℝ) (ref : Fin (m + 1) → ℝ) (Y : List (Fin (m + 1) → ℝ)) (hr : ∀ k, ref k ≤ cap)
    (hY : ∀ y ∈ Y, ∀ k, y k ≤ cap) (mean variance : Fin (m + 1) → ℝ) :
    Integrable (fun y => hypervolumeGain ref Y (cappedAt cap y)) (independentNormals mean fun k => max (variance k) (1 / 10 ^ 9)) := by
  obtain ⟨argsort, hs⟩ := sorts_exists
  obtain ⟨argmax, hmax⟩ := picksMax_exists m
  obtain ⟨s, h1, hp⟩ := c71_cells_partition hs hmax (le_refl (0 : ℝ)) ref Y []
  have hinv := binHistory_inv argsort argmax 0 ref (Y :: [])
  rw [h1] at hinv
  obtain ⟨hf, hc⟩ := fits_of_history (cap := cap) hs hmax hinv hr (by simpa using hY)
  have h2 := (integral_cells (cap := cap) mean variance _ hf).1
  simp only [cells_gain hf hc hp] at h2
  simpa using h2

private theorem normals_shift (mean mean' variance : Fin m → ℝ) :
    (independentNormals mean variance).map (fun y k => y k + (mean' k - mean k)) = independentNormals mean' variance := by
  unfold independentNormals
  have h := Measure.pi_map_pi (μ := fun k => gaussianReal (mean k) (variance k).toNNReal) (f := fun k y => y + (mean' k - mean k))
    (hμ := fun k => by rw [gaussianReal_map_add_const]; infer_instance) (fun k => by fun_prop)
  rw [h]
  congr 1
  funext k
  rw [gaussianReal_map_add_const]
  congr 1
  ring

/-- **C178.**  For the same prediction the value never grows when more outcomes are recorded: it is at most the value for any
recorded outcomes that these supersede. -/
theorem c178_more_data {argsort : List ℝ → List ℕ} (hs : Sorts argsort)
    {argmax : (Fin (m + 1) → ℕ) → Fin (m + 1)} (hmax : PicksMax argmax) {alpha : ℝ} (ha : alpha ≤ 0)
    (ref : Fin (m + 1) → ℝ) (Y : List (Fin (m + 1) → ℝ)) (Ys : List (List (Fin (m + 1) → ℝ)))
    (Y' : List (Fin (m + 1) → ℝ)) (Ys' : List (List (Fin (m + 1) → ℝ)))
    (hsup : Superseded (Y ++ Ys.flatten) (Y' ++ Ys'.flatten))
    (isDouble : Bool) (cap : ℝ) (hcap : cap = if isDouble then 10 ^ 10 else 10 ^ 8)
    (hr : ∀ k, ref k ≤ cap) (hY : ∀ y ∈ Y ++ Ys.flatten, ∀ k, y k ≤ cap) (hY' : ∀ y ∈ Y' ++ Ys'.flatten, ∀ k, y k ≤ cap)
    (mean variance : Fin (m + 1) → ℝ) :
    ∃ s s' v v', binHistory argsort argmax alpha ref (Y :: Ys) = some s ∧ binHistory argsort argmax alpha ref (Y' :: Ys') = some s' ∧
      ehviForward isDouble (binBounds ref s) [(mean, variance)] = some v ∧
      ehviForward isDouble (binBounds ref s') [(mean, variance)] = some v' ∧ v' ≤ v := by
  obtain ⟨s, h1, h2⟩ := c80_expected_gain hs hmax ha ref Y Ys isDouble cap hcap hr hY mean variance
  obtain ⟨s', h1', h2'⟩ := c80_expected_gain hs hmax ha ref Y' Ys' isDouble cap hcap hr hY' mean variance
  refine ⟨s, s', _, _, h1, h1', h2, h2', ?_⟩
  exact integral_mono (gain_integrable cap ref _ hr hY' mean variance) (gain_integrable cap ref _ hr hY mean variance)
    fun y => gain_mono ref hsup fun k => le_rfl

/-- **C178.**  Only the best outcomes count: two histories that supersede each other - the same outcomes in another order or grouping,
with repetitions, with or without dominated outcomes - give the same value. -/
theorem c178_front_only {argsort : List ℝ → List ℕ} (hs : Sorts argsort)
    {argmax : (Fin (m + 1) → ℕ) → Fin (m + 1)} (hmax : PicksMax argmax) {alpha : ℝ} (ha : alpha ≤ 0)
    (ref : Fin (m + 1) → ℝ) (Y : List (Fin (m + 1) → ℝ)) (Ys : List (List (Fin (m + 1) → ℝ)))
    (Y' : List (Fin (m + 1) → ℝ)) (Ys' : List (List (Fin (m + 1) → ℝ)))
    (hsup : Superseded (Y ++ Ys.flatten) (Y' ++ Ys'.flatten)) (hsup' : Superseded (Y' ++ Ys'.flatten) (Y ++ Ys.flatten))
    (isDouble : Bool) (cap : ℝ) (hcap : cap = if isDouble then 10 ^ 10 else 10 ^ 8)
    (hr : ∀ k, ref k ≤ cap) (hY : ∀ y ∈ Y ++ Ys.flatten, ∀ k, y k ≤ cap) (hY' : ∀ y ∈ Y' ++ Ys'.flatten, ∀ k, y k ≤ cap)
    (mean variance : Fin (m + 1) → ℝ) :
    ∃ s s' v, binHistory argsort argmax alpha ref (Y :: Ys) = some s ∧ binHistory argsort argmax alpha ref (Y' :: Ys') = some s' ∧
      ehviForward isDouble (binBounds ref s) [(mean, variance)] = some v ∧
      ehviForward isDouble (binBounds ref s') [(mean, variance)] = some v := by
  obtain ⟨s, s', v, v', h1, h2, h3, h4, hle⟩ := c178_more_data hs hmax ha ref Y Ys Y' Ys' hsup isDouble cap hcap hr hY hY' mean variance
  obtain ⟨t', t, w', w, g1, g2, g3, g4, gle⟩ :=
    c178_more_data hs hmax ha ref Y' Ys' Y Ys hsup' isDouble cap hcap hr hY' hY mean variance
  obtain rfl : t = s := Option.some.inj (g2.symm.trans h1)
  obtain rfl : t' = s' := Option.some.inj (g1.symm.trans h2)
  obtain rfl : w = v := Option.some.inj (g4.symm.trans h3)
  obtain rfl : w' = v' := Option.some.inj (g3.symm.trans h4)
  obtain rfl : w = w' := le_antisymm gle hle
  exact ⟨_, _, _, h1, h2, h3, h4⟩

/-- **C178.**  A prediction that is at least as good in all objectives, with the same uncertainty, has at least the same value. -/
theorem c178_better_prediction {argsort : List ℝ → List ℕ} (hs : Sorts argsort)
    {argmax : (Fin (m + 1) → ℕ) → Fin (m + 1)} (hmax : PicksMax argmax) {alpha : ℝ} (ha : alpha ≤ 0)
    (ref : Fin (m + 1) → ℝ) (Y : List (Fin (m + 1) → ℝ)) (Ys : List (List (Fin (m + 1) → ℝ)))
    (isDouble : Bool) (cap : ℝ) (hcap : cap = if isDouble then 10 ^ 10 else 10 ^ 8)
    (hr : ∀ k, ref k ≤ cap) (hY : ∀ y ∈ Y ++ Ys.flatten, ∀ k, y k ≤ cap) (mean mean' variance : Fin (m + 1) → ℝ)
    (hm : ∀ k, mean k ≤ mean' k) :
    ∃ s v v', binHistory argsort argmax alpha ref (Y :: Ys) = some s ∧
      ehviForward isDouble (binBounds ref s) [(mean, variance)] = some v ∧
      ehviForward isDouble (binBounds ref s) [(mean', variance)] = some v' ∧ v ≤ v' := by
  obtain ⟨s, h1, h2⟩ := c80_expected_gain hs hmax ha ref Y Ys isDouble cap hcap hr hY mean variance
  obtain ⟨s', h1', h2'⟩ := c80_expected_gain hs hmax ha ref Y Ys isDouble cap hcap hr hY mean' variance
  obtain rfl : s' = s := Option.some.inj (h1'.symm.trans h1)
  refine ⟨s', _, _, h1, h2, h2', ?_⟩
  have hi := gain_integrable cap ref _ hr hY mean' variance
  have hsh := normals_shift mean mean' fun k => max (variance k) (1 / 10 ^ 9)
  have hmeas : AEMeasurable (fun (y : Fin (m + 1) → ℝ) k => y k + (mean' k - mean k))
      (independentNormals mean fun k => max (variance k) (1 / 10 ^ 9)) :=
    (measurable_pi_lambda _ fun k => (measurable_pi_apply k).add_const _).aemeasurable
  unfold expectedGain
  conv_rhs => rw [← hsh]
  rw [← hsh] at hi
  rw [integral_map hmeas hi.1]
  refine integral_mono (gain_integrable cap ref _ hr hY mean variance) (hi.comp_aemeasurable hmeas) fun y => ?_
  refine gain_mono ref (fun z hz => ⟨z, hz, fun k => le_rfl⟩) fun k => ?_
  have := hm k
  exact min_le_min_right _ (by linarith)

/-- **C178.**  As long as no recorded outcome is at the limit of the numbers in all objectives, every prediction has a positive value:
there is always something to be gained. -/
theorem c178_positive {argsort : List ℝ → List ℕ} (hs : Sorts argsort)
    {argmax : (Fin (m + 1) → ℕ) → Fin (m + 1)} (hmax : PicksMax argmax) {alpha : ℝ} (ha : alpha ≤ 0)
    (ref : Fin (m + 1) → ℝ) (Y : List (Fin (m + 1) → ℝ)) (Ys : List (List (Fin (m + 1) → ℝ)))
    (isDouble : Bool) (cap : ℝ) (hcap : cap = if isDouble then 10 ^ 10 else 10 ^ 8)
    (hr : ∀ k, ref k < cap) (hY : ∀ y ∈ Y ++ Ys.flatten, (∀ k, y k ≤ cap) ∧ ∃ k, y k < cap) (mean variance : Fin (m + 1) → ℝ) :
    ∃ s v, binHistory argsort argmax alpha ref (Y :: Ys) = some s ∧
      ehviForward isDouble (binBounds ref s) [(mean, variance)] = some v ∧ 0 < v := by
  obtain ⟨s, h1, h2⟩ := c80_expected_gain hs hmax ha ref Y Ys isDouble cap hcap (fun k => (hr k).le) (fun y hy => (hY y hy).1) mean variance
  refine ⟨s, _, h1, h2, ?_⟩
  generalize hZ : Y ++ Ys.flatten = Z at hY ⊢
  have hi := gain_integrable cap ref Z (fun k => (hr k).le) (fun y hy => (hY y hy).1) mean variance
  have hgain : ∀ y : Fin (m + 1) → ℝ, (∀ k, cap < y k) → 0 < hypervolumeGain ref Z (cappedAt cap y) := by
    intro y hy
    have e : cappedAt cap y = fun _ => cap := funext fun k => min_eq_right (hy k).le
    rw [e, gain_eq_volume]
    refine ENNReal.toReal_pos (fun h0 => ?_) (region_ne_top _ _ _)
    obtain ⟨b, hb1, hb2⟩ : ∃ b < cap, ∀ z ∈ Z, ∃ k, z k ≤ b := by
      clear h2 h1 hi hZ h0
      induction Z with
      | nil => exact ⟨cap - 1, by linarith, by simp⟩
      | cons z Z ih =>
        obtain ⟨b, hb, hb2⟩ := ih fun y hy => hY y (List.mem_cons_of_mem _ hy)
        obtain ⟨-, k, hk⟩ := hY z List.mem_cons_self
        refine ⟨max b (z k), max_lt hb hk, fun w hw => ?_⟩
        rcases List.mem_cons.1 hw with rfl | hw
        · exact ⟨k, le_max_right _ _⟩
        · obtain ⟨j, hj⟩ := hb2 w hw
          exact ⟨j, hj.trans (le_max_left _ _)⟩
    have hsub : ioc (fun k => max b (ref k)) (fun _ => cap) ⊆ improvementRegion ref Z ∩ ioc ref fun _ => cap := by
      intro v hv
      rw [mem_ioc] at hv
      refine ⟨⟨fun k => lt_of_le_of_lt (le_max_right _ _) (hv k).1, fun z hz hle => ?_⟩,
        mem_ioc.2 fun k => ⟨lt_of_le_of_lt (le_max_right _ _) (hv k).1, (hv k).2⟩⟩
      obtain ⟨k, hk⟩ := hb2 z hz
      have h1 := lt_of_le_of_lt (le_max_left _ _) (hv k).1
      have h2 := hle k
      linarith
    have h3 := measure_mono_null hsub h0
    unfold ioc at h3
    rw [Real.volume_pi_Ioc, Finset.prod_eq_zero_iff] at h3
    obtain ⟨k, -, hk⟩ := h3
    rw [ENNReal.ofReal_eq_zero] at hk
    have := max_lt hb1 (hr k)
    linarith
  unfold expectedGain
  rw [integral_pos_iff_support_of_nonneg (fun y => gain_nonneg _ _ _) hi]
  have hsub : (Set.univ.pi fun _ : Fin (m + 1) => Set.Ioi cap) ⊆ Function.support fun y => hypervolumeGain ref Z (cappedAt cap y) := by
    intro y hy
    exact (hgain y fun k => hy k trivial).ne'
  refine lt_of_lt_of_le ?_ (measure_mono hsub)
  unfold independentNormals
  rw [Measure.pi_pi]
  refine pos_iff_ne_zero.2 (Finset.prod_ne_zero_iff.2 fun k _ h0 => ?_)
  have hv : (max (variance k) (1 / 10 ^ 9)).toNNReal ≠ 0 := by
    rw [Ne, Real.toNNReal_eq_zero, not_le]
    exact lt_of_lt_of_le (by norm_num) (le_max_right _ _)
  have h4 := gaussianReal_absolutelyContinuous' (mean k) hv h0
  simp at h4

/-- The hypotheses can be met: one more outcome that is better in one objective, and a better prediction. -/
example : Superseded ([![1, 0]] : List (Fin 2 → ℝ)) [![0, 1], ![1, 0]] ∧ ¬ Superseded ([![0, 1], ![1, 0]] : List (Fin 2 → ℝ)) [![1, 0]] ∧
    (∀ y ∈ ([![0, 1], ![1, 0]] : List (Fin 2 → ℝ)), (∀ k, y k ≤ 10 ^ 10) ∧ ∃ k, y k < 10 ^ 10) ∧
    (∃ argsort, Sorts argsort) ∧ ∃ argmax : (Fin 2 → ℕ) → Fin 2, PicksMax argmax := by
  refine ⟨?_, ?_, ?_, sorts_exists, picksMax_exists 1⟩
  · intro y hy
    exact ⟨y, List.mem_cons_of_mem _ hy, fun k => le_rfl⟩
  · intro h
    obtain ⟨y', hy', hle⟩ := h ![0, 1] List.mem_cons_self
    obtain rfl : y' = ![1, 0] := by simpa using hy'
    have := hle 1
    norm_num at this
  · intro y hy
    simp only [List.mem_cons, List.not_mem_nil, or_false] at hy
    rcases hy with rfl | rfl
    · exact ⟨fun k => by fin_cases k <;> norm_num, 0, by norm_num⟩
    · exact ⟨fun k => by fin_cases k <;> norm_num, 1, by norm_num⟩

end Verif.Props
