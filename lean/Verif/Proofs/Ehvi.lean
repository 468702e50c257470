import Verif.Model.Ehvi
import Verif.Spec.Ehvi
import Verif.Proofs.BoxVolume
import Verif.Proofs.Normal
import Mathlib.MeasureTheory.Integral.Pi
import Mathlib.Algebra.BigOperators.Fin
import Mathlib.Algebra.BigOperators.Ring.Finset

namespace Verif.Proofs

open MeasureTheory ProbabilityTheory Set Verif.Model Verif.Spec

variable {m : ℕ}

/-! ### The sum over choices is a product of sums -/

theorem cross_sum : ∀ (m : ℕ) (g : Fin 2 → Fin m → ℝ),
    ((crossIndices m).map (fun r => ∏ k, g (r k) k)).sum = ∏ k, (g 0 k + g 1 k)
  | 0, g => by simp [crossIndices]
  | m + 1, g => by
    have ih := cross_sum m (fun j k => g j k.succ)
    have h : ∀ b : Fin 2, ((crossIndices m).map (fun r => ∏ k, g ((Fin.cons b r : Fin (m + 1) → Fin 2) k) k)).sum =
        g b 0 * ∏ k : Fin m, (g 0 k.succ + g 1 k.succ) := by
      intro b
      rw [← ih, ← List.sum_map_mul_left]
      congr 1
      apply List.map_congr_left
      intro r _
      rw [Fin.prod_univ_succ]
      simp
    rw [Fin.prod_univ_succ]
    simp only [crossIndices, List.flatMap_cons, List.flatMap_nil, List.append_nil, List.map_append, List.sum_append,
      List.map_map, Function.comp_def]
    rw [h 0, h 1]
    ring

theorem crossIndices_length (m : ℕ) : (crossIndices m).length = 2 ^ m := by
  induction m with
  | zero => rfl
  | succ m ih =>
    simp only [crossIndices, List.flatMap_cons, List.flatMap_nil, List.append_nil, List.length_append, List.length_map, ih]
    ring

/-! ### One objective -/

theorem integrable_improvement (μ : ℝ) (v : NNReal) (p : ℝ) :
    Integrable (fun y => max (p - y) 0) (gaussianReal μ v) := by
  have h : Integrable (fun y : ℝ => y) (gaussianReal μ v) := by
    have := memLp_id_gaussianReal (μ := μ) (v := v) 1
    exact memLp_one_iff_integrable.1 this
  exact ((integrable_const p).sub h).sup (integrable_const 0)

theorem clip_split (l u y : ℝ) (h : l ≤ u) : max (min y u - l) 0 = max (l - y) 0 - max (u - y) 0 + (u - l) := by
  rcases le_total y u with h1 | h1 <;> rcases le_total y l with h2 | h2
  · rw [min_eq_left h1, max_eq_right (by linarith), max_eq_left (by linarith), max_eq_left (by linarith)]; ring
  · rw [min_eq_left h1, max_eq_left (by linarith), max_eq_right (by linarith), max_eq_left (by linarith)]; ring
  · have : y = u := by linarith
    have : l = u := by linarith
    subst this; subst y; simp
  · rw [min_eq_right h1, max_eq_left (by linarith), max_eq_right (by linarith), max_eq_right (by linarith)]; ring

theorem integral_clip_split (μ : ℝ) (v : NNReal) (l u : ℝ) (h : l ≤ u) :
    ∫ y, max (min y u - l) 0 ∂gaussianReal μ v =
      ∫ y, max (l - y) 0 ∂gaussianReal μ v - ∫ y, max (u - y) 0 ∂gaussianReal μ v + (u - l) := by
  have h0 : ∀ y, max (min y u - l) 0 = max (l - y) 0 - max (u - y) 0 + (u - l) := fun y => clip_split l u y h
  simp only [h0]
  have i1 := integrable_improvement μ v l
  have i2 := integrable_improvement μ v u
  have e1 := integral_add (μ := gaussianReal μ v) (f := fun y => max (l - y) 0 - max (u - y) 0) (g := fun _ => u - l)
    (i1.sub i2) (integrable_const _)
  rw [e1, integral_sub i1 i2, integral_const]
  simp

theorem integral_clip (μ s l u : ℝ) (hs : 0 < s) (h : l ≤ u) :
    ∫ y, max (min y u - l) 0 ∂gaussianReal μ ⟨s ^ 2, sq_nonneg s⟩ = (psi l l μ s - psi l u μ s) + nu l u μ s := by
  refine (integral_clip_split μ _ l u h).trans ?_
  have e1 := integral_improvement μ s l hs
  have e2 := integral_improvement μ s u hs
  refine (congrArg₂ (fun a b => a - b + (u - l)) e1 e2).trans ?_
  simp only [eiFormula, psi, nu]
  ring

theorem integrable_clip (μ : ℝ) (v : NNReal) (l u : ℝ) (h : l ≤ u) :
    Integrable (fun y => max (min y u - l) 0) (gaussianReal μ v) := by
  have h0 : (fun y => max (min y u - l) 0) = fun y => max (l - y) 0 - max (u - y) 0 + (u - l) :=
    funext (fun y => clip_split l u y h)
  rw [h0]
  exact ((integrable_improvement _ _ _).sub (integrable_improvement _ _ _)).add (integrable_const _)

theorem ehviSigma_pos (v : ℝ) : 0 < ehviSigma v :=
  Real.sqrt_pos.2 (lt_of_lt_of_le (by norm_num) (le_max_right _ _))

theorem ehviSigma_sq (v : ℝ) : (⟨ehviSigma v ^ 2, sq_nonneg _⟩ : NNReal) = (max v (1 / 10 ^ 9)).toNNReal := by
  apply NNReal.eq
  have h : (0 : ℝ) ≤ max v (1 / 10 ^ 9) := le_trans (by norm_num) (le_max_right _ _)
  rw [Real.coe_toNNReal _ h]
  exact Real.sq_sqrt h

/-! ### One cell -/

/-- The part of one cell below an outcome, as a product of side lengths. -/
noncomputable def cellGain (cap : ℝ) (c : Cell m EReal) (y : Fin m → ℝ) : ℝ :=
  ∏ k, max (min (y k) (min (c.hi k) (cap : EReal)).toReal - (c.lo k).toReal) 0

/-- A cell as `forward` needs it: finite lower bounds below the cap and below the upper bounds. -/
def CellFits (cap : ℝ) (c : Cell m EReal) : Prop :=
  ∀ k, ∃ r : ℝ, c.lo k = r ∧ r ≤ cap ∧ c.lo k ≤ c.hi k

theorem coe_min' (a b : ℝ) : ((min a b : ℝ) : EReal) = min (a : EReal) (b : EReal) :=
  EReal.coe_strictMono.monotone.map_min

theorem upper_coe {cap : ℝ} {c : Cell m EReal} (h : CellFits cap c) (k : Fin m) :
    ((min (c.hi k) (cap : EReal)).toReal : EReal) = min (c.hi k) (cap : EReal) := by
  obtain ⟨r, h1, -, h3⟩ := h k
  exact clip_toReal (r := r) (h1 ▸ h3)

theorem lower_le_upper {cap : ℝ} {c : Cell m EReal} (h : CellFits cap c) (k : Fin m) :
    (c.lo k).toReal ≤ (min (c.hi k) (cap : EReal)).toReal := by
  have e := upper_coe h k
  obtain ⟨r, h1, h2, h3⟩ := h k
  rw [← EReal.coe_le_coe_iff, e, h1, EReal.toReal_coe]
  exact le_min (h1 ▸ h3) (EReal.coe_le_coe_iff.2 h2)

theorem integrable_cellGain {cap : ℝ} {c : Cell m EReal} (h : CellFits cap c) (mean variance : Fin m → ℝ) :
    Integrable (cellGain cap c) (independentNormals mean variance) := by
  unfold cellGain independentNormals
  exact Integrable.fintype_prod (f := fun k y => max (min y (min (c.hi k) (cap : EReal)).toReal - (c.lo k).toReal) 0)
    (fun k => integrable_clip _ _ _ _ (lower_le_upper h k))

theorem ehviCell_eq_prod (cap : ℝ) (c : Cell m EReal) (mean variance : Fin m → ℝ) :
    ehviCell cap c mean variance =
      ∏ k, (ehviFactor cap c mean variance 0 k + ehviFactor cap c mean variance 1 k) :=
  cross_sum m (ehviFactor cap c mean variance)

theorem ehviCell_eq_integral {cap : ℝ} {c : Cell m EReal} (h : CellFits cap c) (mean variance : Fin m → ℝ) :
    ehviCell cap c mean variance =
      ∫ y, cellGain cap c y ∂independentNormals mean (fun k => max (variance k) (1 / 10 ^ 9)) := by
  rw [ehviCell_eq_prod]
  unfold cellGain independentNormals
  rw [integral_fintype_prod_eq_prod (fun k y => max (min y (min (c.hi k) (cap : EReal)).toReal - (c.lo k).toReal) 0)]
  apply Finset.prod_congr rfl
  intro k _
  have := integral_clip (mean k) (ehviSigma (variance k)) _ _ (ehviSigma_pos _) (lower_le_upper h k)
  rw [ehviSigma_sq] at this
  rw [this]
  simp [ehviFactor]

/-! ### The gain in hypervolume is the volume below the outcome inside the improvement region -/

theorem openDominated_ne_top (ref : Fin m → ℝ) (Y : List (Fin m → ℝ)) : volume (openDominated ref Y) ≠ ⊤ := by
  induction Y with
  | nil =>
    have : openDominated ref [] = ∅ := by ext v; simp [openDominated]
    rw [this, measure_empty]; exact ENNReal.zero_ne_top
  | cons y Y ih =>
    have h : openDominated ref (y :: Y) ⊆ ioc ref y ∪ openDominated ref Y := by
      rintro v ⟨h1, z, hz, h2⟩
      rcases List.mem_cons.1 hz with rfl | hz
      · exact Or.inl (mem_ioc.2 (fun k => ⟨h1 k, h2 k⟩))
      · exact Or.inr ⟨h1, z, hz, h2⟩
    exact ne_top_of_le_ne_top (ENNReal.add_ne_top.2 ⟨ioc_ne_top ref y, ih⟩)
      ((measure_mono h).trans (measure_union_le _ _))

theorem gain_eq_volume (ref : Fin m → ℝ) (Y : List (Fin m → ℝ)) (y : Fin m → ℝ) :
    hypervolumeGain ref Y y = (volume (improvementRegion ref Y ∩ ioc ref y)).toReal := by
  unfold hypervolumeGain
  rw [hypervolume_eq_open, hypervolume_eq_open]
  have hu : openDominated ref (Y ++ [y]) = openDominated ref Y ∪ (improvementRegion ref Y ∩ ioc ref y) := by
    ext v
    rw [Set.mem_union, Set.mem_inter_iff, mem_ioc]
    constructor
    · rintro ⟨h1, z, hz, h2⟩
      by_cases hd : ∃ y ∈ Y, ∀ k, v k ≤ y k
      · exact Or.inl ⟨h1, hd⟩
      · rcases List.mem_append.1 hz with h | h
        · exact absurd ⟨z, h, h2⟩ hd
        · rw [List.mem_singleton] at h
          subst h
          exact Or.inr ⟨⟨h1, fun y hy hv => hd ⟨y, hy, hv⟩⟩, fun k => ⟨h1 k, h2 k⟩⟩
    · rintro (⟨h1, z, hz, h2⟩ | ⟨⟨h1, -⟩, h⟩)
      · exact ⟨h1, z, List.mem_append_left _ hz, h2⟩
      · exact ⟨h1, y, by simp, fun k => (h k).2⟩
  have hd : Disjoint (openDominated ref Y) (improvementRegion ref Y ∩ ioc ref y) := by
    rw [Set.disjoint_left]
    rintro v ⟨-, z, hz, hv⟩ ⟨⟨-, h⟩, -⟩
    exact h z hz hv
  have hm := (improvement_measurable ref Y).inter (ioc_measurable ref y)
  rw [hu, measure_union hd hm, ENNReal.toReal_add]
  · ring
  · exact openDominated_ne_top ref Y
  · exact measure_ne_top_of_subset Set.inter_subset_right (ioc_ne_top ref y)

/-- What lies below an outcome in one cell, in the terms of `clipped_partition`. -/
theorem cellGain_eq {cap : ℝ} {c : Cell m EReal} (h : CellFits cap c) (y : Fin m → ℝ) :
    cellGain cap c y = clampedVolume (clipCell (cappedAt cap y) c) := by
  unfold cellGain clampedVolume clipCell cappedAt
  apply Finset.prod_congr rfl
  intro k _
  have e := upper_coe h k
  obtain ⟨r, h1, h2, h3⟩ := h k
  have hr : (r : EReal) ≤ c.hi k := h1 ▸ h3
  have e1 : (min (c.lo k) ((min (y k) cap : ℝ) : EReal)).toReal = min r (min (y k) cap) := by
    rw [h1, ← coe_min', EReal.toReal_coe]
  have e2 : (min (c.hi k) ((min (y k) cap : ℝ) : EReal)).toReal =
      min (y k) (min (c.hi k) (cap : EReal)).toReal := by
    have := clip_toReal (x := min (y k) cap) hr
    rw [← EReal.coe_eq_coe_iff, this, coe_min', coe_min', e]
    rw [min_left_comm]
  show _ = max ((min (c.hi k) ((min (y k) cap : ℝ) : EReal)).toReal -
    (min (c.lo k) ((min (y k) cap : ℝ) : EReal)).toReal) 0
  rw [e1, e2, h1, EReal.toReal_coe]
  have hu : (min (c.hi k) (cap : EReal)).toReal ≤ cap := by
    rw [← EReal.coe_le_coe_iff, e]; exact min_le_right _ _
  rcases le_total r (min (y k) cap) with h4 | h4
  · rw [min_eq_left h4]
  · rw [min_eq_right h4]
    have h5 : min (y k) (min (c.hi k) (cap : EReal)).toReal ≤ min (y k) cap := min_le_min_left _ hu
    rw [max_eq_right (by linarith), max_eq_right (by linarith)]

theorem cells_gain {cap : ℝ} {ref : Fin m → ℝ} {Y : List (Fin m → ℝ)} {cells : List (Cell m EReal)}
    (hf : ∀ c ∈ cells, CellFits cap c) (hc : CellsAbove ref cells)
    (hp : PartitionsReal cells (improvementRegion ref Y)) (y : Fin m → ℝ) :
    (cells.map (fun c => cellGain cap c y)).sum = hypervolumeGain ref Y (cappedAt cap y) := by
  rw [gain_eq_volume, ← clipped_partition hc hp, List.map_map]
  congr 1
  apply List.map_congr_left
  intro c hc'
  exact cellGain_eq (hf c hc') y

theorem cells_gain_le {cap : ℝ} {ref : Fin m → ℝ} {Y : List (Fin m → ℝ)} {cells : List (Cell m EReal)}
    (hf : ∀ c ∈ cells, CellFits cap c) (hc : CellsAbove ref cells)
    (h1 : ∀ v ∈ improvementRegion ref Y, coverage cells (fun k => (v k : EReal)) ≤ 1)
    (h0 : ∀ v, v ∉ improvementRegion ref Y → coverage cells (fun k => (v k : EReal)) = 0) (y : Fin m → ℝ) :
    (cells.map (fun c => cellGain cap c y)).sum ≤ hypervolumeGain ref Y (cappedAt cap y) := by
  rw [gain_eq_volume]
  refine le_trans (le_of_eq ?_) (clipped_packing hc h1 h0)
  rw [List.map_map]
  congr 1
  apply List.map_congr_left
  intro c hc'
  exact cellGain_eq (hf c hc') y

theorem integral_cells {cap : ℝ} (mean variance : Fin m → ℝ) : ∀ cells : List (Cell m EReal),
    (∀ c ∈ cells, CellFits cap c) →
    Integrable (fun y => (cells.map (fun c => cellGain cap c y)).sum)
      (independentNormals mean (fun k => max (variance k) (1 / 10 ^ 9))) ∧
    (cells.map (fun c => ehviCell cap c mean variance)).sum =
      ∫ y, (cells.map (fun c => cellGain cap c y)).sum
        ∂independentNormals mean (fun k => max (variance k) (1 / 10 ^ 9))
  | [], _ => by simp
  | c :: cells, h => by
    obtain ⟨i1, i2⟩ := integral_cells mean variance cells (fun c' hc' => h c' (by simp [hc']))
    have hc := h c (by simp)
    have i3 := integrable_cellGain hc mean (fun k => max (variance k) (1 / 10 ^ 9))
    simp only [List.map_cons, List.sum_cons]
    refine ⟨i3.add i1, ?_⟩
    rw [integral_add i3 i1, i2, ehviCell_eq_integral hc]

/-! ### The cells of NondominatedPartitioning -/

theorem loop_cells {argsort : List ℝ → List ℕ} (hs : Sorts argsort) {argmax : (Fin (m + 1) → ℕ) → Fin (m + 1)}
    (hmax : PicksMax argmax) {alpha : ℝ} {ref : Fin (m + 1) → ℝ} {P : List (Fin (m + 1) → ℝ)} (hne : P ≠ [])
    (hbelow : ∀ p ∈ P, ∀ k, p k < - ref k) :
    ∀ (fuel : ℕ) (stack acc : List (Cell (m + 1) ℕ)), (∀ c ∈ stack, CellOk P.length c) →
      (∀ c ∈ acc, ∃ c', CellOk P.length c' ∧ c = cellIndices argsort P c') →
      ∀ c ∈ (binLoop argsort argmax alpha P fuel stack acc).2,
        ∃ c', CellOk P.length c' ∧ c = cellIndices argsort P c' := by
  intro fuel
  induction fuel with
  | zero => intro stack acc _ h; exact h
  | succ fuel ih =>
    intro stack acc hok hacc
    cases stack with
    | nil => exact hacc
    | cons c stack =>
      have hc := hok c (by simp)
      have hrest : ∀ c' ∈ stack, CellOk P.length c' := fun c' h => hok c' (by simp [h])
      have hj := judge_facts (alpha := alpha) hmax hne (fun k => (grid_ok (ref := ref) hs hne hbelow k).1) hc
      rw [binLoop]
      rcases hv : judgeCell argsort argmax alpha P c with i | ⟨c₁, c₂⟩ | _
      · rw [hv] at hj
        apply ih _ _ hrest
        intro c' hc'
        rcases List.mem_append.1 hc' with h | h
        · exact hacc c' h
        · rw [List.mem_singleton] at h
          exact ⟨c, hc, by rw [h, hj.1]⟩
      · rw [hv] at hj
        refine ih _ _ ?_ hacc
        intro c' h
        rcases List.mem_cons.1 h with rfl | h
        · exact hj.2.1
        · rcases List.mem_cons.1 h with rfl | h
          · exact hj.1
          · exact hrest c' h
      · exact ih _ _ hrest hacc

theorem entryAt_pos {argsort : List ℝ → List ℕ} (hs : Sorts argsort) (P : List (Fin (m + 1) → ℝ)) (k : Fin (m + 1))
    {p : ℕ} (h1 : 1 ≤ p) (hp : p ≤ P.length + 1) : 1 ≤ entryAt (augIndices argsort P k) p := by
  obtain ⟨h0, hn, f, -, -, -, f4⟩ := grid_facts hs P k
  rcases Nat.lt_or_ge p (P.length + 1) with h' | h'
  · obtain ⟨i, rfl⟩ : ∃ i, p = i + 1 := ⟨p - 1, by omega⟩
    obtain ⟨a, y, -, -, h3⟩ := f4 i (by omega)
    rw [h3]; omega
  · have : p = P.length + 1 := by omega
    rw [this, hn]; omega

/-- The upper index of every cell is the index of a front point or of the reference point. -/
theorem binSpace_hi {argsort : List ℝ → List ℕ} (hs : Sorts argsort) {argmax : (Fin (m + 1) → ℕ) → Fin (m + 1)}
    (hmax : PicksMax argmax) {alpha : ℝ} {ref : Fin (m + 1) → ℝ} {P : List (Fin (m + 1) → ℝ)}
    (hbelow : ∀ p ∈ P, ∀ k, p k < - ref k) :
    ∀ c ∈ binPartitionSpace argsort argmax alpha P, ∀ k, 1 ≤ c.hi k ∧ c.hi k ≤ P.length + 1 := by
  intro c hc k
  unfold binPartitionSpace at hc
  split_ifs at hc with hm
  · obtain ⟨i, hi, rfl⟩ := List.mem_map.1 hc
    rw [List.mem_range] at hi
    show 1 ≤ (if k = 0 then 1 + i else _) ∧ (if k = 0 then 1 + i else _) ≤ _
    split_ifs
    · omega
    · exact ⟨entryAt_pos hs P _ (by omega) (by omega), entryAt_le hs P _ (by omega)⟩
  · unfold binPartition at hc
    have key : ∃ c', CellOk P.length c' ∧ c = cellIndices argsort P c' := by
      split_ifs at hc with h0
      · rw [List.mem_singleton] at hc
        exact ⟨_, wholeCell_ok _, hc⟩
      · refine loop_cells hs hmax (fun h => h0 (by rw [h]; rfl)) hbelow _ _ _ ?_ ?_ c hc
        · intro c hc
          rw [List.mem_singleton] at hc
          rw [hc]; exact wholeCell_ok _
        · intro c hc; simp at hc
    obtain ⟨c', h1, rfl⟩ := key
    have := h1 k
    exact ⟨entryAt_pos hs P k (by omega) this.2, entryAt_le hs P k this.2⟩

/-- The cells of a partitioning: finite lower bounds, each the reference point's or some outcome's coordinate, and not
above the upper bound. -/
theorem binBounds_fits {argsort : List ℝ → List ℕ} (hs : Sorts argsort)
    {argmax : (Fin (m + 1) → ℕ) → Fin (m + 1)} (hmax : PicksMax argmax) {alpha : ℝ} {ref : Fin (m + 1) → ℝ}
    {Y : List (Fin (m + 1) → ℝ)} {s : BinState m} (h : BinInv argsort argmax alpha ref Y s) :
    ∀ c ∈ binBounds ref s, ∀ k, ∃ r : ℝ, c.lo k = r ∧ ref k ≤ r ∧ (r = ref k ∨ ∃ y ∈ Y, r = y k) ∧ c.lo k ≤ c.hi k := by
  have hok := frontOk_of_perm hs true ref Y
  have hrows := rows_negParetoOf hs true ref Y
  rw [← h.front] at hok hrows
  intro c hc k
  obtain ⟨i, hi, rfl⟩ := List.mem_map.1 hc
  rw [h.cells] at hi
  have hhi := binSpace_hi (ref := ref) hs hmax hok.below i hi k
  obtain ⟨b1, b2, b3⟩ := augBound_facts ref s.negPareto k
  have hle : (- augBound ref s.negPareto k (i.hi k)) ≤ - augBound ref s.negPareto k (i.lo k) := by
    rw [EReal.neg_le_neg_iff]
    by_cases hne : s.negPareto = []
    · have hlo : i.lo k = 0 := by
        rw [hne] at hi
        unfold binPartitionSpace at hi
        split_ifs at hi with hm
        · obtain ⟨j, hj, rfl⟩ := List.mem_map.1 hi
          rw [List.mem_range] at hj
          have : j = 0 := by simpa using hj
          simp [this]
        · unfold binPartition at hi
          rw [if_pos (by rfl), List.mem_singleton] at hi
          rw [hi]
          show entryAt (augIndices argsort [] k) 0 = 0
          simp [entryAt, augIndices]
      rw [hlo, b1]; exact bot_le
    · exact (binSpace_idxOk hs hmax h.front hne i hi k).2.2
  show ∃ r : ℝ, - augBound ref s.negPareto k (i.hi k) = r ∧ _ ∧ _ ∧ - augBound ref s.negPareto k (i.hi k) ≤ _
  rcases Nat.lt_or_ge (i.hi k) (s.negPareto.length + 1) with h' | h'
  · obtain ⟨j, hj⟩ : ∃ j, i.hi k = j + 1 := ⟨i.hi k - 1, by omega⟩
    have hjl : j < s.negPareto.length := by omega
    have hmem := List.getElem_mem hjl
    have hb := b2 j _ (List.getElem?_eq_getElem hjl)
    rw [← hj] at hb
    refine ⟨- (s.negPareto[j] k), ?_, ?_, Or.inr ?_, hle⟩
    · rw [hb, EReal.coe_neg]
    · have := hok.below _ hmem k; linarith
    · exact ⟨_, hrows _ hmem, rfl⟩
  · have he : i.hi k = s.negPareto.length + 1 := by omega
    refine ⟨ref k, ?_, le_refl _, Or.inl rfl, hle⟩
    rw [he, b3, ← EReal.coe_neg, neg_neg]

end Verif.Proofs
