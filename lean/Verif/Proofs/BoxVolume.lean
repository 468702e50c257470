import Verif.Proofs.BinPartition
import Verif.Spec.Hypervolume
import Mathlib.MeasureTheory.Measure.Lebesgue.Basic
import Mathlib.MeasureTheory.Integral.Lebesgue.Basic
import Mathlib.MeasureTheory.Integral.Lebesgue.Add
import Mathlib.MeasureTheory.Constructions.Pi

/-!
# Volumes of box decompositions
-/
namespace Verif.Proofs

open Verif.Model Verif.Spec MeasureTheory

variable {m : ℕ}

/-- The volumes of sets add up to the integral of the number of sets that contain a vector. -/
theorem sum_volumes (Cs : List (Set (Fin m → ℝ))) (hC : ∀ C ∈ Cs, MeasurableSet C) :
    (Cs.map (fun C => volume C)).sum =
      ∫⁻ v, (Cs.map (fun C => C.indicator (fun _ => (1 : ENNReal)) v)).sum := by
  induction Cs with
  | nil => simp
  | cons C Cs ih =>
    have hm := hC C (by simp)
    simp only [List.map_cons, List.sum_cons]
    rw [lintegral_add_left (measurable_const.indicator hm), lintegral_indicator hm, setLIntegral_one,
      ih (fun C' h => hC C' (by simp [h]))]

open Classical in
theorem indicator_sum (Cs : List (Set (Fin m → ℝ))) (v : Fin m → ℝ) :
    (Cs.map (fun C => C.indicator (fun _ => (1 : ENNReal)) v)).sum =
      (Cs.countP (fun C => decide (v ∈ C)) : ℕ) := by
  induction Cs with
  | nil => simp
  | cons C Cs ih =>
    rw [List.map_cons, List.sum_cons, ih, List.countP_cons]
    by_cases h : v ∈ C
    · simp [h, add_comm]
    · simp [h]

open Classical in
/-- Sets that cover a region exactly once. -/
theorem partition_volume {Cs : List (Set (Fin m → ℝ))} (hC : ∀ C ∈ Cs, MeasurableSet C) {R : Set (Fin m → ℝ)}
    (hR : MeasurableSet R) (h1 : ∀ v ∈ R, Cs.countP (fun C => decide (v ∈ C)) = 1)
    (h0 : ∀ v, v ∉ R → Cs.countP (fun C => decide (v ∈ C)) = 0) :
    (Cs.map (fun C => volume C)).sum = volume R := by
  rw [sum_volumes Cs hC, ← setLIntegral_one, ← lintegral_indicator hR]
  congr 1
  ext v
  rw [indicator_sum]
  by_cases h : v ∈ R
  · rw [h1 v h, Set.indicator_of_mem h]; simp
  · rw [h0 v h, Set.indicator_of_notMem h]; simp

open Classical in
/-- Disjoint sets inside a region. -/
theorem packing_volume {Cs : List (Set (Fin m → ℝ))} (hC : ∀ C ∈ Cs, MeasurableSet C) {R : Set (Fin m → ℝ)}
    (hR : MeasurableSet R) (h1 : ∀ v ∈ R, Cs.countP (fun C => decide (v ∈ C)) ≤ 1)
    (h0 : ∀ v, v ∉ R → Cs.countP (fun C => decide (v ∈ C)) = 0) :
    (Cs.map (fun C => volume C)).sum ≤ volume R := by
  rw [sum_volumes Cs hC, ← setLIntegral_one, ← lintegral_indicator hR]
  apply lintegral_mono
  intro v
  simp only
  rw [indicator_sum]
  by_cases h : v ∈ R
  · rw [Set.indicator_of_mem h]
    exact_mod_cast h1 v h
  · rw [h0 v h, Set.indicator_of_notMem h]; simp

/-- A box, open below and closed above. -/
def ioc (a b : Fin m → ℝ) : Set (Fin m → ℝ) := Set.univ.pi (fun k => Set.Ioc (a k) (b k))

theorem mem_ioc {a b v : Fin m → ℝ} : v ∈ ioc a b ↔ ∀ k, a k < v k ∧ v k ≤ b k := by
  unfold ioc; simp [Set.mem_pi]

theorem ioc_measurable (a b : Fin m → ℝ) : MeasurableSet (ioc a b) :=
  MeasurableSet.univ_pi (fun _ => measurableSet_Ioc)

theorem ioc_volume (a b : Fin m → ℝ) : (volume (ioc a b)).toReal = ∏ k, max (b k - a k) 0 := by
  unfold ioc
  rw [Real.volume_pi_Ioc, ENNReal.toReal_prod]
  exact Finset.prod_congr rfl (fun k _ => ENNReal.toReal_ofReal')

theorem ioc_ne_top (a b : Fin m → ℝ) : volume (ioc a b) ≠ ⊤ := by
  unfold ioc
  rw [Real.volume_pi_Ioc]
  exact ENNReal.prod_ne_top (fun k _ => ENNReal.ofReal_ne_top)

theorem toReal_sum (l : List ENNReal) (h : ∀ x ∈ l, x ≠ ⊤) : l.sum.toReal = (l.map ENNReal.toReal).sum ∧ l.sum ≠ ⊤ := by
  induction l with
  | nil => simp
  | cons x l ih =>
    obtain ⟨h1, h2⟩ := ih (fun y hy => h y (by simp [hy]))
    have hx := h x (by simp)
    rw [List.sum_cons, List.map_cons, List.sum_cons, ENNReal.toReal_add hx h2, h1]
    exact ⟨rfl, ENNReal.add_ne_top.2 ⟨hx, h2⟩⟩

/-! ### Regions -/

theorem le_measurable (y : Fin m → ℝ) : MeasurableSet {v : Fin m → ℝ | ∀ k, v k ≤ y k} := by
  have : {v : Fin m → ℝ | ∀ k, v k ≤ y k} = ⋂ k, {v | v k ≤ y k} := by ext v; simp
  rw [this]
  exact MeasurableSet.iInter (fun k => measurableSet_le (measurable_pi_apply k) measurable_const)

theorem lt_measurable (r : Fin m → ℝ) : MeasurableSet {v : Fin m → ℝ | ∀ k, r k < v k} := by
  have : {v : Fin m → ℝ | ∀ k, r k < v k} = ⋂ k, {v | r k < v k} := by ext v; simp
  rw [this]
  exact MeasurableSet.iInter (fun k => measurableSet_lt measurable_const (measurable_pi_apply k))

theorem dominated_measurable (Y : List (Fin m → ℝ)) : MeasurableSet {v : Fin m → ℝ | ∃ y ∈ Y, ∀ k, v k ≤ y k} := by
  induction Y with
  | nil => simp
  | cons y Y ih =>
    have : {v : Fin m → ℝ | ∃ z ∈ y :: Y, ∀ k, v k ≤ z k} =
        {v | ∀ k, v k ≤ y k} ∪ {v | ∃ z ∈ Y, ∀ k, v k ≤ z k} := by
      ext v; simp
    rw [this]
    exact (le_measurable y).union ih

/-- The dominated region without the faces through the reference point. -/
def openDominated (ref : Fin m → ℝ) (Y : List (Fin m → ℝ)) : Set (Fin m → ℝ) :=
  {v | ∀ k, ref k < v k} ∩ {v | ∃ y ∈ Y, ∀ k, v k ≤ y k}

theorem openDominated_measurable (ref : Fin m → ℝ) (Y : List (Fin m → ℝ)) : MeasurableSet (openDominated ref Y) :=
  (lt_measurable ref).inter (dominated_measurable Y)

theorem improvement_measurable (ref : Fin m → ℝ) (Y : List (Fin m → ℝ)) : MeasurableSet (improvementRegion ref Y) := by
  have : improvementRegion ref Y = {v | ∀ k, ref k < v k} ∩ {v | ∃ y ∈ Y, ∀ k, v k ≤ y k}ᶜ := by
    ext v; simp [improvementRegion]
  rw [this]
  exact (lt_measurable ref).inter (dominated_measurable Y).compl

theorem hypervolume_eq_open (ref : Fin m → ℝ) (Y : List (Fin m → ℝ)) :
    hypervolume ref Y = (volume (openDominated ref Y)).toReal := by
  unfold hypervolume
  congr 1
  apply le_antisymm
  · have hsub : dominatedRegion ref Y ⊆ openDominated ref Y ∪ ⋃ k, {v | v k = ref k} := by
      rintro v ⟨h1, h2⟩
      by_cases h : ∀ k, ref k < v k
      · exact Or.inl ⟨h, h2⟩
      · right
        push Not at h
        obtain ⟨k, hk⟩ := h
        exact Set.mem_iUnion.2 ⟨k, le_antisymm hk (h1 k)⟩
    refine (measure_mono hsub).trans ((measure_union_le _ _).trans ?_)
    have hz : volume (⋃ k, {v : Fin m → ℝ | v k = ref k}) = 0 := by
      rw [measure_iUnion_null_iff]
      intro k
      exact Measure.pi_hyperplane (fun _ : Fin m => (volume : Measure ℝ)) k (ref k)
    rw [hz, add_zero]
  · apply measure_mono
    rintro v ⟨h1, h2⟩
    exact ⟨fun k => (h1 k).le, h2⟩

/-- The part of the box up to the ideal point that is not dominated, and the rest. -/
theorem hypervolume_split {ref ideal : Fin m → ℝ} {Y : List (Fin m → ℝ)}
    (hideal : ∀ v : Fin m → ℝ, (∀ k, ref k < v k) → (∃ y ∈ Y, ∀ k, v k ≤ y k) → ∀ k, v k ≤ ideal k) :
    hypervolume ref Y = (∏ k, max (ideal k - ref k) 0) - (volume (improvementRegion ref Y ∩ ioc ref ideal)).toReal := by
  rw [hypervolume_eq_open, ← ioc_volume]
  have hu : ioc ref ideal = openDominated ref Y ∪ (improvementRegion ref Y ∩ ioc ref ideal) := by
    ext v
    rw [Set.mem_union, Set.mem_inter_iff, mem_ioc]
    constructor
    · intro h
      by_cases hd : ∃ y ∈ Y, ∀ k, v k ≤ y k
      · exact Or.inl ⟨fun k => (h k).1, hd⟩
      · refine Or.inr ⟨⟨fun k => (h k).1, ?_⟩, h⟩
        intro y hy hv
        exact hd ⟨y, hy, hv⟩
    · rintro (⟨h1, h2⟩ | ⟨-, h⟩)
      · exact fun k => ⟨h1 k, hideal v h1 h2 k⟩
      · exact h
  have hd : Disjoint (openDominated ref Y) (improvementRegion ref Y ∩ ioc ref ideal) := by
    rw [Set.disjoint_left]
    rintro v ⟨-, y, hy, hv⟩ ⟨⟨-, h⟩, -⟩
    exact h y hy hv
  have hm := (improvement_measurable ref Y).inter (ioc_measurable ref ideal)
  have hv : volume (ioc ref ideal) =
      volume (openDominated ref Y) + volume (improvementRegion ref Y ∩ ioc ref ideal) := by
    conv_lhs => rw [hu]
    exact measure_union hd hm
  have hfin := ioc_ne_top ref ideal
  rw [hv] at hfin
  rw [hv, ENNReal.toReal_add (ENNReal.add_ne_top.1 hfin).1 (ENNReal.add_ne_top.1 hfin).2]
  ring

/-! ### The cells clipped at the ideal point -/

/-- The real vectors of a clipped cell. -/
noncomputable def clippedSet (ideal : Fin m → ℝ) (c : Cell m EReal) : Set (Fin m → ℝ) :=
  ioc (fun k => ((clipCell ideal c).lo k).toReal) (fun k => ((clipCell ideal c).hi k).toReal)

theorem clip_toReal {a : EReal} {r x : ℝ} (h : (r : EReal) ≤ a) :
    ((min a (x : EReal)).toReal : EReal) = min a (x : EReal) := by
  apply EReal.coe_toReal
  · exact ne_of_lt (lt_of_le_of_lt (min_le_right _ _) (EReal.coe_lt_top x))
  · exact ne_of_gt (lt_of_lt_of_le (EReal.bot_lt_coe (min r x))
      (le_min (le_trans (EReal.coe_le_coe_iff.2 (min_le_left _ _)) h) (EReal.coe_le_coe_iff.2 (min_le_right _ _))))

theorem mem_clippedSet {ref ideal : Fin m → ℝ} {c : Cell m EReal}
    (hc : ∀ k, (ref k : EReal) ≤ c.lo k ∧ (ref k : EReal) ≤ c.hi k) (v : Fin m → ℝ) :
    v ∈ clippedSet ideal c ↔ InCell c (fun k => (v k : EReal)) ∧ v ∈ ioc ref ideal := by
  unfold clippedSet InCell StrictlyBelow WeaklyBelow
  rw [mem_ioc, mem_ioc, ← forall_and, ← forall_and]
  refine forall_congr' (fun k => ?_)
  have e1 := clip_toReal (x := ideal k) (hc k).1
  have e2 := clip_toReal (x := ideal k) (hc k).2
  rw [← EReal.coe_lt_coe_iff, ← EReal.coe_le_coe_iff]
  have e1' : ((((clipCell ideal c).lo k).toReal : ℝ) : EReal) = min (c.lo k) (ideal k : EReal) := e1
  have e2' : ((((clipCell ideal c).hi k).toReal : ℝ) : EReal) = min (c.hi k) (ideal k : EReal) := e2
  rw [e1', e2', le_min_iff, min_lt_iff]
  constructor
  · rintro ⟨h1, h2, h3⟩
    have h3' := EReal.coe_le_coe_iff.1 h3
    have h1' := h1.resolve_right (not_lt.2 h3)
    exact ⟨⟨h1', h2⟩, EReal.coe_lt_coe_iff.1 (lt_of_le_of_lt (hc k).1 h1'), h3'⟩
  · rintro ⟨⟨h1, h2⟩, h3, h4⟩
    exact ⟨Or.inl h1, h2, EReal.coe_le_coe_iff.2 h4⟩

theorem countP_clipped {ref ideal : Fin m → ℝ} {cells : List (Cell m EReal)} (hc : CellsAbove ref cells)
    (v : Fin m → ℝ) [DecidablePred fun C : Set (Fin m → ℝ) => v ∈ C] :
    (v ∈ ioc ref ideal → (cells.map (clippedSet ideal)).countP (fun C => decide (v ∈ C)) =
      coverage cells (fun k => (v k : EReal))) ∧
    (v ∉ ioc ref ideal → (cells.map (clippedSet ideal)).countP (fun C => decide (v ∈ C)) = 0) := by
  constructor
  · intro hv
    unfold coverage
    rw [List.countP_map]
    apply List.countP_congr
    intro c h
    simp only [Function.comp, decide_eq_true_eq]
    rw [mem_clippedSet (hc c h)]
    exact and_iff_left hv
  · intro hv
    rw [List.countP_map, List.countP_eq_zero]
    intro c h hin
    simp only [Function.comp, decide_eq_true_eq] at hin
    exact hv ((mem_clippedSet (hc c h) v).1 hin).2

theorem clamped_eq (ideal : Fin m → ℝ) (c : Cell m EReal) :
    clampedVolume (clipCell ideal c) = (volume (clippedSet ideal c)).toReal := (ioc_volume _ _).symm

theorem clipped_sum (ideal : Fin m → ℝ) (cells : List (Cell m EReal)) :
    ((cells.map (clipCell ideal)).map clampedVolume).sum =
      (((cells.map (clippedSet ideal)).map (fun C => volume C)).sum).toReal := by
  rw [(toReal_sum _ (by
    intro x hx
    simp only [List.map_map, List.mem_map, Function.comp] at hx
    obtain ⟨c, -, rfl⟩ := hx
    exact ioc_ne_top _ _)).1]
  simp only [List.map_map]
  congr 1
  apply List.map_congr_left
  intro c _
  exact clamped_eq ideal c

theorem clippedSets_measurable (ideal : Fin m → ℝ) (cells : List (Cell m EReal)) :
    ∀ C ∈ cells.map (clippedSet ideal), MeasurableSet C := by
  intro C hC
  obtain ⟨c, -, rfl⟩ := List.mem_map.1 hC
  exact ioc_measurable _ _

/-- Cells that partition the improvement region, clipped at the ideal point. -/
theorem clipped_partition {ref ideal : Fin m → ℝ} {Y : List (Fin m → ℝ)} {cells : List (Cell m EReal)}
    (hc : CellsAbove ref cells) (hp : PartitionsReal cells (improvementRegion ref Y)) :
    ((cells.map (clipCell ideal)).map clampedVolume).sum =
      (volume (improvementRegion ref Y ∩ ioc ref ideal)).toReal := by
  classical
  rw [clipped_sum, partition_volume (clippedSets_measurable ideal cells)
    ((improvement_measurable ref Y).inter (ioc_measurable ref ideal))]
  · rintro v ⟨h1, h2⟩
    rw [(countP_clipped hc v).1 h2]
    exact (hp v).1 h1
  · intro v hv
    by_cases h2 : v ∈ ioc ref ideal
    · rw [(countP_clipped hc v).1 h2]
      exact (hp v).2 (fun h1 => hv ⟨h1, h2⟩)
    · exact (countP_clipped hc v).2 h2

/-- Disjoint cells inside the improvement region, clipped at the ideal point. -/
theorem clipped_packing {ref ideal : Fin m → ℝ} {Y : List (Fin m → ℝ)} {cells : List (Cell m EReal)}
    (hc : CellsAbove ref cells)
    (h1 : ∀ v ∈ improvementRegion ref Y, coverage cells (fun k => (v k : EReal)) ≤ 1)
    (h0 : ∀ v, v ∉ improvementRegion ref Y → coverage cells (fun k => (v k : EReal)) = 0) :
    ((cells.map (clipCell ideal)).map clampedVolume).sum ≤
      (volume (improvementRegion ref Y ∩ ioc ref ideal)).toReal := by
  classical
  rw [clipped_sum]
  apply ENNReal.toReal_mono
  · exact measure_ne_top_of_subset Set.inter_subset_right (ioc_ne_top ref ideal)
  apply packing_volume (clippedSets_measurable ideal cells)
    ((improvement_measurable ref Y).inter (ioc_measurable ref ideal))
  · rintro v ⟨h, h2⟩
    rw [(countP_clipped hc v).1 h2]
    exact h1 v h
  · intro v hv
    by_cases h2 : v ∈ ioc ref ideal
    · rw [(countP_clipped hc v).1 h2]
      exact h0 v (fun h => hv ⟨h, h2⟩)
    · exact (countP_clipped hc v).2 h2

theorem hypervolume_empty {ref : Fin m → ℝ} {Y : List (Fin m → ℝ)} (h : Decides ref [] Y) : hypervolume ref Y = 0 := by
  rw [hypervolume_eq_open]
  have : openDominated ref Y = ∅ := by
    ext v
    simp only [Set.mem_empty_iff_false, iff_false]
    rintro ⟨h1, h2⟩
    obtain ⟨p, hp, -⟩ := (h v h1).1 h2
    simp at hp
  rw [this]; simp

/-! ### FastNondominatedPartitioning -/

theorem fastHypervolume_eq {ref : Fin (m + 2) → ℝ} {Y : List (Fin (m + 2) → ℝ)} {s : FastState m}
    (h : FastInv ref Y s) : fastHypervolume ref s = hypervolume ref Y := by
  unfold fastHypervolume
  split_ifs with h0
  · have := h.dec
    rw [List.length_eq_zero_iff.1 h0] at this
    exact (hypervolume_empty this).symm
  · simp only
    rw [clipped_partition h.above h.cells]
    refine (hypervolume_split ?_).symm
    intro v hv hd k
    obtain ⟨p, hp, hpv⟩ := (h.dec v hv).1 hd
    have h1 := le_colMax (m := m + 1) (negRows s.negPareto) k (y := fun k => - p k)
      (mem_negRows.2 (by simpa using hp))
    have h2 := hpv k
    linarith

/-! ### NondominatedPartitioning -/

/-- The two index rows of an accepted cell, for one objective. -/
def IdxOk (ref : Fin (m + 1) → ℝ) (P : List (Fin (m + 1) → ℝ)) (c : Cell (m + 1) ℕ) : Prop :=
  ∀ k, c.lo k ≤ P.length + 1 ∧ c.hi k ≤ P.length + 1 ∧ augBound ref P k (c.lo k) ≤ augBound ref P k (c.hi k)

theorem entryAt_le {argsort : List ℝ → List ℕ} (hs : Sorts argsort) (P : List (Fin (m + 1) → ℝ)) (k : Fin (m + 1))
    {p : ℕ} (hp : p ≤ P.length + 1) : entryAt (augIndices argsort P k) p ≤ P.length + 1 := by
  obtain ⟨h0, hn, f, -, -, -, f4⟩ := grid_facts hs P k
  rcases Nat.eq_zero_or_pos p with rfl | h
  · rw [h0]; omega
  · rcases Nat.lt_or_ge p (P.length + 1) with h' | h'
    · obtain ⟨i, rfl⟩ : ∃ i, p = i + 1 := ⟨p - 1, by omega⟩
      obtain ⟨a, y, h1, -, h3⟩ := f4 i (by omega)
      have := (List.getElem?_eq_some_iff.1 h1).1
      rw [h3]; omega
    · have : p = P.length + 1 := by omega
      rw [this, hn]

theorem idxOk_of_cell {argsort : List ℝ → List ℕ} (hs : Sorts argsort) {ref : Fin (m + 1) → ℝ}
    {P : List (Fin (m + 1) → ℝ)} (hne : P ≠ []) (hbelow : ∀ p ∈ P, ∀ k, p k < - ref k) {c : Cell (m + 1) ℕ}
    (hc : CellOk P.length c) : IdxOk ref P (cellIndices argsort P c) := by
  intro k
  obtain ⟨hg, -, -⟩ := grid_ok hs hne hbelow k
  refine ⟨entryAt_le hs P k (by have := hc k; omega), entryAt_le hs P k (hc k).2, ?_⟩
  exact hg.mono _ _ (hc k).1.le (hc k).2

theorem loop_idxOk {argsort : List ℝ → List ℕ} (hs : Sorts argsort) {argmax : (Fin (m + 1) → ℕ) → Fin (m + 1)}
    (hmax : PicksMax argmax) {alpha : ℝ} {ref : Fin (m + 1) → ℝ} {P : List (Fin (m + 1) → ℝ)} (hne : P ≠ [])
    (hbelow : ∀ p ∈ P, ∀ k, p k < - ref k) :
    ∀ (fuel : ℕ) (stack acc : List (Cell (m + 1) ℕ)), (∀ c ∈ stack, CellOk P.length c) → (∀ c ∈ acc, IdxOk ref P c) →
      ∀ c ∈ (binLoop argsort argmax alpha P fuel stack acc).2, IdxOk ref P c := by
  intro fuel
  induction fuel with
  | zero => intro stack acc _ h; exact h
  | succ fuel ih =>
    intro stack acc hok hacc
    cases stack with
    | nil => exact hacc
    | cons c stack =>
      have hc := hok c (by simp)
      have hrest : ∀ c' ∈ stack, CellOk P.length c' := fun c' h => hok c' (by simp [h])
      have hj := judge_facts (alpha := alpha) hmax hne (fun k => (grid_ok (ref := ref) hs hne hbelow k).1) hc
      rw [binLoop]
      rcases hv : judgeCell argsort argmax alpha P c with i | ⟨c₁, c₂⟩ | _
      · rw [hv] at hj
        apply ih _ _ hrest
        intro c' hc'
        rcases List.mem_append.1 hc' with h | h
        · exact hacc c' h
        · rw [List.mem_singleton] at h
          rw [h, hj.1]
          exact idxOk_of_cell hs hne hbelow hc
      · rw [hv] at hj
        refine ih _ _ ?_ hacc
        intro c' h
        rcases List.mem_cons.1 h with rfl | h
        · exact hj.2.1
        · rcases List.mem_cons.1 h with rfl | h
          · exact hj.1
          · exact hrest c' h
      · exact ih _ _ hrest hacc

theorem binSpace_idxOk {argsort : List ℝ → List ℕ} (hs : Sorts argsort) {argmax : (Fin (m + 1) → ℕ) → Fin (m + 1)}
    (hmax : PicksMax argmax) {alpha : ℝ} {ref : Fin (m + 1) → ℝ} {Y : List (Fin (m + 1) → ℝ)}
    {P : List (Fin (m + 1) → ℝ)} (hP : P = negParetoOf argsort true ref (negRows Y)) (hne : P ≠ []) :
    ∀ c ∈ binPartitionSpace argsort argmax alpha P, IdxOk ref P c := by
  have hok := frontOk_of_perm hs true ref Y
  rw [← hP] at hok
  unfold binPartitionSpace
  split_ifs with hm
  · obtain rfl : m = 0 + 1 := by omega
    have hsorted : P.Pairwise (fun p q => p 0 ≤ q 0) := by
      rw [hP]
      unfold negParetoOf
      split_ifs with h3 h4
      · rw [List.length_eq_zero_iff.1 h3]; exact List.Pairwise.nil
      · exact pickRows_sorted hs _
      · exact absurd rfl h4
    have hs2 := front_sorted2 hok hsorted
    intro c hc
    obtain ⟨i, hi, rfl⟩ := List.mem_map.1 hc
    rw [List.mem_range] at hi
    have hlast := augIndices_2d hs (hs2.imp (fun h => h.2)) (show i ≤ P.length by omega)
    obtain ⟨b10, b20, b30⟩ := augBound_facts ref P 0
    obtain ⟨b11, b21, b31⟩ := augBound_facts ref P 1
    unfold IdxOk
    rw [forall_fin2 (p := fun k => _ ∧ _ ∧ _)]
    constructor
    · show i ≤ _ ∧ 1 + i ≤ _ ∧ augBound ref P 0 i ≤ augBound ref P 0 (1 + i)
      refine ⟨by omega, by omega, ?_⟩
      rw [Nat.add_comm 1 i]
      rcases Nat.eq_zero_or_pos i with rfl | hpos
      · rw [b10]; exact bot_le
      · obtain ⟨j, rfl⟩ : ∃ j, i = j + 1 := ⟨i - 1, by omega⟩
        have hj : j < P.length := by omega
        rw [b20 j _ (List.getElem?_eq_getElem hj)]
        rcases Nat.lt_or_ge (j + 1) P.length with h | h
        · rw [b20 (j + 1) _ (List.getElem?_eq_getElem h), EReal.coe_le_coe_iff]
          exact (List.pairwise_iff_getElem.1 hs2 j (j + 1) hj h (by omega)).1.le
        · have : j + 1 = P.length := by omega
          rw [this, b30, EReal.coe_le_coe_iff]
          exact (hok.below _ (List.getElem_mem hj) 0).le
    · show 0 ≤ _ ∧ entryAt (augIndices argsort P (Fin.last (0 + 1))) (P.length + 1 - i) ≤ _ ∧
        augBound ref P 1 0 ≤ _
      rw [hlast, b11]
      refine ⟨Nat.zero_le _, ?_, bot_le⟩
      split_ifs <;> omega
  · unfold binPartition
    rw [if_neg (fun h => hne (List.length_eq_zero_iff.1 h))]
    apply loop_idxOk hs hmax hne hok.below
    · intro c hc
      rw [List.mem_singleton] at hc
      rw [hc]; exact wholeCell_ok _
    · intro c hc; simp at hc

theorem augIdeal_facts (ref : Fin (m + 1) → ℝ) (P : List (Fin (m + 1) → ℝ)) (k : Fin (m + 1)) :
    augIdeal ref P k 0 = colMin P k ∧ (∀ a y, P[a]? = some y → augIdeal ref P k (a + 1) = y k) ∧
      augIdeal ref P k (P.length + 1) = - ref k := by
  obtain ⟨g1, g2, g3⟩ := getD_ends (colMin P k) (- ref k) 0 (P.map (fun y => y k))
  refine ⟨g1, ?_, ?_⟩
  · intro a y h
    exact g2 a _ (by rw [List.getElem?_map, h]; rfl)
  · rw [List.length_map] at g3
    exact g3

/-- The bound at an index, its clipped value and its lower bound. -/
theorem aug_clip {ref : Fin (m + 1) → ℝ} {P : List (Fin (m + 1) → ℝ)} (hne : P ≠ [])
    (hbelow : ∀ p ∈ P, ∀ k, p k < - ref k) (k : Fin (m + 1)) {i : ℕ} (hi : i ≤ P.length + 1) :
    min (- augBound ref P k i) ((- colMin P k : ℝ) : EReal) = ((- augIdeal ref P k i : ℝ) : EReal) ∧
      (ref k : EReal) ≤ - augBound ref P k i := by
  obtain ⟨b1, b2, b3⟩ := augBound_facts ref P k
  obtain ⟨a1, a2, a3⟩ := augIdeal_facts ref P k
  rcases Nat.eq_zero_or_pos i with rfl | h
  · rw [b1, a1, EReal.neg_bot, min_eq_right le_top]
    exact ⟨rfl, le_top⟩
  · rcases Nat.lt_or_ge i (P.length + 1) with h' | h'
    · obtain ⟨j, rfl⟩ : ∃ j, i = j + 1 := ⟨i - 1, by omega⟩
      have hj : j < P.length := by omega
      have hmem := List.getElem_mem hj
      rw [b2 j _ (List.getElem?_eq_getElem hj), a2 j _ (List.getElem?_eq_getElem hj), ← EReal.coe_neg]
      refine ⟨min_eq_left (EReal.coe_le_coe_iff.2 (neg_le_neg (colMin_le P k hmem))), ?_⟩
      rw [EReal.coe_le_coe_iff]
      have := hbelow _ hmem k
      linarith
    · have : i = P.length + 1 := by omega
      rw [this, b3, a3, ← EReal.coe_neg]
      obtain ⟨y, hy⟩ := List.exists_mem_of_ne_nil P hne
      have h1 := colMin_le P k hy
      have h2 := hbelow y hy k
      refine ⟨min_eq_left (EReal.coe_le_coe_iff.2 (by linarith)), ?_⟩
      rw [neg_neg]

theorem binHypervolume_eq {argsort : List ℝ → List ℕ} (hs : Sorts argsort)
    {argmax : (Fin (m + 1) → ℕ) → Fin (m + 1)} (hmax : PicksMax argmax) {alpha : ℝ} {ref : Fin (m + 1) → ℝ}
    {Y : List (Fin (m + 1) → ℝ)} {s : BinState m} (h : BinInv argsort argmax alpha ref Y s) :
    ((alpha ≤ 0 ∨ m + 1 = 2) → binHypervolume ref s = hypervolume ref Y) ∧
      hypervolume ref Y ≤ binHypervolume ref s := by
  have hdec := decides_negParetoOf hs true ref Y
  have hok := frontOk_of_perm hs true ref Y
  rw [← h.front] at hdec hok
  unfold binHypervolume
  split_ifs with h0
  · rw [List.length_eq_zero_iff.1 h0] at hdec
    exact ⟨fun _ => (hypervolume_empty hdec).symm, le_of_eq (hypervolume_empty hdec)⟩
  · have hne : s.negPareto ≠ [] := fun h' => h0 (by rw [h']; rfl)
    set P := s.negPareto with hP
    set ideal : Fin (m + 1) → ℝ := fun k => - colMin P k with hideal
    have hidx : ∀ c ∈ s.hypercells, IdxOk ref P c := by
      rw [h.cells]
      exact binSpace_idxOk hs hmax h.front hne
    have habove : CellsAbove ref (binBounds ref s) := by
      intro c hc k
      obtain ⟨i, hi, rfl⟩ := List.mem_map.1 hc
      have := hidx i hi k
      exact ⟨(aug_clip hne hok.below k this.2.1).2, (aug_clip hne hok.below k this.1).2⟩
    have hsum : (s.hypercells.map (fun c => ∏ k, (augIdeal ref P k (c.hi k) - augIdeal ref P k (c.lo k)))).sum =
        (((binBounds ref s).map (clipCell ideal)).map clampedVolume).sum := by
      unfold binBounds
      rw [List.map_map, List.map_map]
      congr 1
      apply List.map_congr_left
      intro c hc
      simp only [Function.comp, clampedVolume, clipCell]
      apply Finset.prod_congr rfl
      intro k _
      obtain ⟨i1, i2, i3⟩ := hidx c hc k
      rw [← hP, (aug_clip hne hok.below k i1).1, (aug_clip hne hok.below k i2).1, EReal.toReal_coe, EReal.toReal_coe]
      have hle : augIdeal ref P k (c.lo k) ≤ augIdeal ref P k (c.hi k) := by
        have e1 := (aug_clip hne hok.below k i1).1
        have e2 := (aug_clip hne hok.below k i2).1
        have : ((- augIdeal ref P k (c.hi k) : ℝ) : EReal) ≤ ((- augIdeal ref P k (c.lo k) : ℝ) : EReal) := by
          rw [← e1, ← e2]
          exact min_le_min_right _ (EReal.neg_le_neg_iff.2 i3)
        rw [EReal.coe_le_coe_iff] at this
        linarith
      rw [max_eq_left (by linarith)]
      ring
    have htot : ∏ k, (- ref k - colMin P k) = ∏ k, max (ideal k - ref k) 0 := by
      apply Finset.prod_congr rfl
      intro k _
      obtain ⟨y, hy⟩ := List.exists_mem_of_ne_nil P hne
      have h1 := colMin_le P k hy
      have h2 := hok.below y hy k
      simp only [hideal]
      rw [max_eq_left (by linarith)]
      ring
    have hcount := fun v => binInv_count hs hmax h v
    have hsplit := hypervolume_split (ref := ref) (ideal := ideal) (Y := Y) (by
      intro v hv hd k
      obtain ⟨p, hp, hpv⟩ := (hdec v hv).1 hd
      have h1 := colMin_le P k hp
      have h2 := hpv k
      simp only [hideal]
      linarith)
    simp only
    rw [htot, hsum, hsplit]
    constructor
    · intro ha
      rw [clipped_partition habove (fun v => ⟨fun hv => (hcount v).2.1 hv ha, (hcount v).2.2⟩)]
    · exact sub_le_sub_left (clipped_packing habove (fun v hv => (hcount v).1 hv)
        (fun v hv => (hcount v).2.2 hv)) _

/-! ### Dominated cells, two objectives -/

/-- The cells from the left bound `a` on. -/
def domFrom (r1 : ℝ) : ℝ → List (Fin (0 + 2) → ℝ) → List (Cell (0 + 2) ℝ)
  | _, [] => []
  | a, p :: P => ⟨fun k => if k = 0 then a else r1, fun k => if k = 0 then p 0 else p 1⟩ :: domFrom r1 (p 0) P

theorem domFrom_zip (r1 : ℝ) (P : List (Fin (0 + 2) → ℝ)) : ∀ a : ℝ,
    List.zipWith (fun a b => (⟨a, b⟩ : Cell (0 + 2) ℝ))
      ((a :: P.map (fun p => p 0)).dropLast.map (fun a => (fun k : Fin (0 + 2) => if k = 0 then a else r1)))
      (List.zipWith (fun a b => (fun k : Fin (0 + 2) => if k = 0 then a else b)) (P.map (fun p => p 0))
        (P.map (fun p => p 1))) = domFrom r1 a P := by
  induction P with
  | nil => intro a; rfl
  | cons p P ih =>
    intro a
    rw [domFrom, ← ih (p 0)]
    simp only [List.map_cons, List.zipWith_cons_cons, List.dropLast_cons_cons]

theorem dominatedCells2d_eq (ref : Fin (0 + 2) → ℝ) (P : List (Fin (0 + 2) → ℝ)) :
    dominatedCells2d (m := 0) ref P = domFrom (ref 1) (ref 0) P := by
  cases P with
  | nil => rfl
  | cons p P =>
    rw [← domFrom_zip]
    unfold dominatedCells2d
    simp only
    have e1 : (([ref 0] ++ (p :: P).map (fun p => p 0) ++ ((p :: P).map (fun p => p 1)).take 1).drop 1).dropLast =
        (p :: P).map (fun p => p 0) := by
      rw [List.append_assoc, List.singleton_append, List.drop_one, List.tail_cons, List.map_cons, List.map_cons,
        List.take_succ_cons, List.take_zero, List.dropLast_concat]
    have e2 : ((((p :: P).map (fun p => p 0)).take 1 ++ (p :: P).map (fun p => p 1) ++ [ref 1]).drop 1).dropLast =
        (p :: P).map (fun p => p 1) := by
      rw [List.map_cons, List.take_succ_cons, List.take_zero, List.append_assoc, List.singleton_append, List.drop_one,
        List.tail_cons, List.dropLast_concat]
    have e3 : ([ref 0] ++ (p :: P).map (fun p => p 0) ++ ((p :: P).map (fun p => p 1)).take 1).dropLast =
        ref 0 :: (p :: P).map (fun p => p 0) := by
      rw [List.map_cons (f := fun p : Fin (0 + 2) → ℝ => p 1), List.take_succ_cons, List.take_zero,
        List.dropLast_concat, List.singleton_append]
    rw [e1, e2, e3]

theorem inCell_dom {a b c d : ℝ} {v : Fin (0 + 2) → ℝ} :
    InCell (⟨fun k => if k = 0 then a else b, fun k => if k = 0 then c else d⟩ : Cell (0 + 2) ℝ) v ↔
      (a < v 0 ∧ b < v 1) ∧ v 0 ≤ c ∧ v 1 ≤ d := by
  unfold InCell StrictlyBelow WeaklyBelow
  rw [forall_fin2, forall_fin2]
  rfl

theorem domFrom_left (r1 : ℝ) (P : List (Fin (0 + 2) → ℝ)) : ∀ (a : ℝ) (v : Fin (0 + 2) → ℝ),
    (∀ p ∈ P, a ≤ p 0) → P.Pairwise (fun p q => p 0 ≤ q 0) → v 0 ≤ a → coverage (domFrom r1 a P) v = 0 := by
  induction P with
  | nil => intro a v _ _ _; rfl
  | cons p P ih =>
    intro a v ha hs hv
    rw [List.pairwise_cons] at hs
    rw [domFrom, (coverage_cons _ _ _).2]
    · exact ih (p 0) v hs.1 hs.2 (le_trans hv (ha p (by simp)))
    · rw [inCell_dom]
      exact fun h => absurd h.1.1 (not_lt.2 hv)

theorem domFrom_ok (r1 : ℝ) (P : List (Fin (0 + 2) → ℝ)) : ∀ (a : ℝ) (v : Fin (0 + 2) → ℝ),
    (∀ p ∈ P, a ≤ p 0) → P.Pairwise (fun p q => p 0 ≤ q 0 ∧ q 1 ≤ p 1) → a < v 0 → r1 < v 1 →
    ((∃ p ∈ P, ∀ k, v k ≤ p k) → coverage (domFrom r1 a P) v = 1) ∧
    ((¬ ∃ p ∈ P, ∀ k, v k ≤ p k) → coverage (domFrom r1 a P) v = 0) := by
  induction P with
  | nil =>
    intro a v _ _ _ _
    exact ⟨fun ⟨p, hp, _⟩ => by simp at hp, fun _ => rfl⟩
  | cons p P ih =>
    intro a v ha hs hv hr
    rw [List.pairwise_cons] at hs
    by_cases hx : v 0 ≤ p 0
    · have hrest := domFrom_left r1 P (p 0) v (fun q hq => (hs.1 q hq).1) (hs.2.imp (fun h => h.1)) hx
      have hex : (∃ q ∈ p :: P, ∀ k, v k ≤ q k) ↔ v 1 ≤ p 1 := by
        constructor
        · rintro ⟨q, hq, h⟩
          rcases List.mem_cons.1 hq with rfl | hq
          · exact h 1
          · exact le_trans (h 1) (hs.1 q hq).2
        · intro h
          exact ⟨p, by simp, forall_fin2.2 ⟨hx, h⟩⟩
      rw [hex]
      constructor
      · intro h
        rw [domFrom, (coverage_cons _ _ _).1 (inCell_dom.2 ⟨⟨hv, hr⟩, hx, h⟩), hrest]
      · intro h
        rw [domFrom, (coverage_cons _ _ _).2, hrest]
        rw [inCell_dom]
        exact fun h' => h h'.2.2
    · rw [not_le] at hx
      have hnot : ¬ InCell (⟨fun k => if k = 0 then a else r1, fun k => if k = 0 then p 0 else p 1⟩ :
          Cell (0 + 2) ℝ) v := by
        rw [inCell_dom]
        exact fun h => absurd h.2.1 (not_le.2 hx)
      rw [domFrom, (coverage_cons _ _ _).2 hnot]
      have hrec := ih (p 0) v (fun q hq => (hs.1 q hq).1) hs.2 hx hr
      have hiff : (∃ q ∈ p :: P, ∀ k, v k ≤ q k) ↔ ∃ q ∈ P, ∀ k, v k ≤ q k := by
        constructor
        · rintro ⟨q, hq, h⟩
          rcases List.mem_cons.1 hq with rfl | hq
          · exact absurd (h 0) (not_le.2 hx)
          · exact ⟨q, hq, h⟩
        · rintro ⟨q, hq, h⟩
          exact ⟨q, by simp [hq], h⟩
      rw [hiff]
      exact hrec

theorem domFrom_low (ref : Fin (0 + 2) → ℝ) (P : List (Fin (0 + 2) → ℝ)) : ∀ (a : ℝ), ref 0 ≤ a →
    (∀ p ∈ P, ref 0 ≤ p 0) → ∀ v : Fin (0 + 2) → ℝ, ¬ (∀ k, ref k < v k) → coverage (domFrom (ref 1) a P) v = 0 := by
  induction P with
  | nil => intro a _ _ v _; rfl
  | cons p P ih =>
    intro a ha hP v hv
    rw [domFrom, (coverage_cons _ _ _).2]
    · exact ih (p 0) (hP p (by simp)) (fun q hq => hP q (by simp [hq])) v hv
    · rw [inCell_dom]
      rintro ⟨⟨h1, h2⟩, -⟩
      exact hv (forall_fin2.2 ⟨lt_of_le_of_lt ha h1, h2⟩)

theorem domFrom_sides (r1 : ℝ) (P : List (Fin (0 + 2) → ℝ)) : ∀ a : ℝ, (∀ p ∈ P, a ≤ p 0 ∧ r1 ≤ p 1) →
    P.Pairwise (fun p q => p 0 ≤ q 0) → ∀ c ∈ domFrom r1 a P, ∀ k, c.lo k ≤ c.hi k := by
  induction P with
  | nil => intro a _ _ c hc; simp [domFrom] at hc
  | cons p P ih =>
    intro a ha hs c hc
    rw [List.pairwise_cons] at hs
    have hp := ha p (by simp)
    rw [domFrom] at hc
    rcases List.mem_cons.1 hc with rfl | hc
    · exact forall_fin2.2 ⟨hp.1, hp.2⟩
    · exact ih (p 0) (fun q hq => ⟨hs.1 q hq, (ha q (by simp [hq])).2⟩) hs.2 c hc

/-- A front of two objectives: sorted by the first objective, mutually non-dominated, at least as good as the
reference point. -/
theorem dominated_ok {ref : Fin (0 + 2) → ℝ} {P : List (Fin (0 + 2) → ℝ)}
    (hs : P.Pairwise (fun p q => p 0 ≤ q 0 ∧ q 1 ≤ p 1)) (href : ∀ p ∈ P, ∀ k, ref k ≤ p k) :
    (∀ v, (v ∈ openDominated ref P → coverage (dominatedCells2d (m := 0) ref P) v = 1) ∧
      (v ∉ openDominated ref P → coverage (dominatedCells2d (m := 0) ref P) v = 0)) ∧
    ((dominatedCells2d (m := 0) ref P).map (fun c => ∏ k, (c.hi k - c.lo k))).sum = hypervolume ref P := by
  classical
  rw [dominatedCells2d_eq]
  have hcov : ∀ v, (v ∈ openDominated ref P → coverage (domFrom (ref 1) (ref 0) P) v = 1) ∧
      (v ∉ openDominated ref P → coverage (domFrom (ref 1) (ref 0) P) v = 0) := by
    intro v
    by_cases hv : ∀ k, ref k < v k
    · obtain ⟨k1, k2⟩ := domFrom_ok (ref 1) P (ref 0) v (fun p hp => href p hp 0) hs (hv 0) (hv 1)
      exact ⟨fun h => k1 h.2, fun h => k2 (fun h' => h ⟨hv, h'⟩)⟩
    · exact ⟨fun h => absurd h.1 hv,
        fun _ => domFrom_low ref P (ref 0) (le_refl _) (fun p hp => href p hp 0) v hv⟩
  refine ⟨hcov, ?_⟩
  have hsides := domFrom_sides (ref 1) P (ref 0) (fun p hp => ⟨href p hp 0, href p hp 1⟩) (hs.imp (fun h => h.1))
  set cells := domFrom (ref 1) (ref 0) P with hcells
  have hcount : ∀ v, (cells.map (fun c => ioc c.lo c.hi)).countP (fun C => decide (v ∈ C)) = coverage cells v := by
    intro v
    unfold coverage
    rw [List.countP_map]
    apply List.countP_congr
    intro c _
    simp only [Function.comp, decide_eq_true_eq]
    unfold InCell StrictlyBelow WeaklyBelow
    rw [mem_ioc, forall_and]
  have hvol := partition_volume (Cs := cells.map (fun c => ioc c.lo c.hi)) (by
      intro C hC
      obtain ⟨c, -, rfl⟩ := List.mem_map.1 hC
      exact ioc_measurable _ _) (openDominated_measurable ref P)
    (fun v hv => by rw [hcount]; exact (hcov v).1 hv) (fun v hv => by rw [hcount]; exact (hcov v).2 hv)
  rw [hypervolume_eq_open, ← hvol, (toReal_sum _ (by
    intro x hx
    simp only [List.map_map, List.mem_map, Function.comp] at hx
    obtain ⟨c, -, rfl⟩ := hx
    exact ioc_ne_top _ _)).1]
  simp only [List.map_map]
  congr 1
  apply List.map_congr_left
  intro c hc
  simp only [Function.comp]
  rw [ioc_volume]
  apply Finset.prod_congr rfl
  intro k _
  have := hsides c hc k
  rw [max_eq_left (by linarith)]

end Verif.Proofs
