import Mathlib.MeasureTheory.Measure.Lebesgue.Basic
import Mathlib.MeasureTheory.Constructions.Pi
import Mathlib.Topology.Order.Compact

/-!
# Volumes of unions of boxes

`data x k` is coordinate `k` of node `x`, with the reference point at the origin and smaller values better.  `boxes i S`
is the region of the first `i` objectives covered by the nodes in `S`, `vol i S` its volume and `volBelow i S c` the volume
of the region of the first `i + 1` objectives where the last one is at most `c`.
-/
namespace Verif.Proofs
open MeasureTheory

variable (data : ℕ → ℕ → ℝ)

/-- The union of the boxes between the nodes of `S` and the origin, in the first `i` coordinates. -/
def boxes (i : ℕ) (S : List ℕ) : Set (Fin i → ℝ) :=
  {v | ∃ x ∈ S, ∀ k : Fin i, data x k ≤ v k ∧ v k ≤ 0}

/-- Its volume. -/
noncomputable def vol (i : ℕ) (S : List ℕ) : ℝ := (volume (boxes data i S)).toReal

/-- The volume of the part of `boxes (i + 1) S` where the last coordinate is at most `c`. -/
noncomputable def volBelow (i : ℕ) (S : List ℕ) (c : ℝ) : ℝ :=
  (volume (boxes data (i + 1) S ∩ {v | v (Fin.last i) ≤ c})).toReal

variable {data}

theorem boxes_nil (i : ℕ) : boxes data i [] = ∅ := by
  ext v; simp [boxes]

theorem boxes_cons (i x : ℕ) (S : List ℕ) :
    boxes data i (x :: S) = Set.Icc (fun k : Fin i => data x k) 0 ∪ boxes data i S := by
  ext v
  simp only [boxes, List.mem_cons, Set.mem_ofPred_eq, Set.mem_union, Set.mem_Icc, Pi.le_def]
  constructor
  · rintro ⟨y, rfl | hy, h⟩
    · exact Or.inl ⟨fun k => (h k).1, fun k => (h k).2⟩
    · exact Or.inr ⟨y, hy, h⟩
  · rintro (⟨h1, h2⟩ | ⟨y, hy, h⟩)
    · exact ⟨x, Or.inl rfl, fun k => ⟨h1 k, h2 k⟩⟩
    · exact ⟨y, Or.inr hy, h⟩

theorem boxes_congr {i : ℕ} {S T : List ℕ} (h : ∀ x, x ∈ S ↔ x ∈ T) : boxes data i S = boxes data i T := by
  ext v; simp [boxes, h]

theorem vol_congr {i : ℕ} {S T : List ℕ} (h : ∀ x, x ∈ S ↔ x ∈ T) : vol data i S = vol data i T := by
  rw [vol, vol, boxes_congr h]

theorem volBelow_congr {i : ℕ} {S T : List ℕ} (h : ∀ x, x ∈ S ↔ x ∈ T) (c : ℝ) :
    volBelow data i S c = volBelow data i T c := by
  rw [volBelow, volBelow, boxes_congr h]

theorem boxes_mono {i : ℕ} {S T : List ℕ} (h : ∀ x ∈ S, x ∈ T) : boxes data i S ⊆ boxes data i T := by
  rintro v ⟨x, hx, hv⟩; exact ⟨x, h x hx, hv⟩

theorem boxes_isCompact (i : ℕ) (S : List ℕ) : IsCompact (boxes data i S) := by
  induction S with
  | nil => rw [boxes_nil]; exact isCompact_empty
  | cons x S ih => rw [boxes_cons]; exact isCompact_Icc.union ih

theorem boxes_measurable (i : ℕ) (S : List ℕ) : MeasurableSet (boxes data i S) :=
  (boxes_isCompact i S).isClosed.measurableSet

theorem boxes_ne_top (i : ℕ) (S : List ℕ) : volume (boxes data i S) ≠ ⊤ :=
  (boxes_isCompact i S).measure_lt_top.ne

theorem boxes_inter_ne_top (i : ℕ) (S : List ℕ) (B : Set (Fin i → ℝ)) : volume (boxes data i S ∩ B) ≠ ⊤ :=
  ne_top_of_le_ne_top (boxes_ne_top i S) (measure_mono Set.inter_subset_left)

theorem vol_nil (i : ℕ) : vol data i [] = 0 := by simp [vol, boxes_nil]

theorem vol_nonneg (i : ℕ) (S : List ℕ) : 0 ≤ vol data i S := ENNReal.toReal_nonneg

theorem vol_mono {i : ℕ} {S T : List ℕ} (h : ∀ x ∈ S, x ∈ T) : vol data i S ≤ vol data i T :=
  ENNReal.toReal_mono (boxes_ne_top i T) (measure_mono (boxes_mono h))

/-- In no coordinates a non-empty set of nodes covers the single point. -/
theorem vol_zero {S : List ℕ} (h : S ≠ []) : vol data 0 S = 1 := by
  obtain ⟨x, hx⟩ := List.exists_mem_of_ne_nil S h
  have : boxes data 0 S = Set.univ := by
    ext v; simp only [Set.mem_univ, iff_true]; exact ⟨x, hx, fun k => k.elim0⟩
  rw [vol, this, volume_pi, Measure.pi_univ]
  simp

private theorem measurable_le (i : ℕ) (c : ℝ) : MeasurableSet {v : Fin (i + 1) → ℝ | v (Fin.last i) ≤ c} :=
  measurableSet_le (measurable_pi_apply _) measurable_const

private theorem measurable_slab (i : ℕ) (c c' : ℝ) :
    MeasurableSet {v : Fin (i + 1) → ℝ | c < v (Fin.last i) ∧ v (Fin.last i) ≤ c'} := by
  have h1 : MeasurableSet {v : Fin (i + 1) → ℝ | c < v (Fin.last i)} :=
    measurableSet_lt measurable_const (measurable_pi_apply _)
  exact h1.inter (measurable_le i c')

/-- A slab of the region between two values of the last coordinate. -/
private theorem slab {i : ℕ} {S : List ℕ} {c c' : ℝ} (hS : ∀ x ∈ S, data x i ≤ c) (hc : c ≤ c') (h0 : c' ≤ 0) :
    (volume (boxes data (i + 1) S ∩ {v | c < v (Fin.last i) ∧ v (Fin.last i) ≤ c'})).toReal
      = vol data i S * (c' - c) := by
  have e : boxes data (i + 1) S ∩ {v | c < v (Fin.last i) ∧ v (Fin.last i) ≤ c'}
      = (MeasurableEquiv.piFinSuccAbove (fun _ => ℝ) (Fin.last i)) ⁻¹' (Set.Ioc c c' ×ˢ boxes data i S) := by
    ext v
    simp only [Set.mem_inter_iff, Set.mem_ofPred_eq, Set.mem_preimage, Set.mem_prod, Set.mem_Ioc,
      MeasurableEquiv.piFinSuccAbove_apply, Fin.insertNthEquiv_symm_apply]
    constructor
    · rintro ⟨⟨x, hx, hv⟩, h1, h2⟩
      refine ⟨⟨h1, h2⟩, x, hx, fun k => ?_⟩
      have := hv k.castSucc
      simpa [Fin.removeNth] using this
    · rintro ⟨⟨h1, h2⟩, x, hx, hv⟩
      refine ⟨⟨x, hx, fun k => ?_⟩, h1, h2⟩
      refine Fin.lastCases ?_ (fun k => ?_) k
      · exact ⟨by simpa using (hS x hx).trans h1.le, h2.trans h0⟩
      · have := hv k
        simpa [Fin.removeNth] using this
  rw [e, (volume_preserving_piFinSuccAbove (fun _ => ℝ) (Fin.last i)).measure_preimage_equiv,
    Measure.volume_eq_prod, Measure.prod_prod, ENNReal.toReal_mul, Real.volume_Ioc,
    ENNReal.toReal_ofReal (by linarith), vol, mul_comm]

/-- Raising the bound of the last coordinate adds a slab. -/
theorem volBelow_add {i : ℕ} {S : List ℕ} {c c' : ℝ} (hS : ∀ x ∈ S, data x i ≤ c) (hc : c ≤ c') (h0 : c' ≤ 0) :
    volBelow data i S c' = volBelow data i S c + vol data i S * (c' - c) := by
  rw [← slab hS hc h0, volBelow, volBelow, ← ENNReal.toReal_add (boxes_inter_ne_top _ _ _) (boxes_inter_ne_top _ _ _),
    ← measure_union _ ((boxes_measurable _ _).inter (measurable_slab i c c'))]
  · congr 2
    ext v
    simp only [Set.mem_inter_iff, Set.mem_ofPred_eq, Set.mem_union]
    constructor
    · rintro ⟨h1, h2⟩
      rcases le_or_gt (v (Fin.last i)) c with h | h
      · exact Or.inl ⟨h1, h⟩
      · exact Or.inr ⟨h1, h, h2⟩
    · rintro (⟨h1, h2⟩ | ⟨h1, _, h3⟩)
      · exact ⟨h1, h2.trans hc⟩
      · exact ⟨h1, h3⟩
  · rw [Set.disjoint_left]
    rintro v ⟨_, h1⟩ ⟨_, h2, _⟩
    exact absurd h1 (not_le.mpr h2)

/-- A node does not count below its own last coordinate. -/
theorem volBelow_cons {i p : ℕ} {S : List ℕ} {c : ℝ} (hp : c ≤ data p i) :
    volBelow data i (p :: S) c = volBelow data i S c := by
  rw [volBelow, volBelow]
  congr 1
  apply le_antisymm
  · have hsub : boxes data (i + 1) (p :: S) ∩ {v | v (Fin.last i) ≤ c}
        ⊆ (boxes data (i + 1) S ∩ {v | v (Fin.last i) ≤ c}) ∪ {v | v (Fin.last i) = c} := by
      rintro v ⟨⟨x, hx, hv⟩, hc⟩
      rcases List.mem_cons.mp hx with rfl | hx
      · right
        exact le_antisymm hc (hp.trans (by simpa using (hv (Fin.last i)).1))
      · exact Or.inl ⟨⟨x, hx, hv⟩, hc⟩
    refine (measure_mono hsub).trans ((measure_union_le _ _).trans ?_)
    have : volume {v : Fin (i + 1) → ℝ | v (Fin.last i) = c} = 0 := Measure.pi_hyperplane _ _ _
    rw [this, add_zero]
  · exact measure_mono (Set.inter_subset_inter_left _ (boxes_mono (fun x hx => List.mem_cons_of_mem _ hx)))

theorem volBelow_nil (i : ℕ) (c : ℝ) : volBelow data i [] c = 0 := by simp [volBelow, boxes_nil]

theorem volBelow_zero (i : ℕ) (S : List ℕ) : volBelow data i S 0 = vol data (i + 1) S := by
  rw [volBelow, vol]
  congr 2
  ext v
  simp only [Set.mem_inter_iff, Set.mem_ofPred_eq, and_iff_left_iff_imp]
  rintro ⟨x, _, hv⟩
  exact (hv _).2

/-- A node dominated by another one adds nothing. -/
theorem boxes_cons_of_dominated {i q y : ℕ} {S : List ℕ} (hy : y ∈ S) (h : ∀ k < i, data y k ≤ data q k) :
    boxes data i (q :: S) = boxes data i S := by
  apply Set.Subset.antisymm
  · rintro v ⟨x, hx, hv⟩
    rcases List.mem_cons.mp hx with rfl | hx
    · exact ⟨y, hy, fun k => ⟨(h k k.2).trans (hv k).1, (hv k).2⟩⟩
    · exact ⟨x, hx, hv⟩
  · exact boxes_mono (fun x hx => List.mem_cons_of_mem _ hx)

/-- A node strictly better than the reference point that adds no volume is dominated by another one. -/
theorem dominated_of_vol_le {i q : ℕ} {S : List ℕ} (hneg : ∀ k < i, data q k < 0)
    (h : vol data i (q :: S) ≤ vol data i S) : ∃ y ∈ S, ∀ k < i, data y k ≤ data q k := by
  by_contra hno
  push Not at hno
  set c : Fin i → ℝ := fun k => data q k with hc
  have hcS : c ∉ boxes data i S := by
    rintro ⟨y, hy, hv⟩
    obtain ⟨k, hk, hlt⟩ := hno y hy
    exact absurd (hv ⟨k, hk⟩).1 (not_le.mpr hlt)
  obtain ⟨ε, hε, hball⟩ := Metric.isOpen_iff.mp (boxes_isCompact (data := data) i S).isClosed.isOpen_compl c hcS
  -- a small box at the corner, inside the box of `q` and outside the others
  set d : Fin i → ℝ := fun k => min 0 (data q k + ε / 2) with hd
  have hpos : ∀ k, c k < d k := fun k => lt_min (hneg k k.2) (by linarith)
  have hsub : Set.Icc c d ⊆ boxes data i (q :: S) := by
    intro v hv
    refine ⟨q, List.mem_cons_self, fun k => ⟨hv.1 k, (hv.2 k).trans (min_le_left _ _)⟩⟩
  have hdisj : Disjoint (Set.Icc c d) (boxes data i S) := by
    rw [Set.disjoint_left]
    intro v hv hvS
    refine hball ?_ hvS
    rw [Metric.mem_ball]
    refine lt_of_le_of_lt ((dist_pi_le_iff (by linarith : (0 : ℝ) ≤ ε / 2)).mpr (fun k => ?_)) (by linarith : ε / 2 < ε)
    rw [Real.dist_eq, abs_le]
    have h1 := hv.1 k
    have h2 := (hv.2 k).trans (min_le_right _ _)
    simp only [hc] at h1 ⊢
    constructor <;> linarith
  have hvolpos : 0 < (volume (Set.Icc c d)).toReal := by
    rw [Real.volume_Icc_pi_toReal (fun k => (hpos k).le)]
    exact Finset.prod_pos (fun k _ => sub_pos.mpr (hpos k))
  have hle : (volume (Set.Icc c d)).toReal + vol data i S ≤ vol data i (q :: S) := by
    have hne : volume (Set.Icc c d) ≠ ⊤ := isCompact_Icc.measure_lt_top.ne
    rw [vol, ← ENNReal.toReal_add hne (boxes_ne_top i S), ← measure_union hdisj (boxes_measurable i S)]
    refine ENNReal.toReal_mono (boxes_ne_top i _) (measure_mono (Set.union_subset hsub ?_))
    exact boxes_mono (fun x hx => List.mem_cons_of_mem _ hx)
  linarith

end Verif.Proofs
