import Verif.Proofs.BoxVolume
import Mathlib.Data.Fin.VecNotation
import Mathlib.Data.List.Sort
import Mathlib.Tactic.NormNum

/-!
# Box decompositions (C05, C06, C07, C70, C71, C72)
-/
namespace Verif.Props

open Verif.Model Verif.Spec Verif.Proofs

/-! ### C05 -/

/-- **C05.**  Two maximised objectives: after any calls, every vector above the reference point that no outcome equals or
dominates lies in exactly one reported cell, and every other vector in none. -/
theorem c05_fast_cells_partition_2d {argsort : List ℝ → List ℕ} (hs : Sorts argsort) (ref : Fin 2 → ℝ)
    (Y : List (Fin 2 → ℝ)) (Ys : List (List (Fin 2 → ℝ))) :
    ∃ s : FastState 0, fastHistory argsort ref (Y :: Ys) = some s ∧
      PartitionsReal s.cells (improvementRegion ref (Y ++ Ys.flatten)) := by
  have h := fastHistory_inv (m := 0) hs ref (Y :: Ys)
  rcases hh : fastHistory (m := 0) argsort ref (Y :: Ys) with _ | s
  · rw [hh] at h; cases h
  · rw [hh] at h
    exact ⟨s, rfl, h.cells⟩

/-- A sorting function exists. -/
theorem sorts_exists : ∃ argsort : List ℝ → List ℕ, Sorts argsort := by
  classical
  refine ⟨fun l => (List.range l.length).insertionSort (fun i j => l.getD i 0 ≤ l.getD j 0), fun l => ⟨?_, ?_⟩⟩
  · exact List.perm_insertionSort _ _
  · have : Std.Total (fun i j : ℕ => l.getD i 0 ≤ l.getD j 0) := ⟨fun i j => le_total _ _⟩
    have : IsTrans ℕ (fun i j : ℕ => l.getD i 0 ≤ l.getD j 0) := ⟨fun i j k => le_trans⟩
    refine (List.pairwise_insertionSort (fun i j : ℕ => l.getD i 0 ≤ l.getD j 0) (List.range l.length)).imp ?_
    intro i j h a b ha hb
    rw [List.getD_eq_getElem?_getD, List.getD_eq_getElem?_getD, ha, hb] at h
    exact h

/-- A position of the maximum exists. -/
theorem picksMax_exists (m : ℕ) : ∃ argmax : (Fin (m + 1) → ℕ) → Fin (m + 1), PicksMax argmax := by
  classical
  have h : ∀ f : Fin (m + 1) → ℕ, ∃ j, ∀ k, f k ≤ f j := fun f => Finite.exists_max f
  choose g hg using h
  exact ⟨g, hg⟩

/-- Non-vacuity: with the outcomes (1,2) and (2,1) and the reference point (0,0), the region contains (1,2.5) and
(1.5,1.5), and not (1,2), (0.5,0.5) or (3,0). -/
example : (![1, 5/2] : Fin 2 → ℝ) ∈ improvementRegion ![0, 0] [![1, 2], ![2, 1]] ∧
    (![3/2, 3/2] : Fin 2 → ℝ) ∈ improvementRegion ![0, 0] [![1, 2], ![2, 1]] ∧
    (![1, 2] : Fin 2 → ℝ) ∉ improvementRegion ![0, 0] [![1, 2], ![2, 1]] ∧
    (![1/2, 1/2] : Fin 2 → ℝ) ∉ improvementRegion ![0, 0] [![1, 2], ![2, 1]] ∧
    (![3, 0] : Fin 2 → ℝ) ∉ improvementRegion ![0, 0] [![1, 2], ![2, 1]] := by
  simp [improvementRegion, Fin.forall_fin_two]
  norm_num

/-! ### C06 -/

/-- **C06.**  Two maximised objectives: for a front that is sorted by the first objective, whose rows do not dominate one
another and are at least as good as the reference point, the cells cover each vector above the reference point that a
row equals or dominates exactly once, cover no other vector, and their areas add up to the hypervolume. -/
theorem c06_dominated_cells_partition_2d (ref : Fin 2 → ℝ) (front : List (Fin 2 → ℝ))
    (hsorted : front.Pairwise (fun p q => p 0 ≤ q 0)) (hnd : ∀ p ∈ front, ∀ q ∈ front, ¬ DominatesMax q p)
    (href : ∀ p ∈ front, ∀ k, ref k ≤ p k) :
    (∀ v : Fin 2 → ℝ,
      (((∀ k, ref k < v k) ∧ ∃ p ∈ front, ∀ k, v k ≤ p k) → coverage (dominatedCells2d (m := 0) ref front) v = 1) ∧
      (¬ ((∀ k, ref k < v k) ∧ ∃ p ∈ front, ∀ k, v k ≤ p k) →
        coverage (dominatedCells2d (m := 0) ref front) v = 0)) ∧
    ((dominatedCells2d (m := 0) ref front).map (fun c => (c.hi 0 - c.lo 0) * (c.hi 1 - c.lo 1))).sum =
      hypervolume ref front := by
  have hs : front.Pairwise (fun p q => p 0 ≤ q 0 ∧ q 1 ≤ p 1) := by
    refine List.Pairwise.imp_of_mem ?_ hsorted
    intro p q hp hq h
    refine ⟨h, ?_⟩
    by_contra hcon
    rw [not_le] at hcon
    exact hnd p hp q hq ⟨Fin.forall_fin_two.2 ⟨h, hcon.le⟩, 1, hcon⟩
  obtain ⟨h1, h2⟩ := dominated_ok hs href
  refine ⟨h1, ?_⟩
  rw [← h2]
  congr 1
  apply List.map_congr_left
  intro c _
  exact (Fin.prod_univ_two (fun k : Fin 2 => c.hi k - c.lo k)).symm

/-- Non-vacuity. -/
example : ((dominatedCells2d (m := 0) ![0, 0] [![1, 2], ![2, 1]]).map
    (fun c => (c.hi 0 - c.lo 0) * (c.hi 1 - c.lo 1))).sum = 3 ∧
    ([![1, 2], ![2, 1]] : List (Fin 2 → ℝ)).Pairwise (fun p q => p 0 ≤ q 0) ∧
    (∀ p ∈ ([![1, 2], ![2, 1]] : List (Fin 2 → ℝ)), ∀ q ∈ ([![1, 2], ![2, 1]] : List (Fin 2 → ℝ)),
      ¬ DominatesMax q p) ∧
    ∀ p ∈ ([![1, 2], ![2, 1]] : List (Fin 2 → ℝ)), ∀ k, (![0, 0] : Fin 2 → ℝ) k ≤ p k := by
  refine ⟨?_, ?_, ?_, ?_⟩
  · simp [dominatedCells2d]; norm_num
  · simp
  · simp [DominatesMax, Fin.forall_fin_two, Fin.exists_fin_two]
  · simp [Fin.forall_fin_two]

/-! ### C07 -/

/-- **C07.**  Any number of objectives (at least two), minimised: after processing any sequence of vectors `zs`, a vector
below the reference point `-ref` is strictly below some local upper bound exactly when no processed vector weakly
dominates it. -/
theorem c07_local_upper_bounds {m : ℕ} (ref : Fin (m + 2) → ℝ) (zs : List (Fin (m + 2) → ℝ)) (v : Fin (m + 2) → ℝ)
    (hv : ∀ k, v k < - ref k) :
    (∃ e ∈ lubRun (zs.map toExt) [fastInit ref], StrictlyBelow (fun k => (v k : EReal)) e.u) ↔
      ¬ ∃ z ∈ zs, WeaklyBelow z v := by
  have h := lub_below (lo := fun _ : Fin (m + 2) => (⊥ : EReal)) (hi := toExt (fun k => - ref k))
    (fun k => EReal.bot_lt_coe _) (zs.map toExt) (fun z _ k => bot_le) (v := toExt v) (fun k => bot_le)
  refine h.trans ⟨?_, ?_⟩
  · rintro ⟨-, h2⟩ ⟨z, hz, hzv⟩
    exact h2 _ (List.mem_map.2 ⟨z, hz, rfl⟩) (fun k => EReal.coe_le_coe_iff.2 (hzv k))
  · intro hn
    refine ⟨fun k => EReal.coe_lt_coe_iff.2 (hv k), ?_⟩
    intro z hz hzv
    obtain ⟨p, hp, rfl⟩ := List.mem_map.1 hz
    exact hn ⟨p, hp, fun k => EReal.coe_le_coe_iff.1 (hzv k)⟩

/-- **C07.**  The same for the incremental use: processing a first sequence and later a second one gives the bounds of
the whole sequence. -/
theorem c07_incremental {m : ℕ} (ref : Fin (m + 2) → ℝ) (zs zs' : List (Fin (m + 2) → ℝ)) (v : Fin (m + 2) → ℝ)
    (hv : ∀ k, v k < - ref k) :
    (∃ e ∈ lubRun (zs'.map toExt) (lubRun (zs.map toExt) [fastInit ref]),
        StrictlyBelow (fun k => (v k : EReal)) e.u) ↔ ¬ ∃ z ∈ zs ++ zs', WeaklyBelow z v := by
  rw [← c07_local_upper_bounds ref (zs ++ zs') v hv]
  simp only [lubRun, List.map_append, List.foldl_append]

/-- **C07.**  The bounds stored by the class with three or more objectives after any calls, for a front that is not
empty: a vector (as given by the user, maximised) better than the reference point is beyond some bound exactly when
no outcome seen so far equals or dominates it. -/
theorem c07_class_bounds {m : ℕ} {argsort : List ℝ → List ℕ} (hs : Sorts argsort) (ref : Fin (m + 3) → ℝ)
    (Ys : List (List (Fin (m + 3) → ℝ))) (s : FastState (m + 1)) (hrun : fastHistory argsort ref Ys = some s)
    (hne : ∃ y ∈ Ys.flatten, ∀ k, ref k < y k) (v : Fin (m + 3) → ℝ) (hv : ∀ k, ref k < v k) :
    (∃ e ∈ s.lub, StrictlyBelow (fun k => ((- v k : ℝ) : EReal)) e.u) ↔ ¬ ∃ y ∈ Ys.flatten, WeaklyBelow v y := by
  have h := fastHistory_inv hs ref Ys
  rw [hrun] at h
  have hfront : s.negPareto ≠ [] := by
    intro h0
    obtain ⟨y, hy, hab⟩ := hne
    obtain ⟨p, hp, -⟩ := (h.dec y hab).1 ⟨y, hy, fun k => le_refl _⟩
    rw [h0] at hp
    simp at hp
  obtain ⟨zs, h1, h2⟩ := h.lub (by omega) hfront
  rw [h1, c07_local_upper_bounds ref zs (fun k => - v k) (fun k => neg_lt_neg (hv k))]
  exact not_congr (h2 v hv).symm

/-- Non-vacuity: with no vector processed, the only bound is the reference point; with one vector processed, vectors
on both sides of the test exist. -/
example : (∃ e ∈ lubRun ([].map toExt) [fastInit (m := 1) ![0, 0, 0]],
      StrictlyBelow (fun k => (((![-1, -1, -1] : Fin 3 → ℝ) k : ℝ) : EReal)) e.u) ∧
    ¬ ∃ e ∈ lubRun ([![-2, -2, -2]].map toExt) [fastInit (m := 1) ![0, 0, 0]],
      StrictlyBelow (fun k => (((![-1, -1, -1] : Fin 3 → ℝ) k : ℝ) : EReal)) e.u := by
  have hb : ∀ k : Fin 3, (![-1, -1, -1] : Fin 3 → ℝ) k < - (![0, 0, 0] : Fin 3 → ℝ) k := by
    intro k; fin_cases k <;> norm_num
  constructor
  · exact (c07_local_upper_bounds (m := 1) _ _ _ hb).2 (by simp)
  · intro h
    refine (c07_local_upper_bounds (m := 1) _ _ _ hb).1 h ⟨_, List.mem_singleton.2 rfl, ?_⟩
    intro k; fin_cases k <;> norm_num

/-! ### C70 -/

/-- **C70.**  Any number of objectives and any sequence of calls: the cells partition the improvement region of all
outcomes seen so far. -/
theorem c70_fast_cells_partition {m : ℕ} {argsort : List ℝ → List ℕ} (hs : Sorts argsort) (ref : Fin (m + 2) → ℝ)
    (Y : List (Fin (m + 2) → ℝ)) (Ys : List (List (Fin (m + 2) → ℝ))) :
    ∃ s, fastHistory argsort ref (Y :: Ys) = some s ∧
      PartitionsReal s.cells (improvementRegion ref (Y ++ Ys.flatten)) := by
  have h := fastHistory_inv hs ref (Y :: Ys)
  rcases hh : fastHistory argsort ref (Y :: Ys) with _ | s
  · rw [hh] at h; cases h
  · rw [hh] at h
    exact ⟨s, rfl, h.cells⟩

/-- **C70.**  `pareto_Y` (the negation of the stored rows) holds the non-dominated outcomes better than the reference
point, each once. -/
theorem c70_fast_front {m : ℕ} {argsort : List ℝ → List ℕ} (hs : Sorts argsort) (ref : Fin (m + 2) → ℝ)
    (Y : List (Fin (m + 2) → ℝ)) (Ys : List (List (Fin (m + 2) → ℝ))) :
    ∃ s, fastHistory argsort ref (Y :: Ys) = some s ∧ (negRows s.negPareto).Nodup ∧
      ∀ y, y ∈ negRows s.negPareto ↔ y ∈ Y ++ Ys.flatten ∧ (∀ q ∈ Y ++ Ys.flatten, ¬ DominatesMax q y) ∧
        ∀ k, ref k < y k := by
  have h := fastHistory_inv hs ref (Y :: Ys)
  rcases hh : fastHistory argsort ref (Y :: Ys) with _ | s
  · rw [hh] at h; cases h
  · rw [hh] at h
    refine ⟨s, rfl, ?_, front_mem h.dec h.front h.rows⟩
    unfold negRows List.Nodup
    rw [List.pairwise_map]
    refine h.front.apart.imp ?_
    rintro p q ⟨⟨k, hk⟩, -⟩ heq
    have := congrFun heq k
    linarith

/-- Non-vacuity: three objectives, two updates; the vector (1,1,2) is not in the region after the second one. -/
example : (![1, 1, 2] : Fin 3 → ℝ) ∈ improvementRegion ![0, 0, 0] ([![2, 1, 1]] ++ [].flatten) ∧
    (![1, 1, 2] : Fin 3 → ℝ) ∉ improvementRegion ![0, 0, 0] ([![2, 1, 1]] ++ [[![1, 2, 3]]].flatten) := by
  constructor
  · refine ⟨fun k => by fin_cases k <;> norm_num, ?_⟩
    intro y hy h
    simp only [List.flatten_nil, List.append_nil, List.mem_singleton] at hy
    subst hy
    have h2 : (2 : ℝ) ≤ 1 := h 2
    norm_num at h2
  · rintro ⟨-, h⟩
    refine h ![1, 2, 3] (by simp) ?_
    intro k; fin_cases k <;> norm_num

/-! ### C71 -/

/-- **C71.**  With `alpha ≤ 0`, the cells of NondominatedPartitioning partition the improvement region of all outcomes
seen so far, for any number of objectives and any sequence of calls. -/
theorem c71_cells_partition {m : ℕ} {argsort : List ℝ → List ℕ} (hs : Sorts argsort)
    {argmax : (Fin (m + 1) → ℕ) → Fin (m + 1)} (hmax : PicksMax argmax) {alpha : ℝ} (ha : alpha ≤ 0)
    (ref : Fin (m + 1) → ℝ) (Y : List (Fin (m + 1) → ℝ)) (Ys : List (List (Fin (m + 1) → ℝ))) :
    ∃ s, binHistory argsort argmax alpha ref (Y :: Ys) = some s ∧
      PartitionsReal (binBounds ref s) (improvementRegion ref (Y ++ Ys.flatten)) := by
  have h := binHistory_inv argsort argmax alpha ref (Y :: Ys)
  rcases hh : binHistory argsort argmax alpha ref (Y :: Ys) with _ | s
  · rw [hh] at h; cases h
  · rw [hh] at h
    refine ⟨s, rfl, fun v => ?_⟩
    have := binInv_count hs hmax h v
    exact ⟨fun hv => this.2.1 hv (Or.inl ha), this.2.2⟩

/-- **C71.**  For any `alpha`, the cells are disjoint and inside the region. -/
theorem c71_cells_disjoint {m : ℕ} {argsort : List ℝ → List ℕ} (hs : Sorts argsort)
    {argmax : (Fin (m + 1) → ℕ) → Fin (m + 1)} (hmax : PicksMax argmax) (alpha : ℝ)
    (ref : Fin (m + 1) → ℝ) (Y : List (Fin (m + 1) → ℝ)) (Ys : List (List (Fin (m + 1) → ℝ))) :
    ∃ s, binHistory argsort argmax alpha ref (Y :: Ys) = some s ∧
      ∀ v : Fin (m + 1) → ℝ,
        (v ∈ improvementRegion ref (Y ++ Ys.flatten) → coverage (binBounds ref s) (fun k => (v k : EReal)) ≤ 1) ∧
        (v ∉ improvementRegion ref (Y ++ Ys.flatten) → coverage (binBounds ref s) (fun k => (v k : EReal)) = 0) := by
  have h := binHistory_inv argsort argmax alpha ref (Y :: Ys)
  rcases hh : binHistory argsort argmax alpha ref (Y :: Ys) with _ | s
  · rw [hh] at h; cases h
  · rw [hh] at h
    refine ⟨s, rfl, fun v => ?_⟩
    have := binInv_count hs hmax h v
    exact ⟨this.1, this.2.2⟩

/-- **C71.**  The loop terminates: on any non-empty front below the negated reference point it empties its stack within
twice the number of grid cells. -/
theorem c71_terminates {m : ℕ} {argsort : List ℝ → List ℕ} (hs : Sorts argsort)
    {argmax : (Fin (m + 1) → ℕ) → Fin (m + 1)} (hmax : PicksMax argmax) (alpha : ℝ) (ref : Fin (m + 1) → ℝ)
    (P : List (Fin (m + 1) → ℝ)) (hne : P ≠ []) (hbelow : ∀ p ∈ P, ∀ k, p k < - ref k) :
    (binLoop argsort argmax alpha P (2 * (P.length + 1) ^ (m + 1)) [wholeCell P.length] []).1 = [] := by
  refine (loop_facts (ref := ref) (alpha := alpha) hmax hne (fun k => (grid_ok hs hne hbelow k).1) _ _ _ ?_ ?_).1
  · intro c hc
    rw [List.mem_singleton] at hc
    rw [hc]; exact wholeCell_ok _
  · have hp := unitCells_pos (wholeCell_ok (m := m) P.length)
    rw [List.map_singleton, List.sum_singleton, wholeCell_units]
    rw [wholeCell_units] at hp
    omega

/-- Non-vacuity of the hypotheses: sorting and maximising functions exist, `alpha = 0` is the default, and a front
below the reference point exists. -/
example : (∃ argsort, Sorts argsort) ∧ (∃ argmax : (Fin 3 → ℕ) → Fin 3, PicksMax argmax) ∧ (0 : ℝ) ≤ 0 ∧
    ([![-2, -1, -1]] : List (Fin 3 → ℝ)) ≠ [] ∧
    ∀ p ∈ ([![-2, -1, -1]] : List (Fin 3 → ℝ)), ∀ k, p k < - (![0, 0, 0] : Fin 3 → ℝ) k := by
  refine ⟨sorts_exists, picksMax_exists 2, le_refl _, by simp, ?_⟩
  intro p hp k
  rw [List.mem_singleton] at hp
  subst hp
  fin_cases k <;> norm_num

/-! ### C72 -/

/-- **C72.**  FastNondominatedPartitioning: `compute_hypervolume` is the hypervolume of all outcomes seen so far. -/
theorem c72_fast_hypervolume {m : ℕ} {argsort : List ℝ → List ℕ} (hs : Sorts argsort) (ref : Fin (m + 2) → ℝ)
    (Y : List (Fin (m + 2) → ℝ)) (Ys : List (List (Fin (m + 2) → ℝ))) :
    ∃ s, fastHistory argsort ref (Y :: Ys) = some s ∧
      fastHypervolume ref s = hypervolume ref (Y ++ Ys.flatten) ∧
      ∀ c ∈ s.cells, ∀ k, (ref k : EReal) ≤ c.lo k ∧ (ref k : EReal) ≤ c.hi k := by
  have h := fastHistory_inv hs ref (Y :: Ys)
  rcases hh : fastHistory argsort ref (Y :: Ys) with _ | s
  · rw [hh] at h; cases h
  · rw [hh] at h
    exact ⟨s, rfl, fastHypervolume_eq h, h.above⟩

/-- **C72.**  NondominatedPartitioning: the same with `alpha ≤ 0`, and never less than the hypervolume otherwise. -/
theorem c72_bin_hypervolume {m : ℕ} {argsort : List ℝ → List ℕ} (hs : Sorts argsort)
    {argmax : (Fin (m + 1) → ℕ) → Fin (m + 1)} (hmax : PicksMax argmax) (alpha : ℝ)
    (ref : Fin (m + 1) → ℝ) (Y : List (Fin (m + 1) → ℝ)) (Ys : List (List (Fin (m + 1) → ℝ))) :
    ∃ s, binHistory argsort argmax alpha ref (Y :: Ys) = some s ∧
      (alpha ≤ 0 → binHypervolume ref s = hypervolume ref (Y ++ Ys.flatten)) ∧
      hypervolume ref (Y ++ Ys.flatten) ≤ binHypervolume ref s := by
  have h := binHistory_inv argsort argmax alpha ref (Y :: Ys)
  rcases hh : binHistory argsort argmax alpha ref (Y :: Ys) with _ | s
  · rw [hh] at h; cases h
  · rw [hh] at h
    obtain ⟨h1, h2⟩ := binHypervolume_eq hs hmax h
    exact ⟨s, rfl, fun ha => h1 (Or.inl ha), h2⟩

/-- Non-vacuity: a hypervolume that is not zero (by C06). -/
example : hypervolume (![0, 0] : Fin 2 → ℝ) [![1, 2], ![2, 1]] = 3 := by
  have h := (c06_dominated_cells_partition_2d ![0, 0] [![1, 2], ![2, 1]] (by simp)
    (by simp [DominatesMax, Fin.forall_fin_two, Fin.exists_fin_two]) (by simp [Fin.forall_fin_two])).2
  rw [← h]
  simp [dominatedCells2d]
  norm_num

end Verif.Props
