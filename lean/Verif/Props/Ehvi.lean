import Verif.Proofs.Ehvi
import Verif.Props.BoxDecomposition

/-!
# C49, C80, C81: the analytic expected hypervolume improvement
-/
namespace Verif.Props

open MeasureTheory Verif.Model Verif.Spec Verif.Proofs

variable {m : ℕ}

/-! ### C49 -/

/-- **C49.**  At a single point the value is the sum over the cells of the product over the objectives of the
difference of the psi terms plus the nu term, written out in the cell's bounds, the means and the variances. -/
theorem c49_factorises (isDouble : Bool) (cells : List (Cell m EReal)) (mean variance : Fin m → ℝ) :
    ehviForward isDouble cells [(mean, variance)] = some ((cells.map (fun c => ∏ k,
      (let l := (c.lo k).toReal
       let u := (min (c.hi k) ((if isDouble then 10 ^ 10 else 10 ^ 8 : ℝ) : EReal)).toReal
       let s := Real.sqrt (max (variance k) (1 / 10 ^ 9))
       (psi l l (mean k) s - psi l u (mean k) s) + nu l u (mean k) s))).sum) := by
  have h : pairCells cells [(mean, variance)] = some (cells.map (fun c => (c, (mean, variance)))) := by
    unfold pairCells
    split_ifs with h
    · obtain ⟨c, rfl⟩ := List.length_eq_one_iff.1 (h.trans rfl)
      rfl
    · rfl
  unfold ehviForward
  rw [h, Option.map_some, List.map_map]
  congr 2
  apply List.map_congr_left
  intro c _
  show ehviCell _ c mean variance = _
  rw [ehviCell_eq_prod]
  apply Finset.prod_congr rfl
  intro k _
  simp [ehviFactor, ehviSigma, ehviCap]

/-- **C49.**  The order in which the partitioning lists its cells does not matter. -/
theorem c49_permutation_invariant (isDouble : Bool) {cells cells' : List (Cell m EReal)} (h : cells.Perm cells')
    (mean variance : Fin m → ℝ) :
    ehviForward isDouble cells [(mean, variance)] = ehviForward isDouble cells' [(mean, variance)] := by
  rw [c49_factorises, c49_factorises]
  congr 1
  exact (h.map _).sum_eq

/-- Non-vacuity: two cells in two different orders. -/
example : (([⟨![0, 0], ![1, 1]⟩, ⟨![0, 1], ![1, ⊤]⟩] : List (Cell 2 EReal))).Perm
    [⟨![0, 1], ![1, ⊤]⟩, ⟨![0, 0], ![1, 1]⟩] := List.Perm.swap _ _ _

/-! ### C80 -/

theorem fits_of_history {argsort : List ℝ → List ℕ} (hs : Sorts argsort)
    {argmax : (Fin (m + 1) → ℕ) → Fin (m + 1)} (hmax : PicksMax argmax) {alpha cap : ℝ} {ref : Fin (m + 1) → ℝ}
    {Y : List (Fin (m + 1) → ℝ)} {s : BinState m} (h : BinInv argsort argmax alpha ref Y s)
    (hr : ∀ k, ref k ≤ cap) (hY : ∀ y ∈ Y, ∀ k, y k ≤ cap) :
    (∀ c ∈ binBounds ref s, CellFits cap c) ∧ CellsAbove ref (binBounds ref s) := by
  have hb := binBounds_fits hs hmax h
  constructor
  · intro c hc k
    obtain ⟨r, h1, -, h3, h4⟩ := hb c hc k
    refine ⟨r, h1, ?_, h4⟩
    rcases h3 with rfl | ⟨y, hy, rfl⟩
    · exact hr k
    · exact hY y hy k
  · intro c hc k
    obtain ⟨r, h1, h2, -, h4⟩ := hb c hc k
    have : (ref k : EReal) ≤ c.lo k := by rw [h1]; exact EReal.coe_le_coe_iff.2 h2
    exact ⟨this, this.trans h4⟩

private theorem forward_eq_integral {cap : ℝ} (isDouble : Bool) (hcap : cap = ehviCap isDouble)
    (cells : List (Cell m EReal)) (hf : ∀ c ∈ cells, CellFits cap c) (mean variance : Fin m → ℝ) :
    ehviForward isDouble cells [(mean, variance)] = some (∫ y, (cells.map (fun c => cellGain cap c y)).sum
        ∂independentNormals mean (fun k => max (variance k) (1 / 10 ^ 9))) := by
  rw [c49_factorises, ← (integral_cells mean variance cells hf).2]
  congr 2
  apply List.map_congr_left
  intro c _
  rw [ehviCell_eq_prod]
  apply Finset.prod_congr rfl
  intro k _
  simp [ehviFactor, ehviSigma, hcap, ehviCap]

/-- **C80.**  With the default `alpha = 0`, for any history of outcomes given to the partitioning, the value of the
acquisition function at a point is the expectation of the gain in hypervolume of one further outcome, under
independent normal objectives with the surrogate's means and variances (at least `1e-9`).  Objective values are counted
as at most `1e10` (`1e8` for inputs that are not double precision); recorded values must not exceed that. -/
theorem c80_expected_gain {argsort : List ℝ → List ℕ} (hs : Sorts argsort)
    {argmax : (Fin (m + 1) → ℕ) → Fin (m + 1)} (hmax : PicksMax argmax) {alpha : ℝ} (ha : alpha ≤ 0)
    (ref : Fin (m + 1) → ℝ) (Y : List (Fin (m + 1) → ℝ)) (Ys : List (List (Fin (m + 1) → ℝ)))
    (isDouble : Bool) (cap : ℝ) (hcap : cap = if isDouble then 10 ^ 10 else 10 ^ 8)
    (hr : ∀ k, ref k ≤ cap) (hY : ∀ y ∈ Y ++ Ys.flatten, ∀ k, y k ≤ cap) (mean variance : Fin (m + 1) → ℝ) :
    ∃ s, binHistory argsort argmax alpha ref (Y :: Ys) = some s ∧
      ehviForward isDouble (binBounds ref s) [(mean, variance)] =
        some (expectedGain cap ref (Y ++ Ys.flatten) mean (fun k => max (variance k) (1 / 10 ^ 9))) := by
  obtain ⟨s, h1, hp⟩ := c71_cells_partition hs hmax ha ref Y Ys
  have hinv := binHistory_inv argsort argmax alpha ref (Y :: Ys)
  rw [h1] at hinv
  obtain ⟨hf, hc⟩ := fits_of_history (cap := cap) hs hmax hinv hr hY
  refine ⟨s, h1, ?_⟩
  rw [forward_eq_integral isDouble hcap _ hf, expectedGain]
  congr 1
  apply integral_congr_ae
  exact Filter.Eventually.of_forall (fun y => cells_gain hf hc hp y)

/-- **C80.**  With any `alpha` (an approximate decomposition) the value is never more than the expected gain. -/
theorem c80_approximation_from_below {argsort : List ℝ → List ℕ} (hs : Sorts argsort)
    {argmax : (Fin (m + 1) → ℕ) → Fin (m + 1)} (hmax : PicksMax argmax) (alpha : ℝ)
    (ref : Fin (m + 1) → ℝ) (Y : List (Fin (m + 1) → ℝ)) (Ys : List (List (Fin (m + 1) → ℝ)))
    (isDouble : Bool) (cap : ℝ) (hcap : cap = if isDouble then 10 ^ 10 else 10 ^ 8)
    (hr : ∀ k, ref k ≤ cap) (hY : ∀ y ∈ Y ++ Ys.flatten, ∀ k, y k ≤ cap) (mean variance : Fin (m + 1) → ℝ) :
    ∃ s v, binHistory argsort argmax alpha ref (Y :: Ys) = some s ∧
      ehviForward isDouble (binBounds ref s) [(mean, variance)] = some v ∧ 0 ≤ v ∧
        v ≤ expectedGain cap ref (Y ++ Ys.flatten) mean (fun k => max (variance k) (1 / 10 ^ 9)) := by
  obtain ⟨s, h1, hp⟩ := c71_cells_disjoint hs hmax alpha ref Y Ys
  have hinv := binHistory_inv argsort argmax alpha ref (Y :: Ys)
  rw [h1] at hinv
  obtain ⟨hf, hc⟩ := fits_of_history (cap := cap) hs hmax hinv hr hY
  obtain ⟨s₀, h1₀, hp₀⟩ := c71_cells_partition hs hmax (le_refl (0 : ℝ)) ref Y Ys
  have hinv₀ := binHistory_inv argsort argmax 0 ref (Y :: Ys)
  rw [h1₀] at hinv₀
  obtain ⟨hf₀, hc₀⟩ := fits_of_history (cap := cap) hs hmax hinv₀ hr hY
  refine ⟨s, _, h1, forward_eq_integral isDouble hcap _ hf mean variance, ?_, ?_⟩
  · apply integral_nonneg
    intro y
    apply List.sum_nonneg
    intro x hx
    obtain ⟨c, -, rfl⟩ := List.mem_map.1 hx
    exact Finset.prod_nonneg (fun k _ => le_max_right _ _)
  · unfold expectedGain
    have e : (fun y => hypervolumeGain ref (Y ++ Ys.flatten) (cappedAt cap y)) =
        fun y => ((binBounds ref s₀).map (fun c => cellGain cap c y)).sum :=
      funext (fun y => (cells_gain hf₀ hc₀ hp₀ y).symm)
    apply integral_mono (integral_cells mean variance _ hf).1
    · rw [e]; exact (integral_cells mean variance _ hf₀).1
    · intro y
      exact cells_gain_le hf hc (fun v => (hp v).1) (fun v => (hp v).2) y

/-- Non-vacuity: oracles exist, and a front with two points far below the cap, with a gain that is not zero. -/
example : (∃ f, Sorts f) ∧ (∃ g : (Fin 2 → ℕ) → Fin 2, PicksMax g) ∧
    (∀ y ∈ ([![1, 2], ![2, 1]] : List (Fin 2 → ℝ)) ++ ([] : List (List (Fin 2 → ℝ))).flatten, ∀ k, y k ≤ (10 : ℝ) ^ 10) := by
  refine ⟨sorts_exists, picksMax_exists 1, ?_⟩
  intro y hy k
  simp only [List.flatten_nil, List.append_nil, List.mem_cons, List.not_mem_nil, or_false] at hy
  rcases hy with rfl | rfl <;> fin_cases k <;> norm_num

/-- **C80.**  The constructor accepts every partitioning given the same reference point. -/
theorem c80_constructs {argsort : List ℝ → List ℕ} (hs : Sorts argsort)
    {argmax : (Fin (m + 1) → ℕ) → Fin (m + 1)} (alpha : ℝ) (refPoint : List ℝ)
    (hlen : refPoint.length = m + 1) (Y : List (Fin (m + 1) → ℝ)) (Ys : List (List (Fin (m + 1) → ℝ))) :
    let ref : Fin (m + 1) → ℝ := fun k => refPoint.getD k.val 0
    ∃ s, binHistory argsort argmax alpha ref (Y :: Ys) = some s ∧ ehviInit ref s refPoint = .ok (binBounds ref s) := by
  intro ref
  have hinv := binHistory_inv argsort argmax alpha ref (Y :: Ys)
  rcases hh : binHistory argsort argmax alpha ref (Y :: Ys) with _ | s
  · rw [hh] at hinv; cases hinv
  · rw [hh] at hinv
    refine ⟨s, rfl, ?_⟩
    have hok := frontOk_of_perm hs true ref (Y :: Ys).flatten
    rw [← hinv.front] at hok
    unfold ehviInit
    rw [if_neg (by simpa using hlen), if_neg]
    rintro ⟨h1, h2⟩
    obtain ⟨y, hy⟩ := List.exists_mem_of_length_pos h2
    refine h1 ⟨y, hy, fun k => ?_⟩
    have := hok.below _ (mem_negRows.1 hy) k
    show ref k < y k
    linarith

/-! ### C81 -/

/-- **C81, refuted.**  Given several points at once, the acquisition function does not return the value at each of
them.  With as many points as cells it returns one number that pairs the first cell with the first point and so on;
here for two cells and two points. -/
theorem c81_arrays_mispaired (isDouble : Bool) (c₁ c₂ : Cell m EReal) (p₁ p₂ : (Fin m → ℝ) × (Fin m → ℝ)) :
    ∃ a₁ a₂ b₁ b₂ : ℝ, ehviForward isDouble [c₁] [p₁] = some a₁ ∧ ehviForward isDouble [c₂] [p₁] = some b₁ ∧
      ehviForward isDouble [c₁] [p₂] = some a₂ ∧ ehviForward isDouble [c₂] [p₂] = some b₂ ∧
      ehviForward isDouble [c₁, c₂] [p₁] = some (a₁ + b₁) ∧ ehviForward isDouble [c₁, c₂] [p₂] = some (a₂ + b₂) ∧
      ehviForward isDouble [c₁, c₂] [p₁, p₂] = some (a₁ + b₂) := by
  refine ⟨ehviCell (ehviCap isDouble) c₁ p₁.1 p₁.2, ehviCell (ehviCap isDouble) c₁ p₂.1 p₂.2,
    ehviCell (ehviCap isDouble) c₂ p₁.1 p₁.2, ehviCell (ehviCap isDouble) c₂ p₂.1 p₂.2, ?_⟩
  simp [ehviForward, pairCells]

private theorem factor_unit (l u μ : ℝ) :
    (psi l l μ 1 - psi l u μ 1) + nu l u μ 1 =
      ((μ - l) * normCdf (μ - l) + normPdf (μ - l)) - ((μ - u) * normCdf (μ - u) + normPdf (μ - u)) := by
  have h1 := normCdf_neg (μ - l)
  have h2 := normCdf_neg (μ - u)
  have p1 := normPdf_neg (μ - l)
  have p2 := normPdf_neg (μ - u)
  rw [neg_sub] at h1 h2 p1 p2
  simp only [psi, nu, div_one, h1, h2, p1, p2]
  ring

private theorem half_slope : (1 : ℝ) / 2 < (1 * normCdf 1 + normPdf 1) - (0 * normCdf 0 + normPdf 0) := by
  have hd : ∀ x : ℝ, HasDerivAt (fun z => z * normCdf z + normPdf z - z / 2) (normCdf x - 1 / 2) x := fun x =>
    (hasDerivAt_eiStd x).sub ((hasDerivAt_id x).div_const 2)
  have h0 : normCdf 0 = 1 / 2 := by
    have := normCdf_neg 0
    rw [neg_zero] at this
    linarith
  have hm : StrictMonoOn (fun z => z * normCdf z + normPdf z - z / 2) (Set.Ici 0) := by
    apply strictMonoOn_of_deriv_pos (convex_Ici 0)
    · exact fun x _ => (hd x).continuousAt.continuousWithinAt
    · intro x hx
      rw [interior_Ici, Set.mem_Ioi] at hx
      rw [(hd x).deriv]
      have := normCdf_strictMono hx
      linarith
  have := hm (Set.mem_Ici.2 (le_refl 0)) (Set.mem_Ici.2 zero_le_one) zero_lt_one
  simp only at this
  linarith

/-- **C81, refuted.**  The two cells of the front `[(1, 1)]` with reference point `(0, 0)`, and two points with unit
variances: the number returned is not the value at the first point. -/
theorem c81_arrays_wrong :
    ∃ (c₁ c₂ : Cell 2 EReal) (p₁ p₂ : (Fin 2 → ℝ) × (Fin 2 → ℝ)),
      PartitionsReal [c₁, c₂] (improvementRegion (fun _ => 0) [fun _ => 1]) ∧
      ehviForward true [c₁, c₂] [p₁, p₂] ≠ ehviForward true [c₁, c₂] [p₁] := by
  refine ⟨⟨fun k => if k = 0 then ((1 : ℝ) : EReal) else ((0 : ℝ) : EReal), fun _ => ⊤⟩,
    ⟨fun k => if k = 0 then ((0 : ℝ) : EReal) else ((1 : ℝ) : EReal), fun k => if k = 0 then ((1 : ℝ) : EReal) else ⊤⟩,
    (fun _ => 0, fun _ => 1), (fun k => if k = 0 then 1 else 0, fun _ => 1), ?_, ?_⟩
  · intro v
    unfold coverage
    simp only [List.countP_cons, List.countP_nil, InCell, StrictlyBelow, WeaklyBelow, Fin.forall_fin_two,
      improvementRegion, Set.mem_ofPred_eq, List.mem_singleton, forall_eq, decide_eq_true_eq]
    simp only [if_true, one_ne_zero, if_false, le_top, and_true, EReal.coe_lt_coe_iff, EReal.coe_le_coe_iff]
    constructor
    · rintro ⟨⟨h0, h1⟩, h2⟩
      by_cases h : 1 < v 0
      · rw [if_neg (fun h' => absurd h (not_lt.2 h'.2)), if_pos ⟨h, h1⟩]
      · push Not at h
        have h3 : 1 < v 1 := by
          by_contra hc
          exact h2 ⟨h, not_lt.1 hc⟩
        rw [if_pos ⟨⟨h0, h3⟩, h⟩, if_neg (fun h' => absurd h'.1 (not_lt.2 h))]
    · intro hn
      rw [if_neg, if_neg]
      · rintro ⟨h0, h1⟩
        exact hn ⟨⟨by linarith, h1⟩, fun h => absurd h0 (not_lt.2 h.1)⟩
      · rintro ⟨⟨h0, h1⟩, h2⟩
        exact hn ⟨⟨h0, by linarith⟩, fun h => absurd h1 (not_lt.2 h.2)⟩
  · obtain ⟨a₁, a₂, b₁, b₂, -, h2, -, h4, h5, -, h7⟩ := c81_arrays_mispaired (m := 2) true
      ⟨fun k => if k = 0 then ((1 : ℝ) : EReal) else ((0 : ℝ) : EReal), fun _ => ⊤⟩
      ⟨fun k => if k = 0 then ((0 : ℝ) : EReal) else ((1 : ℝ) : EReal), fun k => if k = 0 then ((1 : ℝ) : EReal) else ⊤⟩
      (fun _ => 0, fun _ => 1) (fun k => if k = 0 then 1 else 0, fun _ => 1)
    rw [h5, h7]
    intro h
    have hb : b₂ = b₁ := by
      have := Option.some.inj h
      linarith
    rw [c49_factorises] at h2 h4
    have e1 := Option.some.inj h2
    have e2 := Option.some.inj h4
    have hs : Real.sqrt (max 1 (1 / 10 ^ 9)) = 1 := by
      rw [max_eq_left (by norm_num), Real.sqrt_one]
    have hmin : (min ((1 : ℝ) : EReal) ((10 ^ 10 : ℝ) : EReal)).toReal = 1 := by
      rw [← coe_min', EReal.toReal_coe]; norm_num
    have htop : (min (⊤ : EReal) ((10 ^ 10 : ℝ) : EReal)).toReal = 10 ^ 10 := by
      rw [min_eq_right le_top, EReal.toReal_coe]
    simp only [List.map_cons, List.map_nil, List.sum_cons, List.sum_nil, add_zero, Fin.prod_univ_two, if_true,
      one_ne_zero, if_false, hs, hmin, htop, EReal.toReal_coe, factor_unit] at e1 e2
    rw [← e1, ← e2] at hb
    have hpos : (0 : ℝ) < ((0 - 1) * normCdf (0 - 1) + normPdf (0 - 1)) -
        ((0 - 10 ^ 10) * normCdf (0 - 10 ^ 10) + normPdf (0 - 10 ^ 10)) := by
      have := eiStd_strictMono (show (0 : ℝ) - 10 ^ 10 < 0 - 1 by norm_num)
      simp only at this
      linarith
    have hc := mul_right_cancel₀ hpos.ne' hb
    have hh := half_slope
    have n1 := normCdf_neg 1
    have n2 := normPdf_neg 1
    simp only [sub_zero, sub_self, zero_sub] at hc
    rw [n1, n2] at hc
    linarith

/-- **C81, refuted.**  With more than one point, more than one cell and different numbers of them, the call fails. -/
theorem c81_arrays_fail (isDouble : Bool) (cells : List (Cell m EReal)) (preds : List ((Fin m → ℝ) × (Fin m → ℝ)))
    (h1 : 1 < cells.length) (h2 : 1 < preds.length) (h : cells.length ≠ preds.length) :
    ehviForward isDouble cells preds = none := by
  unfold ehviForward pairCells
  rw [if_neg h]
  match cells, preds, h1, h2 with
  | _ :: _ :: _, _ :: _ :: _, _, _ => rfl

end Verif.Props
