import Verif.Proofs.Mobo
import Mathlib.Data.Fin.VecNotation
import Mathlib.Algebra.Order.Floor.Ring
import Mathlib.Algebra.Order.Archimedean.Real.Basic

/-!
# C43, C82, C83, C84: the multi-objective optimiser
-/
namespace Verif.Props

open Verif.Model Verif.Spec Verif.Proofs

variable {X : Type*} {m : ℕ}

/-! ### C43 -/

/-- **C43.**  `evaluate` returns one tuple per point, in order, with the objectives in order, for any number of
objectives and points. -/
theorem c43_evaluate_aligned {F : Type*} (objectives : List (X → F)) (hne : objectives ≠ []) (xs : List X) :
    moEvaluate objectives xs = xs.map (fun x => objectives.map (fun f => f x)) := by
  obtain ⟨f, fs, rfl⟩ := List.exists_cons_of_ne_nil hne
  exact evaluate_eq f fs xs

/-- Non-vacuity. -/
example : moEvaluate [fun x : ℕ => x, fun x => x * x] [2, 3] = [[2, 4], [3, 9]] := by
  rw [c43_evaluate_aligned _ (by simp)]; rfl

/-- The points recorded by a sequence of calls of `tell`: those of the calls in which no objective value failed. -/
private theorem history_data (single : ℝ → ℝ) (minimize : Fin (m + 1) → Bool)
    (calls : List (List (X × (Fin (m + 1) → Option ℝ)) × Bool)) :
    ((moHistory single minimize calls).data).getD [] = (calls.filterMap (fun c => allFinite c.1)).flatten ∧
    (moHistory single minimize calls).evalCount =
      ((calls.filter (fun c => !c.2)).map (fun c => c.1.length)).sum * (m + 1) ∧
    (moHistory single minimize calls).iterCount =
      (calls.filter (fun c => !c.2 && (allFinite c.1).isSome)).length ∧
    (moHistory single minimize calls).histF.length = (moHistory single minimize calls).iterCount := by
  induction calls using List.reverseRecOn with
  | nil => simp [moHistory]
  | append_singleton calls c ih =>
    have hstep : moHistory single minimize (calls ++ [c]) =
        (moTell single minimize (moHistory single minimize calls) c.1 c.2).1 := by
      unfold moHistory; rw [List.foldl_append]; rfl
    rw [hstep]
    obtain ⟨h1, h2, h3, h4⟩ := ih
    obtain ⟨vals, w⟩ := c
    unfold moTell
    rcases hf : allFinite vals with _ | new
    · cases w <;> simp [hf, h1, h2, h3, h4, List.filterMap_append, List.filter_append, add_mul]
    · cases w <;> simp [hf, h1, h2, h3, h4, List.filterMap_append, List.filter_append, add_mul]

/-- **C43, partial.**  After any sequence of calls of `tell`, and if the conversion to single precision keeps different
values apart, `xopt` lists, in the order of recording, the recorded points that no recorded point dominates and whose
outcome was not recorded before.  Missing: points with the outcome of an earlier one
(`c43_xopt_drops_equal_outcomes`), and values that rounding makes equal (`c43_xopt_rounding`). -/
theorem c43_xopt_partial {single : ℝ → ℝ} (hsingle : StrictMono single) (minimize : Fin (m + 1) → Bool)
    (calls : List (List (X × (Fin (m + 1) → Option ℝ)) × Bool))
    [DecidablePred fun i => Efficient minimize ((moHistory single minimize calls).data.getD []) i ∧
      NewOutcome ((moHistory single minimize calls).data.getD []) i] :
    let data := (moHistory single minimize calls).data.getD []
    data = (calls.filterMap (fun c => allFinite c.1)).flatten ∧
    moXopt single minimize data = ((List.range data.length).filter (fun i =>
      decide (Efficient minimize data i ∧ NewOutcome data i))).filterMap (fun i => data[i]?) := by
  intro data
  refine ⟨(history_data single minimize calls).1, ?_⟩
  unfold moXopt
  rw [compress_eq_range _ _ (by rw [isNonDominated_length]; simp [moY])]
  congr 1
  apply List.filter_congr
  intro i _
  rw [decide_eq_decide]
  exact xopt_mask hsingle minimize data i

/-- Non-vacuity: no rounding at all, and one call with two points whose values did not fail. -/
example : StrictMono (id : ℝ → ℝ) ∧ allFinite [(0, ![some 1, some 2]), (1, ![some 2, some 1])] =
    some [((0 : ℕ), ![(1 : ℝ), 2]), (1, ![2, 1])] := by
  refine ⟨strictMono_id, ?_⟩
  unfold allFinite
  rw [if_pos (by simp [Fin.forall_fin_two])]
  simp only [List.map_cons, List.map_nil]
  congr 3
  · congr 1; funext k; fin_cases k <;> rfl
  · congr 2; funext k; fin_cases k <;> rfl

/-- **C43, refuted.**  Two different points with the same outcome, neither dominated: only the first is in `xopt`. -/
theorem c43_xopt_drops_equal_outcomes {single : ℝ → ℝ} (hsingle : StrictMono single) (minimize : Fin (m + 1) → Bool)
    (x₁ x₂ : X) (v : Fin (m + 1) → ℝ) :
    Efficient minimize [(x₁, v), (x₂, v)] 0 ∧ Efficient minimize [(x₁, v), (x₂, v)] 1 ∧
      moXopt single minimize [(x₁, v), (x₂, v)] = [(x₁, v)] := by
  have hn : ∀ q ∈ [(x₁, v), (x₂, v)], ¬ DominatesIn minimize q.2 v := by
    intro q hq hd
    have : q.2 = v := by
      simp only [List.mem_cons, List.not_mem_nil, or_false] at hq
      rcases hq with rfl | rfl <;> rfl
    rw [this] at hd
    obtain ⟨-, k, hk⟩ := hd
    unfold BetterIn at hk
    split_ifs at hk <;> exact lt_irrefl _ hk
  have e0 : Efficient minimize [(x₁, v), (x₂, v)] 0 := ⟨_, rfl, hn⟩
  have e1 : Efficient minimize [(x₁, v), (x₂, v)] 1 := ⟨_, rfl, hn⟩
  refine ⟨e0, e1, ?_⟩
  have h0 := (xopt_mask hsingle minimize [(x₁, v), (x₂, v)] 0).2 ⟨e0, by simp [NewOutcome]⟩
  have h1 : ¬ _ := fun h => ((xopt_mask hsingle minimize [(x₁, v), (x₂, v)] 1).1 h).2.2 0 _ _ one_pos rfl rfl rfl
  unfold moXopt
  have hl := isNonDominated_length ((moY minimize ([(x₁, v), (x₂, v)].map Prod.snd)).map (fun r k => single (r k))) true
  generalize isNonDominated ((moY minimize ([(x₁, v), (x₂, v)].map Prod.snd)).map (fun r k => single (r k))) true = b
    at h0 h1 hl
  match b, hl with
  | [b0, b1], _ =>
    simp only [List.getElem?_cons_zero, List.getElem?_cons_succ, Option.some.injEq] at h0 h1
    subst h0
    have : b1 = false := by simpa using h1
    subst this
    rfl

/-- **C43, refuted.**  With a conversion that rounds down to a multiple of `2⁻²⁴` (monotone, off by at most `2⁻²⁴`),
`xopt` can contain a point that another recorded point dominates. -/
theorem c43_xopt_rounding : ∃ single : ℝ → ℝ, Monotone single ∧ (∀ x, |single x - x| ≤ 1 / 2 ^ 24) ∧
    ∃ (data : List (ℕ × (Fin (1 + 1) → ℝ))) (p q : ℕ × (Fin (1 + 1) → ℝ)),
      p ∈ moXopt single (fun _ => true) data ∧ q ∈ data ∧ DominatesIn (fun _ => true) q.2 p.2 := by
  refine ⟨fun x => (⌊x * 2 ^ 24⌋ : ℝ) / 2 ^ 24, ?_, ?_, ?_⟩
  · intro a b h
    have : (⌊a * 2 ^ 24⌋ : ℝ) ≤ ⌊b * 2 ^ 24⌋ := by
      exact_mod_cast Int.floor_le_floor (mul_le_mul_of_nonneg_right h (by norm_num))
    exact div_le_div_of_nonneg_right this (by norm_num)
  · intro x
    have h1 := Int.floor_le (x * 2 ^ 24)
    have h2 := Int.lt_floor_add_one (x * 2 ^ 24)
    have ht : (0 : ℝ) < 2 ^ 24 := by norm_num
    generalize (2 : ℝ) ^ 24 = t at h1 h2 ht ⊢
    have e : x = x * t / t := by field_simp
    rw [abs_le]
    constructor
    · rw [neg_le_sub_iff_le_add, ← add_div, le_div_iff₀ ht]
      linarith
    · rw [sub_le_iff_le_add, div_le_iff₀ ht, add_mul, div_mul_cancel₀ _ ht.ne']
      linarith
  · refine ⟨[(0, ![0, 1]), (1, ![1, 0]), (2, ![1 - 1 / 2 ^ 30, 0])], (1, ![1, 0]), (2, ![1 - 1 / 2 ^ 30, 0]), ?_, by simp, ?_⟩
    · have hmin0 : colMin [![0, 1], ![1, 0], ![1 - 1 / 2 ^ 30, (0 : ℝ)]] (0 : Fin (1 + 1)) = 0 := by
        norm_num [colMin]
      have hmin1 : colMin [![0, 1], ![1, 0], ![1 - 1 / 2 ^ 30, (0 : ℝ)]] (1 : Fin (1 + 1)) = 0 := by
        norm_num [colMin]
      have hmax0 : colMax [![0, 1], ![1, 0], ![1 - 1 / 2 ^ 30, (0 : ℝ)]] (0 : Fin (1 + 1)) = 1 := by
        norm_num [colMax]
      have hmax1 : colMax [![0, 1], ![1, 0], ![1 - 1 / 2 ^ 30, (0 : ℝ)]] (1 : Fin (1 + 1)) = 1 := by
        norm_num [colMax]
      have hsc : scaleRange 1 = 1 := by
        unfold scaleRange; rw [if_neg (by norm_num)]
      have hY : (moY (fun _ => true) [![0, 1], ![1, 0], ![1 - 1 / 2 ^ 30, (0 : ℝ)]]).map
          (fun (r : Fin (1 + 1) → ℝ) k => (⌊r k * 2 ^ 24⌋ : ℝ) / 2 ^ 24) =
          [![0, -1], ![-1, 0], (![-1, 0] : Fin (1 + 1) → ℝ)] := by
        have f1 : ⌊(-(1 - 1 / 2 ^ 30) : ℝ) * 2 ^ 24⌋ = -2 ^ 24 := by
          rw [Int.floor_eq_iff]; norm_num
        have f2 : ⌊(-1 : ℝ) * 2 ^ 24⌋ = -2 ^ 24 := by
          rw [Int.floor_eq_iff]; norm_num
        simp only [moY, List.map_cons, List.map_nil, List.cons.injEq, and_true]
        refine ⟨?_, ?_, ?_⟩ <;> funext k <;> fin_cases k <;>
          simp only [moRow, minMaxScale, flipSign, Fin.zero_eta, Fin.mk_one, hmin0, hmin1, hmax0, hmax1, hsc, if_true,
            Matrix.cons_val_zero, Matrix.cons_val_one, sub_zero, div_one, mul_neg, mul_one, neg_zero, zero_mul,
            Int.floor_zero, Int.cast_zero, zero_div, f1, f2] <;> norm_num
      have hmask : (isNonDominated [![0, -1], ![-1, 0], (![-1, 0] : Fin (1 + 1) → ℝ)] true)[1]? = some true := by
        rw [isNonDominated_dedup_iff]
        constructor
        · refine ⟨_, rfl, ?_⟩
          intro q hq hd
          obtain ⟨h1, k, hk⟩ := hd
          simp only [List.mem_cons, List.not_mem_nil, or_false] at hq
          have h1' := h1 1
          rcases hq with rfl | rfl | rfl
          · norm_num at h1'
          · exact lt_irrefl _ hk
          · exact lt_irrefl _ hk
        · refine ⟨by simp, fun j hj => ?_⟩
          have : j = 0 := by omega
          subst this
          intro h
          have := congrFun (Option.some.inj h) 0
          norm_num at this
      unfold moXopt
      rw [compress_eq_range _ _ (by rw [isNonDominated_length]; simp [moY]), List.mem_filterMap]
      refine ⟨1, List.mem_filter.2 ⟨by simp, ?_⟩, rfl⟩
      rw [decide_eq_true_eq]
      show (isNonDominated ((moY (fun _ => true) [![0, 1], ![1, 0], ![1 - 1 / 2 ^ 30, (0 : ℝ)]]).map
          (fun (r : Fin (1 + 1) → ℝ) k => (⌊r k * 2 ^ 24⌋ : ℝ) / 2 ^ 24)) true)[1]? = some true
      rw [hY]
      exact hmask
    · refine ⟨?_, 0, ?_⟩
      · intro k
        fin_cases k <;> norm_num [NoWorse]
      · norm_num [BetterIn]

/-! ### C82 -/

/-- **C82.**  After any sequence of calls of `tell`, the evaluation counter is the number of points told (other than as
warm-start data) times the number of objectives; the iteration counter and the length of the recorded history are the
number of such calls that returned. -/
theorem c82_counts (single : ℝ → ℝ) (minimize : Fin (m + 1) → Bool)
    (calls : List (List (X × (Fin (m + 1) → Option ℝ)) × Bool)) :
    let s := moHistory single minimize calls
    s.evalCount = ((calls.filter (fun c => !c.2)).map (fun c => c.1.length)).sum * (m + 1) ∧
    s.iterCount = (calls.filter (fun c => !c.2 && (allFinite c.1).isSome)).length ∧ s.histF.length = s.iterCount :=
  (history_data single minimize calls).2

/-! ### C83 -/

/-- **C83, refuted.**  If any objective value of any point told has failed, the call raises, and none of the points, not
even those whose values are all finite, is recorded. -/
theorem c83_failed_value_raises (single : ℝ → ℝ) (minimize : Fin (m + 1) → Bool) (s : MoState X m)
    (vals : List (X × (Fin (m + 1) → Option ℝ))) (warmStart : Bool) (h : ∃ p ∈ vals, ∃ k, p.2 k = none) :
    (moTell single minimize s vals warmStart).2 = false ∧ (moTell single minimize s vals warmStart).1.data = s.data := by
  have hf : allFinite vals = none := by
    unfold allFinite
    rw [if_neg]
    obtain ⟨p, hp, k, hk⟩ := h
    intro h'
    have := h' p hp k
    rw [hk] at this
    exact absurd this (by simp)
  unfold moTell
  rw [hf]
  exact ⟨rfl, rfl⟩

/-- **C83, partial.**  Without failed values the call returns and all points are recorded, after those recorded before. -/
theorem c83_finite_recorded_partial (single : ℝ → ℝ) (minimize : Fin (m + 1) → Bool) (s : MoState X m)
    (vals : List (X × (Fin (m + 1) → ℝ))) (warmStart : Bool) :
    let r := moTell single minimize s (vals.map (fun p => (p.1, fun k => some (p.2 k)))) warmStart
    r.2 = true ∧ r.1.data = some (s.data.getD [] ++ vals) := by
  have hf : allFinite (vals.map (fun p => (p.1, fun k => some (p.2 k)))) = some vals := by
    unfold allFinite
    rw [if_pos]
    · rw [List.map_map]
      congr 1
      exact List.map_id vals
    · intro p hp k
      obtain ⟨q, -, rfl⟩ := List.mem_map.1 hp
      rfl
  intro r
  simp only [r, moTell, hf]
  cases warmStart <;> exact ⟨rfl, rfl⟩

/-- Non-vacuity of the hypothesis of the refutation: one good and one bad point. -/
example : ∃ p ∈ [((0 : ℕ), (fun _ => some 1 : Fin (1 + 1) → Option ℝ)), (1, fun _ => none)], ∃ k, p.2 k = none :=
  ⟨(1, fun _ => none), by simp, 0, rfl⟩

/-! ### C84 -/

private theorem moY_min_max (F : List (Fin (m + 1) → ℝ)) (minimize : Fin (m + 1) → Bool) (k : Fin (m + 1))
    (hk : minimize k = false) (hne : F ≠ []) : colMin (moY minimize F) k = 0 := by
  have hne' : moY minimize F ≠ [] := by unfold moY; simpa using hne
  have hs := scaleRange_pos (colMax F k - colMin F k)
  apply le_antisymm
  · obtain ⟨v, hv, he⟩ := colMin_mem hne k
    have := colMin_le (moY minimize F) k (List.mem_map_of_mem (f := moRow minimize F) hv)
    simpa [moRow, minMaxScale, flipSign, hk, he] using this
  · obtain ⟨y, hy, he⟩ := colMin_mem hne' k
    rw [← he]
    obtain ⟨v, hv, rfl⟩ := List.mem_map.1 hy
    have := colMin_le F k hv
    simp only [moRow, minMaxScale, flipSign, hk, Bool.false_eq_true, if_false, mul_one]
    exact div_nonneg (by linarith) hs.le

/-- **C84, partial.**  In an objective that is maximised the reference point is not better than any recorded (scaled)
outcome.  Missing: objectives that are minimised (`c84_reference_above`). -/
theorem c84_reference_below_partial (minimize : Fin (m + 1) → Bool) (F : List (Fin (m + 1) → ℝ)) (hne : F ≠ [])
    (k : Fin (m + 1)) (hk : minimize k = false) : ∀ y ∈ moY minimize F, moRefPoint minimize F k ≤ y k := by
  intro y hy
  have := colMin_le (moY minimize F) k hy
  unfold moRefPoint
  rw [moY_min_max F minimize k hk hne] at this ⊢
  linarith

/-- **C84, refuted.**  In an objective that is minimised and whose recorded values are not all (nearly) equal, the
reference point is better than the worst recorded outcome. -/
theorem c84_reference_above (minimize : Fin (m + 1) → Bool) (F : List (Fin (m + 1) → ℝ)) (k : Fin (m + 1))
    (hk : minimize k = true) (hspread : ∃ u ∈ F, ∃ v ∈ F, 10 / 2 ^ 52 ≤ v k - u k) :
    ∃ y ∈ moY minimize F, y k < moRefPoint minimize F k := by
  obtain ⟨u, hu, v, hv, huv⟩ := hspread
  have hne : F ≠ [] := List.ne_nil_of_mem hu
  have hne' : moY minimize F ≠ [] := by unfold moY; simpa using hne
  obtain ⟨y, hy, he⟩ := colMin_mem hne' k
  refine ⟨y, hy, ?_⟩
  unfold moRefPoint
  rw [← he]
  obtain ⟨w, hw, hwe⟩ := colMax_mem hne k
  have h1 := colMin_le F k hu
  have h2 := le_colMax F k hv
  have hpos : (0 : ℝ) < 10 / 2 ^ 52 := by norm_num
  have hr : 10 / 2 ^ 52 ≤ colMax F k - colMin F k := by linarith
  have hle := colMin_le (moY minimize F) k (List.mem_map_of_mem (f := moRow minimize F) hw)
  have hval : moRow minimize F w k = -1 := by
    simp only [moRow, minMaxScale, flipSign, hk, if_true, hwe, scaleRange, if_neg (not_lt.2 hr)]
    rw [div_self (by linarith)]
    norm_num
  rw [hval, ← he] at hle
  linarith

/-- **C84, refuted.**  Two recorded points, both objectives minimised, neither dominated: no recorded outcome is better
than the reference point, so none contributes to the hypervolume. -/
theorem c84_front_ignored :
    let F : List (Fin (1 + 1) → ℝ) := [![0, 1], ![1, 0]]
    let both : Fin (1 + 1) → Bool := fun _ => true
    (∀ i < 2, Efficient both (F.map (fun v => ((), v))) i) ∧ ∀ y ∈ moY both F, ∃ k, y k < moRefPoint both F k := by
  intro F both
  constructor
  · intro i hi
    have : i = 0 ∨ i = 1 := by omega
    rcases this with rfl | rfl
    · refine ⟨_, rfl, ?_⟩
      intro q hq hd
      simp only [F, List.map_cons, List.map_nil, List.mem_cons, List.not_mem_nil, or_false] at hq
      rcases hq with rfl | rfl
      · obtain ⟨-, k, hk⟩ := hd
        exact absurd hk (by simp [BetterIn, both])
      · have := hd.1 0
        norm_num [NoWorse, both] at this
    · refine ⟨_, rfl, ?_⟩
      intro q hq hd
      simp only [F, List.map_cons, List.map_nil, List.mem_cons, List.not_mem_nil, or_false] at hq
      rcases hq with rfl | rfl
      · have := hd.1 1
        norm_num [NoWorse, both] at this
      · obtain ⟨-, k, hk⟩ := hd
        exact absurd hk (by simp [BetterIn, both])
  · have hmin : ∀ k : Fin (1 + 1), colMin F k = 0 := by
      intro k; fin_cases k <;> norm_num [colMin, F]
    have hmax : ∀ k : Fin (1 + 1), colMax F k = 1 := by
      intro k; fin_cases k <;> norm_num [colMax, F]
    have hsc : scaleRange (1 - 0) = 1 := by
      unfold scaleRange; rw [if_neg (by norm_num)]; norm_num
    have hrow : ∀ v, moRow both F v = fun k => - v k := by
      intro v; funext k
      simp only [moRow, minMaxScale, flipSign, hmin, hmax, hsc, both, if_true]
      ring
    have href : ∀ k, moRefPoint both F k = -(8 / 10) := by
      intro k
      simp only [moRefPoint, moY, F, List.map_cons, List.map_nil]
      rw [← show F = [![0, 1], ![1, 0]] from rfl, hrow, hrow]
      fin_cases k <;> norm_num [colMin]
    intro y hy
    obtain ⟨v, hv, rfl⟩ := List.mem_map.1 hy
    rw [hrow]
    simp only [F, List.mem_cons, List.not_mem_nil, or_false] at hv
    rcases hv with rfl | rfl
    · exact ⟨1, by rw [href]; norm_num⟩
    · exact ⟨0, by rw [href]; norm_num⟩

/-- Non-vacuity of `c84_reference_above`. -/
example : ∃ u ∈ [![(0 : ℝ), 1], ![1, 0]], ∃ v ∈ [![(0 : ℝ), 1], ![1, 0]], (10 : ℝ) / 2 ^ 52 ≤ v 0 - u 0 :=
  ⟨![0, 1], by simp, ![1, 0], by simp, by norm_num⟩

end Verif.Props
