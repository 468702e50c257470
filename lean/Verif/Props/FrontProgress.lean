import Verif.Props.MoboFrame
import Verif.Spec.FrontProgress
import Mathlib.Algebra.Order.BigOperators.Group.Finset

/-!
# C198: the front of a multi-objective optimisation only improves
-/
namespace Verif.Props

open Verif.Model Verif.Spec Verif.Proofs

variable {X : Type*} {m : ℕ}

private theorem asGood_refl (minimize : Fin m → Bool) (a : Fin m → ℝ) : AsGood minimize a a := by
  intro k
  unfold NoWorse
  split_ifs <;> exact le_rfl

private theorem asGood_trans {minimize : Fin m → Bool} {a b c : Fin m → ℝ} (h1 : AsGood minimize a b) (h2 : AsGood minimize b c) : AsGood minimize a c := by
  intro k
  have h1 := h1 k
  have h2 := h2 k
  unfold NoWorse at *
  split_ifs at * <;> linarith

/-- The sum of the objectives, all turned into costs. -/
private def cost (minimize : Fin m → Bool) (a : Fin m → ℝ) : ℝ := ∑ k, if minimize k then a k else -a k

private theorem cost_lt {minimize : Fin m → Bool} {a b : Fin m → ℝ} (h : DominatesIn minimize a b) : cost minimize a < cost minimize b := by
  obtain ⟨h1, k, hk⟩ := h
  refine Finset.sum_lt_sum (fun j _ => ?_) ⟨k, Finset.mem_univ k, ?_⟩
  · have := h1 j
    unfold NoWorse at this
    split_ifs at * <;> linarith
  · unfold BetterIn at hk
    split_ifs at * <;> linarith

/-- Every outcome is matched or beaten by one that nothing dominates. -/
private theorem efficient_above (minimize : Fin m → Bool) (F : List (Fin m → ℝ)) (v : Fin m → ℝ) (hv : v ∈ F) :
    ∃ w ∈ F, AsGood minimize w v ∧ ∀ u ∈ F, ¬ DominatesIn minimize u w := by
  classical
  obtain ⟨w, hw, hmin⟩ := Finset.exists_min_image (F.toFinset.filter (fun w => AsGood minimize w v)) (cost minimize)
    ⟨v, Finset.mem_filter.mpr ⟨List.mem_toFinset.mpr hv, asGood_refl minimize v⟩⟩
  obtain ⟨hw1, hw2⟩ := Finset.mem_filter.mp hw
  refine ⟨w, List.mem_toFinset.mp hw1, hw2, fun u hu hd => ?_⟩
  have := hmin u (Finset.mem_filter.mpr ⟨List.mem_toFinset.mpr hu, asGood_trans hd.1 hw2⟩)
  exact absurd (cost_lt hd) (not_lt.mpr this)

private theorem front_covers {single : ℝ → ℝ} (hsingle : StrictMono single) (minimize : Fin (m + 1) → Bool) (d : List (X × (Fin (m + 1) → ℝ))) :
    Covers minimize ((moXopt single minimize d).map Prod.snd) (d.map Prod.snd) := by
  intro v hv
  obtain ⟨w, hw, h1, h2⟩ := efficient_above minimize _ v hv
  exact ⟨w, (mo_front_mem hsingle minimize d w).mpr ⟨hw, h2⟩, h1⟩

private theorem front_later {single : ℝ → ℝ} (hsingle : StrictMono single) (minimize : Fin (m + 1) → Bool) {d d' : List (X × (Fin (m + 1) → ℝ))} (h : d <+: d') :
    Covers minimize ((moXopt single minimize d').map Prod.snd) ((moXopt single minimize d).map Prod.snd) := by
  intro v hv
  obtain ⟨t, rfl⟩ := h
  refine front_covers hsingle minimize _ v ?_
  rw [List.map_append]
  exact List.mem_append_left _ ((mo_front_mem hsingle minimize d v).mp hv).1

/-- **C198.** After any history, `xopt` matches or beats every recorded outcome; so it is as good as all the records together, and it is not empty unless nothing is recorded. -/
theorem c198_front_is_all {single : ℝ → ℝ} (hsingle : StrictMono single) (minimize : Fin (m + 1) → Bool) (calls : List (List (X × (Fin (m + 1) → Option ℝ)) × Bool)) :
    let data := (moHistory single minimize calls).data.getD []
    Covers minimize ((moXopt single minimize data).map Prod.snd) (data.map Prod.snd) ∧
    Region minimize ((moXopt single minimize data).map Prod.snd) = Region minimize (data.map Prod.snd) ∧
    (data ≠ [] → moXopt single minimize data ≠ []) := by
  intro data
  have hc := front_covers hsingle minimize data
  refine ⟨hc, ?_, fun hne he => ?_⟩
  · ext v
    constructor
    · rintro ⟨w, hw, h⟩
      exact ⟨w, ((mo_front_mem hsingle minimize data w).mp hw).1, h⟩
    · rintro ⟨w, hw, h⟩
      obtain ⟨u, hu, h'⟩ := hc w hw
      exact ⟨u, hu, asGood_trans h' h⟩
  · obtain ⟨p, rest, e⟩ := List.exists_cons_of_ne_nil hne
    obtain ⟨w, hw, -⟩ := hc p.2 (by rw [e]; simp)
    rw [he] at hw
    simp at hw

private theorem moHistory_snoc (single : ℝ → ℝ) (minimize : Fin (m + 1) → Bool) (calls : List (List (X × (Fin (m + 1) → Option ℝ)) × Bool))
    (c : List (X × (Fin (m + 1) → Option ℝ)) × Bool) : moHistory single minimize (calls ++ [c]) = (moTell single minimize (moHistory single minimize calls) c.1 c.2).1 := by
  unfold moHistory
  rw [List.foldl_append]
  rfl

private theorem tell_prefix (single : ℝ → ℝ) (minimize : Fin (m + 1) → Bool) (s : MoState X m) (c : List (X × (Fin (m + 1) → Option ℝ)) × Bool) :
    s.data.getD [] <+: (moTell single minimize s c.1 c.2).1.data.getD [] := by
  unfold moTell
  rcases hf : allFinite c.1 with _ | new
  · cases c.2 <;> simp
  · cases c.2 <;> simp

/-- **C198, partial.** Whatever is told later, every outcome on the front is matched or beaten by one on the later front, and no outcome on the later front is dominated by one on the earlier: the region
beaten only grows.  Assumed: the conversion to single precision keeps different values apart; without this the claim is false (`c198_refuted`). -/
theorem c198_improves_partial {single : ℝ → ℝ} (hsingle : StrictMono single) (minimize : Fin (m + 1) → Bool) (calls more : List (List (X × (Fin (m + 1) → Option ℝ)) × Bool)) :
    let before := (moXopt single minimize ((moHistory single minimize calls).data.getD [])).map Prod.snd
    let after := (moXopt single minimize ((moHistory single minimize (calls ++ more)).data.getD [])).map Prod.snd
    Covers minimize after before ∧ Region minimize before ⊆ Region minimize after ∧ ∀ v ∈ before, ∀ w ∈ after, ¬ DominatesIn minimize v w := by
  intro before after
  have hp : (moHistory single minimize calls).data.getD [] <+: (moHistory single minimize (calls ++ more)).data.getD [] := by
    induction more using List.reverseRecOn with
    | nil => simp
    | append_singleton more c ih =>
      rw [← List.append_assoc, moHistory_snoc]
      exact ih.trans (tell_prefix single minimize _ c)
  have hc := front_later hsingle minimize hp
  refine ⟨hc, ?_, fun v hv w hw => ?_⟩
  · rintro v ⟨w, hw, h⟩
    obtain ⟨u, hu, h'⟩ := hc w hw
    exact ⟨u, hu, asGood_trans h' h⟩
  · refine ((mo_front_mem hsingle minimize _ w).mp hw).2 v ?_
    obtain ⟨t, ht⟩ := hp
    rw [← ht, List.map_append]
    exact List.mem_append_left _ ((mo_front_mem hsingle minimize _ v).mp hv).1

/-- **C198, partial.** The fronts that `hist_f` lists, one for each call that counts as an iteration, improve from each to all the later ones. -/
theorem c198_history_partial {single : ℝ → ℝ} (hsingle : StrictMono single) (minimize : Fin (m + 1) → Bool) (calls : List (List (X × (Fin (m + 1) → Option ℝ)) × Bool)) :
    (moHistory single minimize calls).histF.Pairwise (fun old new => Covers minimize new old) := by
  have key : (moHistory single minimize calls).histF.Pairwise (fun old new => Covers minimize new old) ∧
      ∀ e ∈ (moHistory single minimize calls).histF, ∃ d, d <+: (moHistory single minimize calls).data.getD [] ∧ e = (moXopt single minimize d).map Prod.snd := by
    induction calls using List.reverseRecOn with
    | nil => simp [moHistory]
    | append_singleton calls c ih =>
      obtain ⟨h1, h2⟩ := ih
      have hp := tell_prefix single minimize (moHistory single minimize calls) c
      rw [moHistory_snoc]
      have hold : ∀ e ∈ (moHistory single minimize calls).histF, ∃ d, d <+: (moTell single minimize (moHistory single minimize calls) c.1 c.2).1.data.getD [] ∧
          e = (moXopt single minimize d).map Prod.snd := by
        intro e he
        obtain ⟨d, hd, rfl⟩ := h2 e he
        exact ⟨d, hd.trans hp, rfl⟩
      have hcase : (moTell single minimize (moHistory single minimize calls) c.1 c.2).1.histF = (moHistory single minimize calls).histF ∨
          (moTell single minimize (moHistory single minimize calls) c.1 c.2).1.histF = (moHistory single minimize calls).histF ++
            [(moXopt single minimize ((moTell single minimize (moHistory single minimize calls) c.1 c.2).1.data.getD [])).map Prod.snd] := by
        unfold moTell
        rcases hf : allFinite c.1 with _ | new
        · cases c.2 <;> simp
        · cases c.2 <;> simp
      rcases hcase with e | e
      · rw [e]
        exact ⟨h1, hold⟩
      · rw [e]
        refine ⟨List.pairwise_append.mpr ⟨h1, by simp, fun a ha b hb => ?_⟩, fun a ha => ?_⟩
        · obtain ⟨d, hd, rfl⟩ := hold a ha
          rw [List.mem_singleton.mp hb]
          exact front_later hsingle minimize hd
        · rcases List.mem_append.mp ha with ha | ha
          · exact hold a ha
          · exact ⟨_, List.prefix_rfl, List.mem_singleton.mp ha⟩
  exact key.1

/-- **C198 fails.** With a rounding to 24 binary digits a point can leave the front although nothing matches or beats it: the front loses ground. -/
theorem c198_refuted : ∃ single : ℝ → ℝ, Monotone single ∧ (∀ x, |single x - x| ≤ 1 / 2 ^ 24) ∧
    ∃ (calls more : List (List (ℕ × (Fin (1 + 1) → Option ℝ)) × Bool)) (v : Fin (1 + 1) → ℝ),
      v ∈ (moXopt single (fun _ => true) ((moHistory single (fun _ => true) calls).data.getD [])).map Prod.snd ∧
      ∀ w ∈ (moXopt single (fun _ => true) ((moHistory single (fun _ => true) (calls ++ more)).data.getD [])).map Prod.snd, ¬ AsGood (fun _ => true) w v := by
  refine ⟨fun x => (⌈x * 2 ^ 24⌉ : ℝ) / 2 ^ 24, ?_, ?_, [([(0, ![some 0, some 1])], false)], [([(1, ![some (1 / 2 ^ 30), some 0]), (2, ![some 1, some 1])], false)], ![0, 1], ?_, ?_⟩
  · intro a b h
    have : (⌈a * 2 ^ 24⌉ : ℝ) ≤ ⌈b * 2 ^ 24⌉ := by
      exact_mod_cast Int.ceil_le_ceil (mul_le_mul_of_nonneg_right h (by norm_num))
    exact div_le_div_of_nonneg_right this (by norm_num)
  · intro x
    have h1 := Int.le_ceil (x * 2 ^ 24)
    have h2 := Int.ceil_lt_add_one (x * 2 ^ 24)
    have ht : (0 : ℝ) < 2 ^ 24 := by norm_num
    generalize (2 : ℝ) ^ 24 = t at h1 h2 ht ⊢
    rw [abs_le]
    constructor
    · rw [neg_le_sub_iff_le_add, ← add_div, le_div_iff₀ ht]
      linarith
    · rw [sub_le_iff_le_add, div_le_iff₀ ht, add_mul, div_mul_cancel₀ _ ht.ne']
      linarith
  · have hd : (moHistory (fun x => (⌈x * 2 ^ 24⌉ : ℝ) / 2 ^ 24) (fun _ => true) [([((0 : ℕ), ![some (0 : ℝ), some 1])], false)]).data.getD [] = [((0 : ℕ), (![0, 1] : Fin (1 + 1) → ℝ))] := by
      have ha : allFinite [((0 : ℕ), (![some (0 : ℝ), some 1] : Fin (1 + 1) → Option ℝ))] = some [(0, ![0, 1])] := by
        unfold allFinite
        rw [if_pos (by simp [Fin.forall_fin_two])]
        simp only [List.map_cons, List.map_nil]
        congr 3
        funext k; fin_cases k <;> rfl
      simp [moHistory, moTell, ha]
    rw [hd]
    refine List.mem_map.mpr ⟨(0, ![0, 1]), ?_, rfl⟩
    unfold moXopt
    rw [mem_compress_iff]
    refine ⟨0, rfl, ?_⟩
    rw [isNonDominated_dedup_iff]
    refine ⟨⟨_, rfl, fun q hq hdom => ?_⟩, by simp [moY], fun j hj => absurd hj (by omega)⟩
    obtain ⟨-, k, hk⟩ := hdom
    simp only [moY, List.map_cons, List.map_nil, List.mem_singleton] at hq
    rw [hq] at hk
    exact lt_irrefl _ hk
  · have hd : (moHistory (fun x => (⌈x * 2 ^ 24⌉ : ℝ) / 2 ^ 24) (fun _ => true) ([([((0 : ℕ), ![some (0 : ℝ), some 1])], false)] ++
        [([(1, ![some (1 / 2 ^ 30), some 0]), (2, ![some 1, some 1])], false)])).data.getD [] =
        [((0 : ℕ), (![0, 1] : Fin (1 + 1) → ℝ)), (1, ![1 / 2 ^ 30, 0]), (2, ![1, 1])] := by
      have ha : allFinite [((0 : ℕ), (![some (0 : ℝ), some 1] : Fin (1 + 1) → Option ℝ))] = some [(0, ![0, 1])] := by
        unfold allFinite
        rw [if_pos (by simp [Fin.forall_fin_two])]
        simp only [List.map_cons, List.map_nil]
        congr 3
        funext k; fin_cases k <;> rfl
      have hb : allFinite [((1 : ℕ), (![some (1 / 2 ^ 30 : ℝ), some 0] : Fin (1 + 1) → Option ℝ)), (2, ![some 1, some 1])] = some [(1, ![1 / 2 ^ 30, 0]), (2, ![1, 1])] := by
        unfold allFinite
        rw [if_pos (by simp [Fin.forall_fin_two])]
        simp only [List.map_cons, List.map_nil]
        congr 3
        · congr 1; funext k; fin_cases k <;> rfl
        · congr 2; funext k; fin_cases k <;> rfl
      simp only [moHistory, moTell, List.cons_append, List.nil_append, List.foldl_cons, List.foldl_nil, ha, hb]
      rfl
    rw [hd]
    have hmin0 : colMin [![0, 1], ![1 / 2 ^ 30, 0], ![1, (1 : ℝ)]] (0 : Fin (1 + 1)) = 0 := by norm_num [colMin]
    have hmin1 : colMin [![0, 1], ![1 / 2 ^ 30, 0], ![1, (1 : ℝ)]] (1 : Fin (1 + 1)) = 0 := by norm_num [colMin]
    have hmax0 : colMax [![0, 1], ![1 / 2 ^ 30, 0], ![1, (1 : ℝ)]] (0 : Fin (1 + 1)) = 1 := by norm_num [colMax]
    have hmax1 : colMax [![0, 1], ![1 / 2 ^ 30, 0], ![1, (1 : ℝ)]] (1 : Fin (1 + 1)) = 1 := by norm_num [colMax]
    have hsc : scaleRange 1 = 1 := by unfold scaleRange; rw [if_neg (by norm_num)]
    have hY : (moY (fun _ => true) [![0, 1], ![1 / 2 ^ 30, 0], ![1, (1 : ℝ)]]).map (fun (r : Fin (1 + 1) → ℝ) k => (⌈r k * 2 ^ 24⌉ : ℝ) / 2 ^ 24) =
        [![0, -1], ![0, 0], (![-1, -1] : Fin (1 + 1) → ℝ)] := by
      have f1 : ⌈(-(1 / 2 ^ 30) : ℝ) * 2 ^ 24⌉ = 0 := by rw [Int.ceil_eq_iff]; norm_num
      have f2 : ⌈(-1 : ℝ) * 2 ^ 24⌉ = -2 ^ 24 := by rw [Int.ceil_eq_iff]; norm_num
      simp only [moY, List.map_cons, List.map_nil, List.cons.injEq, and_true]
      refine ⟨?_, ?_, ?_⟩ <;> funext k <;> fin_cases k <;>
        simp only [moRow, minMaxScale, flipSign, Fin.zero_eta, Fin.mk_one, hmin0, hmin1, hmax0, hmax1, hsc, if_true,
          Matrix.cons_val_zero, Matrix.cons_val_one, sub_zero, div_one, mul_neg, mul_one, neg_zero, zero_mul,
          Int.ceil_zero, Int.cast_zero, zero_div, f1, f2] <;> norm_num
    intro w hw hg
    obtain ⟨p, hp, rfl⟩ := List.mem_map.mp hw
    unfold moXopt at hp
    rw [mem_compress_iff] at hp
    obtain ⟨i, hi, hmask⟩ := hp
    have h0 := hg 0
    match i, hi, hmask with
    | 0, hi, hmask =>
      have hmask' : (isNonDominated ((moY (fun _ => true) [![0, 1], ![1 / 2 ^ 30, 0], ![1, (1 : ℝ)]]).map
          (fun (r : Fin (1 + 1) → ℝ) k => (⌈r k * 2 ^ 24⌉ : ℝ) / 2 ^ 24)) true)[0]? = some true := hmask
      rw [hY, isNonDominated_dedup_iff] at hmask'
      obtain ⟨⟨q, hq, hn⟩, -⟩ := hmask'
      cases hq
      refine hn ![0, 0] (by simp) ⟨fun k => ?_, 1, ?_⟩
      · fin_cases k <;> norm_num
      · norm_num
    | 1, hi, _ =>
      cases hi
      norm_num [NoWorse] at h0
    | 2, hi, _ =>
      cases hi
      norm_num [NoWorse] at h0
    | i + 3, hi, _ => simp at hi

/-- The front of the example of C43 without rounding: two calls, and the second point joins the first on the front. -/
example : Covers (fun _ : Fin 2 => true) [![0, 1], ![1, (0 : ℝ)]] [![0, 1]] := by
  intro v hv
  rw [List.mem_singleton.mp hv]
  exact ⟨![0, 1], by simp, asGood_refl _ _⟩

end Verif.Props
