import Verif.Spec.Penalized
import Mathlib.Analysis.Calculus.MeanValue
import Mathlib.Analysis.Calculus.Deriv.Pow
import Mathlib.Analysis.Calculus.Deriv.Mul

namespace Verif.Proofs
open Verif.Model Verif.Spec

theorem eqTerm_eq (v : List ℝ) : eqTerm (1 / 10) v = (v.map fun a => if |a| ≤ 1 / 10 then 0 else |a|).sum := by
  unfold eqTerm
  congr 1
  refine List.map_congr_left fun a _ => ?_
  split_ifs
  · exact abs_zero
  · rfl

theorem ineqTerm_eq (v : List ℝ) : ineqTerm (3 / 2) v = (v.map fun a => (max a 0) ^ (3 / 2 : ℝ)).sum := by
  unfold ineqTerm
  congr 1
  refine List.map_congr_left fun a _ => ?_
  split_ifs with h
  · rw [abs_zero, max_eq_right h]
  · rw [max_eq_left (not_le.1 h).le, abs_of_pos (not_le.1 h)]

theorem penTerms_point (term : List ℝ → ℝ) (h0 : term [] = 0) (h : Option (List ℝ → List ℝ)) (x : List ℝ) :
    penTerms term ((totalC h).map onPoints) [Cand.point x] = .ok [term (valuesOf h x)] := by
  cases h with
  | none => simp [totalC, penTerms, valuesOf, h0]
  | some f => simp [totalC, penTerms, valuesOf, constraintTable, onPoints, sameLength, Except.map]

theorem pointPenalty_eq (h g : Option (List ℝ → List ℝ)) (t : ℝ) (ht : 0 ≤ t) (x : List ℝ) (hx : x ≠ []) :
    pointPenalty (totalC h) (totalC g) t x = .ok (t / 2 * violation (valuesOf h) (valuesOf g) x) := by
  cases x with
  | nil => exact absurd rfl hx
  | cons v x =>
    have e1 : penRows (fun _ => false) (PenArg.point (v :: x)) = .ok [Cand.point (v :: x)] := by simp [penRows]
    unfold pointPenalty dynamicPenalty
    rw [e1]
    have e2 := penTerms_point (eqTerm (PenPar.default t true).eps) (by simp [eqTerm]) h (v :: x)
    have e3 := penTerms_point (ineqTerm (PenPar.default t true).beta) (by simp [ineqTerm]) g (v :: x)
    simp only [Except.bind, e2, e3, Except.map, List.zipWith_cons_cons, List.zipWith_nil_right, List.map_cons, List.map_nil, List.headD_cons]
    congr 1
    show ((1 / 2 : ℝ) * t) ^ (1 : ℝ) * (eqTerm (1 / 10) _ + ineqTerm (3 / 2) _) * 1 = _
    rw [eqTerm_eq, ineqTerm_eq, Real.rpow_one]
    unfold violation
    ring

theorem mapM_ok {α β ε : Type*} (f : α → Except ε β) (k : α → β) (l : List α) (h : ∀ a ∈ l, f a = .ok (k a)) : l.mapM f = .ok (l.map k) := by
  induction l with
  | nil => rfl
  | cons a l ih =>
    rw [List.mapM_cons, h a (List.mem_cons_self ..), ih fun b hb => h b (List.mem_cons_of_mem _ hb)]
    rfl

theorem finiteDifference_eq (f : List ℝ → Except PenErr ℝ) (v : List ℝ → ℝ) (hf : ∀ x, x ≠ [] → f x = .ok (v x)) (delta : ℝ) (x : List ℝ) :
    finiteDifference f delta x = .ok (centralDifferences v delta x) := by
  unfold finiteDifference centralDifferences
  refine mapM_ok _ _ _ fun i hi => ?_
  have hl : 0 < x.length := by
    have := List.mem_range.1 hi
    omega
  have ne : ∀ k : ℝ → ℝ, x.modify i k ≠ [] := by
    intro k e
    have := congrArg List.length e
    rw [List.length_modify, List.length_nil] at this
    omega
  rw [hf _ (ne _), hf _ (ne _)]
  rfl

theorem violation_nonneg (h g : List ℝ → List ℝ) (x : List ℝ) : 0 ≤ violation h g x := by
  unfold violation
  apply add_nonneg
  · apply List.sum_nonneg
    intro a ha
    obtain ⟨b, _, rfl⟩ := List.mem_map.1 ha
    split_ifs
    · exact le_refl _
    · exact abs_nonneg _
  · apply List.sum_nonneg
    intro a ha
    obtain ⟨b, _, rfl⟩ := List.mem_map.1 ha
    exact Real.rpow_nonneg (le_max_right _ _) _

theorem violation_zero_iff (h g : List ℝ → List ℝ) (x : List ℝ) : violation h g x = 0 ↔ WithinTolerance h g x := by
  have sz : ∀ l : List ℝ, (∀ a ∈ l, 0 ≤ a) → (l.sum = 0 ↔ ∀ a ∈ l, a = 0) := by
    intro l hl
    induction l with
    | nil => simp
    | cons a l ih =>
      have h1 := hl a (List.mem_cons_self ..)
      have h2 : 0 ≤ l.sum := List.sum_nonneg fun b hb => hl b (List.mem_cons_of_mem _ hb)
      rw [List.sum_cons, List.forall_mem_cons, ← ih fun b hb => hl b (List.mem_cons_of_mem _ hb)]
      constructor
      · intro e; constructor <;> linarith
      · rintro ⟨e1, e2⟩; linarith
  unfold violation WithinTolerance
  have n1 : ∀ a ∈ (h x).map (fun a => if |a| ≤ 1 / 10 then 0 else |a|), 0 ≤ a := by
    intro a ha
    obtain ⟨b, _, rfl⟩ := List.mem_map.1 ha
    split_ifs
    · exact le_refl _
    · exact abs_nonneg _
  have n2 : ∀ a ∈ (g x).map (fun a => (max a 0) ^ (3 / 2 : ℝ)), 0 ≤ a := by
    intro a ha
    obtain ⟨b, _, rfl⟩ := List.mem_map.1 ha
    exact Real.rpow_nonneg (le_max_right _ _) _
  rw [add_eq_zero_iff_of_nonneg (List.sum_nonneg n1) (List.sum_nonneg n2), sz _ n1, sz _ n2, List.forall_mem_map, List.forall_mem_map]
  refine and_congr ?_ ?_
  · refine forall₂_congr fun a _ => ?_
    split_ifs with hle
    · exact ⟨fun _ => hle, fun _ => rfl⟩
    · refine ⟨fun e => ?_, fun e => absurd e hle⟩
      rw [e]; norm_num
  · refine forall₂_congr fun a _ => ?_
    rw [Real.rpow_eq_zero (le_max_right _ _) (by norm_num), max_eq_right_iff]

/-- Central differences of a function of one variable with bounded third derivative. -/
theorem central_error (f f1 f2 f3 : ℝ → ℝ) (M d : ℝ) (hd : 0 < d) (h1 : ∀ s ∈ Set.Icc (-d) d, HasDerivAt f (f1 s) s)
    (h2 : ∀ s ∈ Set.Icc (-d) d, HasDerivAt f1 (f2 s) s) (h3 : ∀ s ∈ Set.Icc (-d) d, HasDerivAt f2 (f3 s) s)
    (hM : ∀ s ∈ Set.Icc (-d) d, |f3 s| ≤ M) : |(f d - f (-d)) / (2 * d) - f1 0| ≤ M * d ^ 2 / 6 := by
  have hmem : ∀ s ∈ Set.Icc (0 : ℝ) d, s ∈ Set.Icc (-d) d ∧ -s ∈ Set.Icc (-d) d := by
    intro s hs
    exact ⟨⟨by linarith [hs.1], hs.2⟩, ⟨by linarith [hs.2], by linarith [hs.1]⟩⟩
  -- second derivatives
  have b2 : ∀ s ∈ Set.Icc (0 : ℝ) d, |f2 s - f2 (-s)| ≤ 2 * M * s := by
    intro s hs
    have := (convex_Icc (-d) d).norm_image_sub_le_of_norm_hasDerivWithin_le (f := f2) (f' := f3) (C := M)
      (fun y hy => (h3 y hy).hasDerivWithinAt) (fun y hy => by simpa using hM y hy) (hmem s hs).2 (hmem s hs).1
    rw [Real.norm_eq_abs, Real.norm_eq_abs, sub_neg_eq_add, abs_of_nonneg (by linarith [hs.1] : 0 ≤ s + s)] at this
    linarith
  have bound : ∀ (u u' B B' : ℝ → ℝ), u 0 = 0 → B 0 = 0 → (∀ s ∈ Set.Icc (0 : ℝ) d, HasDerivAt u (u' s) s) → (∀ s, HasDerivAt B (B' s) s) →
      (∀ s ∈ Set.Icc (0 : ℝ) d, |u' s| ≤ B' s) → ∀ s ∈ Set.Icc (0 : ℝ) d, |u s| ≤ B s := by
    intro u u' B B' hu0 hB0 hu hB hle s hs
    have := image_norm_le_of_norm_deriv_right_le_deriv_boundary (f := u) (f' := u') (a := 0) (b := d) (B := B) (B' := B')
      (fun x hx => (hu x hx).continuousAt.continuousWithinAt) (fun x hx => (hu x ⟨hx.1, hx.2.le⟩).hasDerivWithinAt)
      (by simp [hu0, hB0]) hB (fun x hx => by simpa using hle x ⟨hx.1, hx.2.le⟩) hs
    simpa using this
  have e1 := bound (fun s => f1 s + f1 (-s) - 2 * f1 0) (fun s => f2 s - f2 (-s)) (fun s => M * s ^ 2) (fun s => 2 * M * s) (by simp; ring) (by simp)
    (fun s hs => by
      have g1 := h2 s (hmem s hs).1
      have g2 := (h2 (-s) (hmem s hs).2).comp s (hasDerivAt_neg s)
      have := (g1.add g2).sub_const (2 * f1 0)
      exact this.congr_deriv (by ring))
    (fun s => by
      have := (hasDerivAt_pow 2 s).const_mul M
      exact this.congr_deriv (by norm_num; ring)) b2
  have e2 := bound (fun s => f s - f (-s) - 2 * f1 0 * s) (fun s => f1 s + f1 (-s) - 2 * f1 0) (fun s => M / 3 * s ^ 3) (fun s => M * s ^ 2) (by simp) (by simp)
    (fun s hs => by
      have g1 := h1 s (hmem s hs).1
      have g2 := (h1 (-s) (hmem s hs).2).comp s (hasDerivAt_neg s)
      have := (g1.sub g2).sub ((hasDerivAt_id s).const_mul (2 * f1 0))
      exact this.congr_deriv (by ring))
    (fun s => by
      have := (hasDerivAt_pow 3 s).const_mul (M / 3)
      exact this.congr_deriv (by norm_num; ring)) e1 d ⟨hd.le, le_refl _⟩
  have e3 : (f d - f (-d)) / (2 * d) - f1 0 = (f d - f (-d) - 2 * f1 0 * d) / (2 * d) := by field_simp
  rw [e3, abs_div, abs_of_pos (by linarith : (0 : ℝ) < 2 * d), div_le_iff₀ (by linarith)]
  calc _ ≤ M / 3 * d ^ 3 := e2
    _ = _ := by ring

end Verif.Proofs
