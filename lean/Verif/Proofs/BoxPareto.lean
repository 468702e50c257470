import Verif.Model.BoxDecomposition
import Verif.Spec.BoxDecomposition
import Verif.Props.Pareto
import Mathlib.Data.Set.Finite.Lemmas
import Mathlib.Data.Set.Finite.Lattice
import Mathlib.Tactic.Linarith

/-!
# The front used by the box decompositions
-/
namespace Verif.Proofs

open Verif.Model Verif.Spec

variable {m : ℕ}

theorem mem_compress_iff {α : Type*} (l : List α) : ∀ (b : List Bool) (a : α),
    a ∈ compress l b ↔ ∃ i : ℕ, l[i]? = some a ∧ b[i]? = some true := by
  induction l with
  | nil => intro b a; simp [compress]
  | cons x l ih =>
    intro b a
    cases b with
    | nil => simp [compress]
    | cons y b =>
      have hR : (∃ i : ℕ, (x :: l)[i]? = some a ∧ (y :: b)[i]? = some true) ↔
          (x = a ∧ y = true) ∨ ∃ i : ℕ, l[i]? = some a ∧ b[i]? = some true := by
        constructor
        · rintro ⟨i, h1, h2⟩
          cases i with
          | zero => left; simpa using And.intro h1 h2
          | succ i => right; exact ⟨i, by simpa using h1, by simpa using h2⟩
        · rintro (⟨h1, h2⟩ | ⟨i, h1, h2⟩)
          · exact ⟨0, by simp [h1], by simp [h2]⟩
          · exact ⟨i + 1, by simpa using h1, by simpa using h2⟩
      rw [hR]
      unfold compress
      cases y with
      | true => simp only [if_true, List.mem_cons, ih]; constructor <;> rintro (h | h) <;> simp_all
      | false => simp [ih]

theorem compress_pairwise {α : Type*} {R : α → α → Prop} (l : List α) : ∀ (b : List Bool),
    (∀ i j : ℕ, i < j → ∀ x y, l[i]? = some x → l[j]? = some y → b[i]? = some true → b[j]? = some true → R x y) →
    (compress l b).Pairwise R := by
  induction l with
  | nil => intro b _; simp [compress]
  | cons x l ih =>
    intro b h
    cases b with
    | nil => simp [compress]
    | cons y b =>
      have h' : (compress l b).Pairwise R := by
        apply ih
        intro i j hij a c ha hc hbi hbj
        exact h (i + 1) (j + 1) (by omega) a c (by simpa using ha) (by simpa using hc) (by simpa using hbi)
          (by simpa using hbj)
      unfold compress
      cases y with
      | false => simpa using h'
      | true =>
        simp only [if_true, List.pairwise_cons]
        refine ⟨?_, h'⟩
        intro a ha
        obtain ⟨i, h1, h2⟩ := (mem_compress_iff l b a).1 ha
        exact h 0 (i + 1) (by omega) x a (by simp) (by simpa using h1) (by simp) (by simpa using h2)

/-- The mask of the front, position by position. -/
theorem frontier_mask (ref : Fin m → ℝ) (Y : List (Fin m → ℝ)) (i : ℕ) :
    (List.zipWith (· && ·) (isNonDominated Y) (Y.map (fun y => decide (∀ k, y k > ref k))))[i]? = some true ↔
      (NonDominatedMaxAt Y i ∧ FirstOccurrence Y i) ∧ ∃ y, Y[i]? = some y ∧ ∀ k, ref k < y k := by
  have h2 := (Verif.Props.c02_is_non_dominated_dedup Y).2 i
  rw [← h2, List.getElem?_zipWith]
  rcases h : (isNonDominated Y true)[i]? with _ | b
  · simp [h]
  · rcases h' : Y[i]? with _ | y
    · simp [h']
    · simp [h, h']

/-- The rows of the front. -/
theorem mem_frontier (ref : Fin m → ℝ) (Y : List (Fin m → ℝ)) (p : Fin m → ℝ) :
    p ∈ paretoFrontier ref Y ↔ p ∈ Y ∧ (∀ q ∈ Y, ¬ DominatesMax q p) ∧ ∀ k, ref k < p k := by
  unfold paretoFrontier
  rw [mem_compress_iff]
  constructor
  · rintro ⟨i, h1, h2⟩
    obtain ⟨⟨⟨p', hp', hnd⟩, -⟩, y, hy, href⟩ := (frontier_mask ref Y i).1 h2
    rw [h1] at hp' hy
    cases hp'; cases hy
    exact ⟨List.mem_of_getElem? h1, hnd, href⟩
  · rintro ⟨h1, h2, h3⟩
    -- the first position holding `p`
    have hex : ∃ i, Y[i]? = some p := List.mem_iff_getElem?.1 h1
    classical
    refine ⟨Nat.find hex, Nat.find_spec hex, ?_⟩
    rw [frontier_mask]
    have hs := Nat.find_spec hex
    refine ⟨⟨⟨p, hs, h2⟩, ?_, ?_⟩, p, hs, h3⟩
    · exact (List.getElem?_eq_some_iff.1 hs).1
    · intro j hj hEq
      rw [hs] at hEq
      exact Nat.find_min hex hj hEq

/-- No row of the front equals or dominates another. -/
theorem frontier_pairwise (ref : Fin m → ℝ) (Y : List (Fin m → ℝ)) :
    (paretoFrontier ref Y).Pairwise (fun p q => (∃ k, q k < p k) ∧ ∃ k, p k < q k) := by
  unfold paretoFrontier
  apply compress_pairwise
  intro i j hij x y hx hy hi hj
  rw [frontier_mask] at hi hj
  obtain ⟨⟨⟨x', hx', hndx⟩, -⟩, -⟩ := hi
  obtain ⟨⟨⟨y', hy', hndy⟩, hfy⟩, -⟩ := hj
  rw [hx] at hx'; cases hx'
  rw [hy] at hy'; cases hy'
  have hne : x ≠ y := by
    rintro rfl
    exact hfy.2 i hij (by rw [hx, hy])
  have hxm := List.mem_of_getElem? hx
  have hym := List.mem_of_getElem? hy
  constructor
  · by_contra hcon
    push Not at hcon
    have : ∀ k, y k ≤ x k := by
      intro k
      by_contra hk
      exact hndx y hym ⟨hcon, k, not_le.1 hk⟩
    exact hne (funext fun k => le_antisymm (hcon k) (this k))
  · by_contra hcon
    push Not at hcon
    have : ∀ k, x k ≤ y k := by
      intro k
      by_contra hk
      exact hndy x hxm ⟨hcon, k, not_le.1 hk⟩
    exact hne (funext fun k => le_antisymm (this k) (hcon k))

/-- The front decides what is dominated above the reference point. -/
theorem frontier_dominates (ref : Fin m → ℝ) (Y : List (Fin m → ℝ)) {v : Fin m → ℝ} (hv : ∀ k, ref k < v k) :
    (∃ y ∈ Y, ∀ k, v k ≤ y k) ↔ ∃ p ∈ paretoFrontier ref Y, ∀ k, v k ≤ p k := by
  constructor
  · rintro ⟨y, hy, hvy⟩
    have hfin : {q | q ∈ Y ∧ ∀ k, v k ≤ q k}.Finite := (List.finite_toSet Y).subset (fun q hq => hq.1)
    obtain ⟨q, hq⟩ := hfin.exists_maximal ⟨y, hy, hvy⟩
    refine ⟨q, (mem_frontier ref Y q).2 ⟨hq.prop.1, ?_, fun k => lt_of_lt_of_le (hv k) (hq.prop.2 k)⟩, hq.prop.2⟩
    rintro q' hq' ⟨h1, k, hk⟩
    have := hq.le_of_ge (y := q') ⟨hq', fun k => le_trans (hq.prop.2 k) (h1 k)⟩ h1
    exact absurd (this k) (not_le.2 hk)
  · rintro ⟨p, hp, hvp⟩
    exact ⟨p, ((mem_frontier ref Y p).1 hp).1, hvp⟩

theorem negRows_negRows (Y : List (Fin m → ℝ)) : negRows (negRows Y) = Y := by
  simp [negRows, Function.comp_def]

theorem mem_negRows {Y : List (Fin m → ℝ)} {y : Fin m → ℝ} : y ∈ negRows Y ↔ (fun k => - y k) ∈ Y := by
  unfold negRows
  rw [List.mem_map]
  constructor
  · rintro ⟨a, ha, rfl⟩
    simpa using ha
  · intro h
    exact ⟨_, h, by simp⟩

theorem filterMap_range_rows {α : Type*} (rows : List α) :
    (List.range rows.length).filterMap (fun i => rows[i]?) = rows := by
  induction rows using List.reverseRecOn with
  | nil => simp
  | append_singleton l a ih =>
    rw [List.length_append, List.length_singleton, List.range_succ, List.filterMap_append]
    congr 1
    · conv_rhs => rw [← ih]
      apply List.filterMap_congr
      intro i hi
      rw [List.getElem?_append_left (by simpa using hi)]
    · simp

theorem pickRows_perm {α : Type*} {rows : List α} {order : List ℕ} (h : order.Perm (List.range rows.length)) :
    (pickRows rows order).Perm rows := by
  unfold pickRows
  refine (h.filterMap _).trans ?_
  rw [filterMap_range_rows]

/-- The stored front, up to order. -/
theorem negParetoOf_perm {argsort : List ℝ → List ℕ} (hs : Sorts argsort) (sort : Bool) (ref : Fin (m + 1) → ℝ)
    (Y : List (Fin (m + 1) → ℝ)) :
    (negParetoOf argsort sort ref (negRows Y)).Perm (negRows (paretoFrontier ref Y)) := by
  unfold negParetoOf
  split_ifs with h h'
  · have : Y = [] := by
      have : (negRows Y).length = Y.length := by simp [negRows]
      rw [this] at h
      exact List.length_eq_zero_iff.1 h
    subst this
    simp [negRows, paretoFrontier, compress]
  · rw [negRows_negRows]
    apply pickRows_perm
    have := (hs ((negRows (paretoFrontier ref Y)).map (fun y => y 0))).1
    simpa using this
  · rw [negRows_negRows]

theorem pickRows_sorted {argsort : List ℝ → List ℕ} (hs : Sorts argsort) (rows : List (Fin (m + 1) → ℝ)) :
    (pickRows rows (argsort (rows.map (fun y => y 0)))).Pairwise (fun p q => p 0 ≤ q 0) := by
  unfold pickRows
  rw [List.pairwise_filterMap]
  apply (hs (rows.map (fun y => y 0))).2.imp
  intro i j h p hp q hq
  apply h
  · rw [List.getElem?_map, hp]; rfl
  · rw [List.getElem?_map, hq]; rfl

/-- What the decompositions may assume about the stored front. -/
structure FrontOk (ref : Fin m → ℝ) (P : List (Fin m → ℝ)) : Prop where
  below : ∀ p ∈ P, ∀ k, p k < - ref k
  apart : P.Pairwise (fun p q => (∃ k, q k < p k) ∧ ∃ k, p k < q k)

theorem frontOk_of_perm {argsort : List ℝ → List ℕ} (hs : Sorts argsort) (sort : Bool) (ref : Fin (m + 1) → ℝ)
    (Y : List (Fin (m + 1) → ℝ)) : FrontOk ref (negParetoOf argsort sort ref (negRows Y)) := by
  have hperm := negParetoOf_perm hs sort ref Y
  constructor
  · intro p hp k
    have := (mem_frontier ref Y _).1 (mem_negRows.1 (hperm.mem_iff.1 hp))
    have := this.2.2 k
    linarith
  · apply hperm.symm.pairwise
    · unfold negRows
      rw [List.pairwise_map]
      apply (frontier_pairwise ref Y).imp
      rintro p q ⟨⟨k, hk⟩, l, hl⟩
      exact ⟨⟨l, by linarith⟩, k, by linarith⟩
    · rintro p q ⟨h1, h2⟩
      exact ⟨h2, h1⟩

/-- The stored front decides membership in the improvement region. -/
theorem improvement_iff {argsort : List ℝ → List ℕ} (hs : Sorts argsort) (sort : Bool) (ref : Fin (m + 1) → ℝ)
    (Y : List (Fin (m + 1) → ℝ)) (v : Fin (m + 1) → ℝ) :
    v ∈ improvementRegion ref Y ↔
      (∀ k, ref k < v k) ∧ ∀ p ∈ negParetoOf argsort sort ref (negRows Y), ¬ ∀ k, p k ≤ - v k := by
  unfold improvementRegion
  rw [Set.mem_ofPred_eq]
  apply and_congr_right
  intro hv
  have h1 := frontier_dominates ref Y hv
  have hperm := negParetoOf_perm hs sort ref Y
  constructor
  · intro h p hp hpv
    have hmem := mem_negRows.1 (hperm.mem_iff.1 hp)
    obtain ⟨y, hy, hvy⟩ := h1.2 ⟨_, hmem, fun k => by have := hpv k; linarith⟩
    exact h y hy hvy
  · intro h y hy hvy
    obtain ⟨p, hp, hvp⟩ := h1.1 ⟨y, hy, hvy⟩
    refine h (fun k => - p k) (hperm.mem_iff.2 (mem_negRows.2 (by simpa using hp))) (fun k => ?_)
    have := hvp k
    linarith

end Verif.Proofs
