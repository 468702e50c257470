import Verif.Proofs.FastPartition
import Mathlib.Algebra.BigOperators.Group.Finset.Basic
import Mathlib.Algebra.Order.BigOperators.Ring.Finset
import Mathlib.Tactic.Ring
import Mathlib.Tactic.Positivity

/-!
# NondominatedPartitioning: binary partitioning
-/
namespace Verif.Proofs

open Verif.Model Verif.Spec

variable {m : ℕ}

/-! ### The grid of one objective -/

/-- The grid values of one objective, as extended reals (bounds) and as reals (while dividing). -/
structure Grid (n : ℕ) (P : List (Fin m → ℝ)) (k : Fin m) (E : ℕ → EReal) (R : ℕ → ℝ) : Prop where
  mono : ∀ p q, p ≤ q → q ≤ n + 1 → E p ≤ E q
  monoR : ∀ p q, p ≤ q → q ≤ n + 1 → R p ≤ R q
  cmp : ∀ y ∈ P, ∀ p, p ≤ n + 1 → (R p ≤ y k ↔ E p ≤ (y k : EReal))
  adj : ∀ y ∈ P, ∀ p, p ≤ n → (y k : EReal) < E (p + 1) → (y k : EReal) ≤ E p
  zero : ∀ p q, p < q → q ≤ n + 1 → R p = R q → E p = E q

theorem grid_of {P : List (Fin m → ℝ)} {k : Fin m} {E : ℕ → EReal} {R : ℕ → ℝ} {f : ℕ → ℝ} {r a b : ℝ}
    (hf : ∀ i j, i ≤ j → j < P.length → f i ≤ f j)
    (hsub : ∀ y ∈ P, ∃ i, i < P.length ∧ f i = y k)
    (hsup : ∀ i, i < P.length → ∃ y ∈ P, f i = y k)
    (hr : ∀ y ∈ P, y k < r) (ha : ∀ y ∈ P, a < y k) (hb : ∀ y ∈ P, y k < b) (hab : a < b)
    (hE0 : E 0 = ⊥) (hR0 : R 0 = a)
    (hE : ∀ i, i < P.length → E (i + 1) = (f i : EReal)) (hR : ∀ i, i < P.length → R (i + 1) = f i)
    (hEn : E (P.length + 1) = (r : EReal)) (hRn : R (P.length + 1) = b) :
    Grid P.length P k E R := by
  have hfr : ∀ i, i < P.length → f i < r := fun i hi => by
    obtain ⟨y, hy, h⟩ := hsup i hi; rw [h]; exact hr y hy
  have hfa : ∀ i, i < P.length → a < f i := fun i hi => by
    obtain ⟨y, hy, h⟩ := hsup i hi; rw [h]; exact ha y hy
  have hfb : ∀ i, i < P.length → f i < b := fun i hi => by
    obtain ⟨y, hy, h⟩ := hsup i hi; rw [h]; exact hb y hy
  -- the three kinds of position
  have cases3 : ∀ p, p ≤ P.length + 1 → p = 0 ∨ (∃ i, i < P.length ∧ p = i + 1) ∨ p = P.length + 1 := by
    intro p hp
    rcases Nat.eq_zero_or_pos p with h | h
    · exact Or.inl h
    · rcases Nat.lt_or_ge p (P.length + 1) with h' | h'
      · exact Or.inr (Or.inl ⟨p - 1, by omega, by omega⟩)
      · exact Or.inr (Or.inr (by omega))
  have hmono : ∀ p q, p ≤ q → q ≤ P.length + 1 → E p ≤ E q := by
    intro p q hpq hq
    rcases cases3 p (by omega) with rfl | ⟨i, hi, rfl⟩ | rfl
    · rw [hE0]; exact bot_le
    · rcases cases3 q hq with rfl | ⟨j, hj, rfl⟩ | rfl
      · omega
      · rw [hE i hi, hE j hj, EReal.coe_le_coe_iff]
        exact hf i j (by omega) hj
      · rw [hE i hi, hEn, EReal.coe_le_coe_iff]
        exact (hfr i hi).le
    · have : q = P.length + 1 := by omega
      rw [this]
  refine ⟨hmono, ?_, ?_, ?_, ?_⟩
  · intro p q hpq hq
    rcases cases3 p (by omega) with rfl | ⟨i, hi, rfl⟩ | rfl
    · rcases cases3 q hq with rfl | ⟨j, hj, rfl⟩ | rfl
      · exact le_refl _
      · rw [hR0, hR j hj]; exact (hfa j hj).le
      · rw [hR0, hRn]; exact hab.le
    · rcases cases3 q hq with rfl | ⟨j, hj, rfl⟩ | rfl
      · omega
      · rw [hR i hi, hR j hj]
        exact hf i j (by omega) hj
      · rw [hR i hi, hRn]
        exact (hfb i hi).le
    · have : q = P.length + 1 := by omega
      rw [this]
  · intro y hy p hp
    rcases cases3 p hp with rfl | ⟨i, hi, rfl⟩ | rfl
    · rw [hE0, hR0]
      exact ⟨fun _ => bot_le, fun _ => (ha y hy).le⟩
    · rw [hE i hi, hR i hi, EReal.coe_le_coe_iff]
    · rw [hEn, hRn, EReal.coe_le_coe_iff]
      exact ⟨fun h => absurd (hb y hy) (not_lt.2 h), fun h => absurd (hr y hy) (not_lt.2 h)⟩
  · intro y hy p hp hlt
    obtain ⟨i, hi, hfi⟩ := hsub y hy
    rw [← hfi, ← hE i hi] at hlt ⊢
    have hip : i + 1 ≤ p := by
      by_contra hcon
      exact absurd hlt (not_lt.2 (hmono (p + 1) (i + 1) (by omega) (by omega)))
    exact hmono _ _ hip (by omega)
  · intro p q hpq hq h
    rcases cases3 p (by omega) with rfl | ⟨i, hi, rfl⟩ | rfl
    · rcases cases3 q hq with rfl | ⟨j, hj, rfl⟩ | rfl
      · rfl
      · rw [hR0, hR j hj] at h; exact absurd h (ne_of_lt (hfa j hj))
      · rw [hR0, hRn] at h; exact absurd h (ne_of_lt hab)
    · rcases cases3 q hq with rfl | ⟨j, hj, rfl⟩ | rfl
      · omega
      · rw [hR i hi, hR j hj] at h
        rw [hE i hi, hE j hj, h]
      · rw [hR i hi, hRn] at h; exact absurd h (ne_of_lt (hfb i hi))
    · omega

theorem foldl_min_le (l : List ℝ) : ∀ a : ℝ, l.foldl min a ≤ a ∧ ∀ x ∈ l, l.foldl min a ≤ x := by
  induction l with
  | nil => intro a; simp
  | cons y l ih =>
    intro a
    rw [List.foldl_cons]
    obtain ⟨h1, h2⟩ := ih (min a y)
    refine ⟨h1.trans (min_le_left _ _), ?_⟩
    intro x hx
    rcases List.mem_cons.1 hx with rfl | hx
    · exact h1.trans (min_le_right _ _)
    · exact h2 x hx

theorem le_foldl_max (l : List ℝ) : ∀ a : ℝ, a ≤ l.foldl max a ∧ ∀ x ∈ l, x ≤ l.foldl max a := by
  induction l with
  | nil => intro a; simp
  | cons y l ih =>
    intro a
    rw [List.foldl_cons]
    obtain ⟨h1, h2⟩ := ih (max a y)
    refine ⟨(le_max_left _ _).trans h1, ?_⟩
    intro x hx
    rcases List.mem_cons.1 hx with rfl | hx
    · exact (le_max_right _ _).trans h1
    · exact h2 x hx

theorem colMin_le (P : List (Fin (m + 1) → ℝ)) (k : Fin (m + 1)) {y : Fin (m + 1) → ℝ} (hy : y ∈ P) :
    colMin P k ≤ y k := (foldl_min_le _ _).2 _ (List.mem_map.2 ⟨y, hy, rfl⟩)

theorem le_colMax (P : List (Fin (m + 1) → ℝ)) (k : Fin (m + 1)) {y : Fin (m + 1) → ℝ} (hy : y ∈ P) :
    y k ≤ colMax P k := (le_foldl_max _ _).2 _ (List.mem_map.2 ⟨y, hy, rfl⟩)

/-- The bound at a grid position. -/
noncomputable def gridE (argsort : List ℝ → List ℕ) (ref : Fin (m + 1) → ℝ) (P : List (Fin (m + 1) → ℝ))
    (k : Fin (m + 1)) (p : ℕ) : EReal := augBound ref P k (entryAt (augIndices argsort P k) p)

/-- The value at a grid position while dividing. -/
noncomputable def gridR (argsort : List ℝ → List ℕ) (P : List (Fin (m + 1) → ℝ)) (k : Fin (m + 1)) (p : ℕ) : ℝ :=
  augValue P k (entryAt (augIndices argsort P k) p)

theorem getD_ends {α : Type*} (a b d : α) (l : List α) :
    ([a] ++ l ++ [b]).getD 0 d = a ∧ (∀ i x, l[i]? = some x → ([a] ++ l ++ [b]).getD (i + 1) d = x) ∧
      ([a] ++ l ++ [b]).getD (l.length + 1) d = b := by
  refine ⟨by simp, ?_, ?_⟩
  · intro i x h
    have hi := (List.getElem?_eq_some_iff.1 h).1
    rw [List.getD_eq_getElem?_getD, List.append_assoc, List.singleton_append, List.getElem?_cons_succ,
      List.getElem?_append_left hi, h]
    rfl
  · rw [List.getD_eq_getElem?_getD, List.append_assoc, List.singleton_append, List.getElem?_cons_succ,
      List.getElem?_append_right (le_refl _), Nat.sub_self]
    rfl

/-- The values of objective `k` in sorted order. -/
theorem grid_facts {argsort : List ℝ → List ℕ} (hs : Sorts argsort) (P : List (Fin (m + 1) → ℝ))
    (k : Fin (m + 1)) :
    entryAt (augIndices argsort P k) 0 = 0 ∧ entryAt (augIndices argsort P k) (P.length + 1) = P.length + 1 ∧
    ∃ f : ℕ → ℝ, (∀ i j, i ≤ j → j < P.length → f i ≤ f j) ∧
      (∀ y ∈ P, ∃ i, i < P.length ∧ f i = y k) ∧ (∀ i, i < P.length → ∃ y ∈ P, f i = y k) ∧
      ∀ i, i < P.length → ∃ a y, P[a]? = some y ∧ f i = y k ∧ entryAt (augIndices argsort P k) (i + 1) = a + 1 := by
  set col := P.map (fun y => y k) with hcol
  obtain ⟨hperm, hsort⟩ := hs col
  have hlen : (argsort col).length = P.length := by
    rw [hperm.length_eq, List.length_range, hcol, List.length_map]
  obtain ⟨g1, g2, g3⟩ := getD_ends 0 (P.length + 1) 0 ((argsort col).map (· + 1))
  have hg3 : entryAt (augIndices argsort P k) (P.length + 1) = P.length + 1 := by
    unfold entryAt augIndices
    rw [← hcol]
    have : ((argsort col).map (· + 1)).length = P.length := by rw [List.length_map, hlen]
    rw [this] at g3
    exact g3
  refine ⟨?_, hg3, ?_⟩
  · unfold entryAt augIndices; exact g1
  · -- position i of the order points at a row
    have hrow : ∀ i, i < P.length → ∃ a y, (argsort col)[i]? = some a ∧ P[a]? = some y := by
      intro i hi
      have h1 : i < (argsort col).length := by omega
      refine ⟨(argsort col)[i], ?_⟩
      have hmem : (argsort col)[i] ∈ List.range col.length := hperm.mem_iff.1 (List.getElem_mem h1)
      have hl : col.length = P.length := by rw [hcol, List.length_map]
      rw [List.mem_range, hl] at hmem
      exact ⟨P[(argsort col)[i]], List.getElem?_eq_getElem h1, List.getElem?_eq_getElem hmem⟩
    refine ⟨fun i => ((argsort col)[i]?.bind (fun a => col[a]?)).getD 0, ?_, ?_, ?_, ?_⟩
    · intro i j hij hj
      obtain ⟨a, y, h1, h2⟩ := hrow i (by omega)
      obtain ⟨b, z, h3, h4⟩ := hrow j hj
      have ca : col[a]? = some (y k) := by rw [hcol, List.getElem?_map, h2]; rfl
      have cb : col[b]? = some (z k) := by rw [hcol, List.getElem?_map, h4]; rfl
      simp only [h1, h3, Option.bind_some, ca, cb, Option.getD_some]
      rcases Nat.eq_or_lt_of_le hij with rfl | hlt
      · rw [h1] at h3; cases h3
        rw [h2] at h4; cases h4
        exact le_refl _
      · have hi' := (List.getElem?_eq_some_iff.1 h1)
        have hj' := (List.getElem?_eq_some_iff.1 h3)
        obtain ⟨hi1, hi2⟩ := hi'
        obtain ⟨hj1, hj2⟩ := hj'
        have := List.pairwise_iff_getElem.1 hsort i j hi1 hj1 hlt
        rw [hi2, hj2] at this
        exact this _ _ ca cb
    · intro y hy
      obtain ⟨a, ha⟩ := List.mem_iff_getElem?.1 hy
      have hal : a < P.length := (List.getElem?_eq_some_iff.1 ha).1
      have hmem : a ∈ argsort col := hperm.mem_iff.2 (by rw [List.mem_range, hcol, List.length_map]; exact hal)
      obtain ⟨i, hi⟩ := List.mem_iff_getElem?.1 hmem
      have ca : col[a]? = some (y k) := by rw [hcol, List.getElem?_map, ha]; rfl
      refine ⟨i, ?_, ?_⟩
      · rw [← hlen]; exact (List.getElem?_eq_some_iff.1 hi).1
      · simp only [hi, Option.bind_some, ca, Option.getD_some]
    · intro i hi
      obtain ⟨a, y, h1, h2⟩ := hrow i hi
      have ca : col[a]? = some (y k) := by rw [hcol, List.getElem?_map, h2]; rfl
      exact ⟨y, List.mem_of_getElem? h2, by simp only [h1, Option.bind_some, ca, Option.getD_some]⟩
    · intro i hi
      obtain ⟨a, y, h1, h2⟩ := hrow i hi
      have ca : col[a]? = some (y k) := by rw [hcol, List.getElem?_map, h2]; rfl
      refine ⟨a, y, h2, by simp only [h1, Option.bind_some, ca, Option.getD_some], ?_⟩
      unfold entryAt augIndices
      rw [← hcol]
      exact g2 i (a + 1) (by rw [List.getElem?_map, h1]; rfl)

theorem augBound_facts (ref : Fin (m + 1) → ℝ) (P : List (Fin (m + 1) → ℝ)) (k : Fin (m + 1)) :
    augBound ref P k 0 = ⊥ ∧ (∀ a y, P[a]? = some y → augBound ref P k (a + 1) = (y k : EReal)) ∧
      augBound ref P k (P.length + 1) = ((- ref k : ℝ) : EReal) := by
  obtain ⟨g1, g2, g3⟩ := getD_ends (⊥ : EReal) ((- ref k : ℝ) : EReal) 0
    (P.map (fun y : Fin (m + 1) → ℝ => ((y k : ℝ) : EReal)))
  refine ⟨g1, ?_, ?_⟩
  · intro a y h
    exact g2 a _ (by rw [List.getElem?_map, h]; rfl)
  · rw [List.length_map] at g3
    exact g3

theorem augValue_facts (P : List (Fin (m + 1) → ℝ)) (k : Fin (m + 1)) :
    augValue P k 0 = colMin P k - 1 ∧ (∀ a y, P[a]? = some y → augValue P k (a + 1) = y k) ∧
      augValue P k (P.length + 1) = colMax P k + 1 := by
  obtain ⟨g1, g2, g3⟩ := getD_ends (colMin P k - 1) (colMax P k + 1) 0 (P.map (fun y => y k))
  refine ⟨g1, ?_, ?_⟩
  · intro a y h
    exact g2 a _ (by rw [List.getElem?_map, h]; rfl)
  · rw [List.length_map] at g3
    exact g3

theorem grid_ok {argsort : List ℝ → List ℕ} (hs : Sorts argsort) {ref : Fin (m + 1) → ℝ}
    {P : List (Fin (m + 1) → ℝ)} (hne : P ≠ []) (hbelow : ∀ p ∈ P, ∀ k, p k < - ref k) (k : Fin (m + 1)) :
    Grid P.length P k (gridE argsort ref P k) (gridR argsort P k) ∧
      gridE argsort ref P k 0 = ⊥ ∧ gridE argsort ref P k (P.length + 1) = ((- ref k : ℝ) : EReal) := by
  obtain ⟨h0, hn, f, f1, f2, f3, f4⟩ := grid_facts hs P k
  obtain ⟨b1, b2, b3⟩ := augBound_facts ref P k
  obtain ⟨v1, v2, v3⟩ := augValue_facts P k
  obtain ⟨y0, hy0⟩ := List.exists_mem_of_ne_nil P hne
  have e0 : gridE argsort ref P k 0 = ⊥ := by unfold gridE; rw [h0, b1]
  have en : gridE argsort ref P k (P.length + 1) = ((- ref k : ℝ) : EReal) := by unfold gridE; rw [hn, b3]
  refine ⟨?_, e0, en⟩
  refine grid_of (f := f) (r := - ref k) (a := colMin P k - 1) (b := colMax P k + 1) f1 f2 f3
    (fun y hy => hbelow y hy k) (fun y hy => by have := colMin_le P k hy; linarith)
    (fun y hy => by have := le_colMax P k hy; linarith) ?_ e0 ?_ ?_ ?_ en ?_
  · have h1 := colMin_le P k hy0
    have h2 := le_colMax P k hy0
    linarith
  · unfold gridR; rw [h0, v1]
  · intro i hi
    obtain ⟨a, y, h1, h2, h3⟩ := f4 i hi
    unfold gridE
    rw [h3, b2 a y h1, h2]
  · intro i hi
    obtain ⟨a, y, h1, h2, h3⟩ := f4 i hi
    unfold gridR
    rw [h3, v2 a y h1, h2]
  · unfold gridR; rw [hn, v3]

/-! ### The loop -/

/-- A cell of grid positions that is not degenerate. -/
def CellOk (n : ℕ) (c : Cell (m + 1) ℕ) : Prop := ∀ k, c.lo k < c.hi k ∧ c.hi k ≤ n + 1

/-- The number of unit cells in a cell. -/
def unitCells (c : Cell (m + 1) ℕ) : ℕ := ∏ k, (c.hi k - c.lo k)

/-- `w` lies in the cell of grid positions (minimisation, closed below and open above). -/
def InGrid (argsort : List ℝ → List ℕ) (ref : Fin (m + 1) → ℝ) (P : List (Fin (m + 1) → ℝ))
    (c : Cell (m + 1) ℕ) (w : Fin (m + 1) → ℝ) : Prop :=
  ∀ k, gridE argsort ref P k (c.lo k) ≤ (w k : EReal) ∧ (w k : EReal) < gridE argsort ref P k (c.hi k)

/-- `w` lies in the cell of row indices. -/
def InIdx (ref : Fin (m + 1) → ℝ) (P : List (Fin (m + 1) → ℝ)) (c : Cell (m + 1) ℕ) (w : Fin (m + 1) → ℝ) : Prop :=
  ∀ k, augBound ref P k (c.lo k) ≤ (w k : EReal) ∧ (w k : EReal) < augBound ref P k (c.hi k)

/-- No row of the front is at most `w`. -/
def FreeOf (P : List (Fin (m + 1) → ℝ)) (w : Fin (m + 1) → ℝ) : Prop := ∀ p ∈ P, ∃ k, w k < p k

theorem roundHalf_bounds {n : ℕ} (h : 1 < n) : 1 ≤ roundHalf n ∧ roundHalf n < n := by
  unfold roundHalf
  split_ifs <;> omega

theorem unitCells_pos {n : ℕ} {c : Cell (m + 1) ℕ} (h : CellOk n c) : 1 ≤ unitCells c := by
  unfold unitCells
  apply Nat.one_le_iff_ne_zero.2
  rw [Finset.prod_ne_zero_iff]
  intro k _
  have := (h k).1
  omega

theorem divide_facts {argsort : List ℝ → List ℕ} {ref : Fin (m + 1) → ℝ}
    {P : List (Fin (m + 1) → ℝ)}
    (hgrid : ∀ k, ∃ R, Grid P.length P k (gridE argsort ref P k) R) {c : Cell (m + 1) ℕ} (hc : CellOk P.length c)
    {d : Fin (m + 1)} (hd : 1 < c.hi d - c.lo d) :
    CellOk P.length (divideCell c d).1 ∧ CellOk P.length (divideCell c d).2 ∧
    unitCells (divideCell c d).1 + unitCells (divideCell c d).2 = unitCells c ∧
    ∀ w, (InGrid argsort ref P c w ↔ InGrid argsort ref P (divideCell c d).1 w ∨
        InGrid argsort ref P (divideCell c d).2 w) ∧
      ¬ (InGrid argsort ref P (divideCell c d).1 w ∧ InGrid argsort ref P (divideCell c d).2 w) := by
  obtain ⟨hr1, hr2⟩ := roundHalf_bounds hd
  set len := c.hi d - c.lo d with hlen
  set r := roundHalf len with hr
  have hcd := hc d
  have hmid : c.hi d - r = c.lo d + (len - r) := by omega
  have e1 : divideCell c d = (⟨c.lo, Function.update c.hi d (c.hi d - r)⟩,
      ⟨Function.update c.lo d (c.lo d + (len - r)), c.hi⟩) := rfl
  rw [e1]
  simp only
  refine ⟨?_, ?_, ?_, ?_⟩
  · intro k
    by_cases hk : k = d
    · subst hk
      simp only [Function.update_self]
      omega
    · simp only [Function.update_of_ne hk]
      exact hc k
  · intro k
    by_cases hk : k = d
    · subst hk
      simp only [Function.update_self]
      omega
    · simp only [Function.update_of_ne hk]
      exact hc k
  · unfold unitCells
    simp only
    rw [← Finset.mul_prod_erase Finset.univ _ (Finset.mem_univ d),
      ← Finset.mul_prod_erase Finset.univ (fun k => c.hi k - Function.update c.lo d (c.lo d + (len - r)) k)
        (Finset.mem_univ d),
      ← Finset.mul_prod_erase Finset.univ (fun k => c.hi k - c.lo k) (Finset.mem_univ d)]
    have p1 : ∏ k ∈ Finset.univ.erase d, (Function.update c.hi d (c.hi d - r) k - c.lo k) =
        ∏ k ∈ Finset.univ.erase d, (c.hi k - c.lo k) := by
      apply Finset.prod_congr rfl
      intro k hk
      rw [Function.update_of_ne (Finset.ne_of_mem_erase hk)]
    have p2 : ∏ k ∈ Finset.univ.erase d, (c.hi k - Function.update c.lo d (c.lo d + (len - r)) k) =
        ∏ k ∈ Finset.univ.erase d, (c.hi k - c.lo k) := by
      apply Finset.prod_congr rfl
      intro k hk
      rw [Function.update_of_ne (Finset.ne_of_mem_erase hk)]
    rw [p1, p2, ← Nat.add_mul]
    congr 1
    simp only [Function.update_self]
    omega
  · intro w
    obtain ⟨R, hg⟩ := hgrid d
    have m1 : gridE argsort ref P d (c.lo d) ≤ gridE argsort ref P d (c.hi d - r) :=
      hg.mono _ _ (by omega) (by omega)
    have m2 : gridE argsort ref P d (c.hi d - r) ≤ gridE argsort ref P d (c.hi d) :=
      hg.mono _ _ (by omega) (by omega)
    constructor
    · constructor
      · intro h
        rcases lt_or_ge ((w d : EReal)) (gridE argsort ref P d (c.hi d - r)) with hlt | hge
        · left
          intro k
          by_cases hk : k = d
          · subst hk
            simp only [Function.update_self]
            exact ⟨(h k).1, hlt⟩
          · simp only [Function.update_of_ne hk]
            exact h k
        · right
          intro k
          by_cases hk : k = d
          · subst hk
            simp only [Function.update_self]
            rw [← hmid]
            exact ⟨hge, (h k).2⟩
          · simp only [Function.update_of_ne hk]
            exact h k
      · rintro (h | h) k
        · have := h k
          by_cases hk : k = d
          · subst hk
            simp only [Function.update_self] at this
            exact ⟨this.1, lt_of_lt_of_le this.2 m2⟩
          · simpa only [Function.update_of_ne hk] using this
        · have := h k
          by_cases hk : k = d
          · subst hk
            simp only [Function.update_self] at this
            rw [← hmid] at this
            exact ⟨le_trans m1 this.1, this.2⟩
          · simpa only [Function.update_of_ne hk] using this
    · rintro ⟨h1, h2⟩
      have a1 := (h1 d).2
      have a2 := (h2 d).1
      simp only [Function.update_self] at a1 a2
      rw [← hmid] at a2
      exact absurd a1 (not_lt.2 a2)

/-- What the verdict on one cell means. -/
theorem judge_facts {argsort : List ℝ → List ℕ} {argmax : (Fin (m + 1) → ℕ) → Fin (m + 1)} (hmax : PicksMax argmax)
    {alpha : ℝ} {ref : Fin (m + 1) → ℝ} {P : List (Fin (m + 1) → ℝ)} (hne : P ≠ [])
    (hgrid : ∀ k, Grid P.length P k (gridE argsort ref P k) (gridR argsort P k)) {c : Cell (m + 1) ℕ}
    (hc : CellOk P.length c) :
    match judgeCell argsort argmax alpha P c with
    | .accept i => i = cellIndices argsort P c ∧ ∀ w, InGrid argsort ref P c w → FreeOf P w
    | .divide c₁ c₂ => CellOk P.length c₁ ∧ CellOk P.length c₂ ∧ unitCells c₁ + unitCells c₂ = unitCells c ∧
        ∀ w, (InGrid argsort ref P c w ↔ InGrid argsort ref P c₁ w ∨ InGrid argsort ref P c₂ w) ∧
          ¬ (InGrid argsort ref P c₁ w ∧ InGrid argsort ref P c₂ w)
    | .discard => alpha ≤ 0 → ∀ w, InGrid argsort ref P c w → ¬ FreeOf P w := by
  have hlo : ∀ k, augValue P k ((cellIndices argsort P c).lo k) = gridR argsort P k (c.lo k) := fun k => rfl
  have hhi : ∀ k, augValue P k ((cellIndices argsort P c).hi k) = gridR argsort P k (c.hi k) := fun k => rfl
  unfold judgeCell
  simp only [hlo, hhi]
  split_ifs with h1 h2 h3
  · refine ⟨rfl, ?_⟩
    intro w hw p hp
    obtain ⟨k, hk⟩ := h1 p hp
    refine ⟨k, ?_⟩
    have := ((hgrid k).cmp p hp (c.hi k) (hc k).2).1 hk
    exact EReal.coe_lt_coe_iff.1 (lt_of_lt_of_le (hw k).2 this)
  · obtain ⟨⟨k, hk⟩, -⟩ := h3
    have hd : 1 < c.hi (argmax (fun k => c.hi k - c.lo k)) - c.lo (argmax (fun k => c.hi k - c.lo k)) :=
      lt_of_lt_of_le hk (hmax (fun k => c.hi k - c.lo k) k)
    exact divide_facts (fun k => ⟨_, hgrid k⟩) hc hd
  · intro halpha w hw hfree
    rw [not_and_or] at h3
    by_cases hadj : ∃ k, c.hi k - c.lo k > 1
    · -- no volume: the cell is empty
      have hvol := h3.resolve_left (not_not.2 hadj)
      have htot : 0 < ∏ k, ((colMax P k + 1) - (colMin P k - 1)) := by
        apply Finset.prod_pos
        intro k _
        obtain ⟨y, hy⟩ := List.exists_mem_of_ne_nil P hne
        have a1 := colMin_le P k hy
        have a2 := le_colMax P k hy
        linarith
      have hall : ∀ k, 0 < gridR argsort P k (c.hi k) - gridR argsort P k (c.lo k) := by
        intro k
        have hle := (hgrid k).monoR (c.lo k) (c.hi k) (hc k).1.le (hc k).2
        rcases eq_or_lt_of_le hle with heq | hlt
        · exfalso
          have := (hgrid k).zero (c.lo k) (c.hi k) (hc k).1 (hc k).2 heq
          have h := hw k
          rw [this] at h
          exact absurd h.2 (not_lt.2 h.1)
        · linarith
      apply hvol
      refine lt_of_le_of_lt halpha ?_
      exact div_pos (Finset.prod_pos (fun k _ => hall k)) htot
    · -- adjacent: the lower corner is dominated
      push Not at hadj h1
      obtain ⟨y, hy, hyk⟩ := h1
      obtain ⟨k, hk⟩ := hfree y hy
      have hk1 : c.hi k = c.lo k + 1 := by
        have a := hadj k
        have b := (hc k).1
        omega
      have hlt : (y k : EReal) < gridE argsort ref P k (c.lo k + 1) := by
        rw [← hk1, ← not_le, ← (hgrid k).cmp y hy (c.hi k) (hc k).2, not_le]
        exact hyk k
      have hle := (hgrid k).adj y hy (c.lo k) (by have := (hc k).2; omega) hlt
      have := le_trans hle (hw k).1
      rw [EReal.coe_le_coe_iff] at this
      exact absurd hk (not_lt.2 this)
  · intro _ w hw hfree
    push Not at h2
    obtain ⟨y, hy, hyk⟩ := h2
    obtain ⟨k, hk⟩ := hfree y hy
    have hlt : (y k : EReal) < gridE argsort ref P k (c.lo k) := by
      rw [← not_le, ← (hgrid k).cmp y hy (c.lo k) (by have := hc k; omega), not_le]
      exact hyk k
    have := lt_of_lt_of_le hlt (hw k).1
    rw [EReal.coe_lt_coe_iff] at this
    exact absurd hk (not_lt.2 this.le)

open Classical in
/-- How many accepted cells contain `w`. -/
noncomputable def idxCount (ref : Fin (m + 1) → ℝ) (P : List (Fin (m + 1) → ℝ)) (cs : List (Cell (m + 1) ℕ))
    (w : Fin (m + 1) → ℝ) : ℕ := cs.countP (fun c => decide (InIdx ref P c w))

open Classical in
/-- How many cells of the stack contain `w`. -/
noncomputable def gridCount (argsort : List ℝ → List ℕ) (ref : Fin (m + 1) → ℝ) (P : List (Fin (m + 1) → ℝ))
    (cs : List (Cell (m + 1) ℕ)) (w : Fin (m + 1) → ℝ) : ℕ :=
  cs.countP (fun c => decide (InGrid argsort ref P c w))

theorem loop_facts {argsort : List ℝ → List ℕ} {argmax : (Fin (m + 1) → ℕ) → Fin (m + 1)} (hmax : PicksMax argmax)
    {alpha : ℝ} {ref : Fin (m + 1) → ℝ} {P : List (Fin (m + 1) → ℝ)} (hne : P ≠ [])
    (hgrid : ∀ k, Grid P.length P k (gridE argsort ref P k) (gridR argsort P k)) :
    ∀ (fuel : ℕ) (stack acc : List (Cell (m + 1) ℕ)), (∀ c ∈ stack, CellOk P.length c) →
      (stack.map (fun c => 2 * unitCells c - 1)).sum < fuel →
      (binLoop argsort argmax alpha P fuel stack acc).1 = [] ∧
      ∀ w,
        (FreeOf P w → idxCount ref P (binLoop argsort argmax alpha P fuel stack acc).2 w ≤
          idxCount ref P acc w + gridCount argsort ref P stack w) ∧
        (FreeOf P w → alpha ≤ 0 → idxCount ref P (binLoop argsort argmax alpha P fuel stack acc).2 w =
          idxCount ref P acc w + gridCount argsort ref P stack w) ∧
        (¬ FreeOf P w → idxCount ref P (binLoop argsort argmax alpha P fuel stack acc).2 w =
          idxCount ref P acc w) := by
  classical
  intro fuel
  induction fuel with
  | zero => intro stack acc _ h; exact absurd h (Nat.not_lt_zero _)
  | succ fuel ih =>
    intro stack acc hok hfuel
    cases stack with
    | nil =>
      refine ⟨rfl, fun w => ⟨fun _ => ?_, fun _ _ => ?_, fun _ => rfl⟩⟩
      · simp [binLoop]
      · simp [binLoop, gridCount]
    | cons c stack =>
      have hc := hok c (by simp)
      have hrest : ∀ c' ∈ stack, CellOk P.length c' := fun c' h => hok c' (by simp [h])
      have hpos := unitCells_pos hc
      rw [List.map_cons, List.sum_cons] at hfuel
      have hj := judge_facts (alpha := alpha) hmax hne hgrid hc
      have hcount : ∀ w, gridCount argsort ref P (c :: stack) w =
          gridCount argsort ref P stack w + if InGrid argsort ref P c w then 1 else 0 := by
        intro w
        unfold gridCount
        rw [List.countP_cons]
        simp
      rcases hv : judgeCell argsort argmax alpha P c with i | ⟨c₁, c₂⟩ | _
      · rw [hv] at hj
        obtain ⟨rfl, hfree⟩ := hj
        have hrun : binLoop argsort argmax alpha P (fuel + 1) (c :: stack) acc =
            binLoop argsort argmax alpha P fuel stack (acc ++ [cellIndices argsort P c]) := by
          rw [binLoop, hv]
        rw [hrun]
        obtain ⟨i1, i2⟩ := ih stack (acc ++ [cellIndices argsort P c]) hrest (by omega)
        refine ⟨i1, fun w => ?_⟩
        have hacc : idxCount ref P (acc ++ [cellIndices argsort P c]) w =
            idxCount ref P acc w + if InGrid argsort ref P c w then 1 else 0 := by
          unfold idxCount
          rw [List.countP_append, List.countP_singleton]
          congr 1
          have : InIdx ref P (cellIndices argsort P c) w ↔ InGrid argsort ref P c w := Iff.rfl
          simp [this]
        obtain ⟨j1, j2, j3⟩ := i2 w
        rw [hacc] at j1 j2 j3
        rw [hcount]
        refine ⟨fun h => ?_, fun h h' => ?_, fun h => ?_⟩
        · have := j1 h; omega
        · have := j2 h h'; omega
        · rw [j3 h, if_neg (fun hin => h (hfree w hin))]; rfl
      · rw [hv] at hj
        obtain ⟨k1, k2, k3, k4⟩ := hj
        have hrun : binLoop argsort argmax alpha P (fuel + 1) (c :: stack) acc =
            binLoop argsort argmax alpha P fuel (c₂ :: c₁ :: stack) acc := by
          rw [binLoop, hv]
        rw [hrun]
        have p1 := unitCells_pos k1
        have p2 := unitCells_pos k2
        obtain ⟨i1, i2⟩ := ih (c₂ :: c₁ :: stack) acc (by
          intro c' h
          rcases List.mem_cons.1 h with rfl | h
          · exact k2
          · rcases List.mem_cons.1 h with rfl | h
            · exact k1
            · exact hrest c' h) (by
          simp only [List.map_cons, List.sum_cons]
          omega)
        refine ⟨i1, fun w => ?_⟩
        have hc2 : gridCount argsort ref P (c₂ :: c₁ :: stack) w = gridCount argsort ref P (c :: stack) w := by
          rw [hcount]
          unfold gridCount
          rw [List.countP_cons, List.countP_cons]
          obtain ⟨q1, q2⟩ := k4 w
          by_cases hA : InGrid argsort ref P c₁ w
          · by_cases hB : InGrid argsort ref P c₂ w
            · exact absurd ⟨hA, hB⟩ q2
            · simp [hA, hB, q1.2 (Or.inl hA)]
          · by_cases hB : InGrid argsort ref P c₂ w
            · simp [hA, hB, q1.2 (Or.inr hB)]
            · have : ¬ InGrid argsort ref P c w := fun h => (q1.1 h).elim hA hB
              simp [hA, hB, this]
        rw [← hc2]
        exact i2 w
      · rw [hv] at hj
        have hrun : binLoop argsort argmax alpha P (fuel + 1) (c :: stack) acc =
            binLoop argsort argmax alpha P fuel stack acc := by
          rw [binLoop, hv]
        rw [hrun]
        obtain ⟨i1, i2⟩ := ih stack acc hrest (by omega)
        refine ⟨i1, fun w => ?_⟩
        obtain ⟨j1, j2, j3⟩ := i2 w
        rw [hcount]
        refine ⟨fun h => ?_, fun h h' => ?_, j3⟩
        · have := j1 h; omega
        · rw [j2 h h', if_neg (fun hin => hj h' w hin h)]; rfl

theorem wholeCell_ok (n : ℕ) : CellOk n (wholeCell (m := m) n) := fun _ => ⟨Nat.succ_pos n, le_refl _⟩

theorem wholeCell_units (n : ℕ) : unitCells (wholeCell (m := m) n) = (n + 1) ^ (m + 1) := by
  simp [unitCells, wholeCell]

/-- The accepted cells, counted at a vector. -/
theorem binPartition_count {argsort : List ℝ → List ℕ} (hs : Sorts argsort)
    {argmax : (Fin (m + 1) → ℕ) → Fin (m + 1)} (hmax : PicksMax argmax)
    {alpha : ℝ} {ref : Fin (m + 1) → ℝ} {P : List (Fin (m + 1) → ℝ)} (hbelow : ∀ p ∈ P, ∀ k, p k < - ref k)
    (w : Fin (m + 1) → ℝ) :
    (FreeOf P w → (∀ k, w k < - ref k) → idxCount ref P (binPartition argsort argmax alpha P) w ≤ 1) ∧
    (FreeOf P w → (∀ k, w k < - ref k) → alpha ≤ 0 → idxCount ref P (binPartition argsort argmax alpha P) w = 1) ∧
    (¬ (FreeOf P w ∧ ∀ k, w k < - ref k) → idxCount ref P (binPartition argsort argmax alpha P) w = 0) := by
  classical
  unfold binPartition
  split_ifs with h0
  · have hnil := List.length_eq_zero_iff.1 h0
    subst hnil
    have hin : InIdx ref [] (cellIndices argsort [] (wholeCell (m := m) 0)) w ↔ ∀ k, w k < - ref k := by
      unfold InIdx
      refine forall_congr' (fun k => ?_)
      obtain ⟨h1, h2, -⟩ := grid_facts hs ([] : List (Fin (m + 1) → ℝ)) k
      obtain ⟨b1, -, b3⟩ := augBound_facts ref [] k
      have e1 : (cellIndices argsort [] (wholeCell (m := m) 0)).lo k = 0 := h1
      have e2 : (cellIndices argsort [] (wholeCell (m := m) 0)).hi k = 1 := h2
      rw [e1, e2, b1]
      rw [show augBound ref [] k 1 = ((- ref k : ℝ) : EReal) from b3, EReal.coe_lt_coe_iff]
      exact and_iff_right bot_le
    have hcnt : idxCount ref [] [cellIndices argsort [] (wholeCell (m := m) 0)] w =
        if ∀ k, w k < - ref k then 1 else 0 := by
      unfold idxCount
      rw [List.countP_singleton]
      simp [hin]
    simp only [List.length_nil]
    rw [hcnt]
    refine ⟨fun _ h => by rw [if_pos h], fun _ h _ => by rw [if_pos h], fun h => ?_⟩
    rw [if_neg (fun h' => h ⟨by intro p hp; simp at hp, h'⟩)]
  · have hne : P ≠ [] := fun h => h0 (by rw [h]; rfl)
    have hgrid := fun k => (grid_ok hs hne hbelow k).1
    obtain ⟨-, h2⟩ := loop_facts (alpha := alpha) hmax hne hgrid (2 * (P.length + 1) ^ (m + 1))
      [wholeCell P.length] [] (by
        intro c hc
        rw [List.mem_singleton] at hc
        rw [hc]; exact wholeCell_ok _) (by
        have hp := unitCells_pos (wholeCell_ok (m := m) P.length)
        rw [List.map_singleton, List.sum_singleton, wholeCell_units]
        rw [wholeCell_units] at hp
        omega)
    obtain ⟨j1, j2, j3⟩ := h2 w
    have hin : InGrid argsort ref P (wholeCell P.length) w ↔ ∀ k, w k < - ref k := by
      unfold InGrid
      refine forall_congr' (fun k => ?_)
      obtain ⟨-, e1, e2⟩ := grid_ok hs hne hbelow k
      show gridE argsort ref P k 0 ≤ _ ∧ _ < gridE argsort ref P k (P.length + 1) ↔ _
      rw [e1, e2, EReal.coe_lt_coe_iff]
      exact and_iff_right bot_le
    have hcnt : gridCount argsort ref P [wholeCell P.length] w = if ∀ k, w k < - ref k then 1 else 0 := by
      unfold gridCount
      rw [List.countP_singleton]
      simp [hin]
    have hz : idxCount ref P [] w = 0 := rfl
    rw [hcnt, hz] at j1 j2
    rw [hz] at j3
    refine ⟨fun h h' => ?_, fun h h' ha => ?_, fun h => ?_⟩
    · have := j1 h; rw [if_pos h'] at this; omega
    · have := j2 h ha; rw [if_pos h'] at this; omega
    · by_cases hf : FreeOf P w
      · have := j1 hf
        rw [if_neg (fun h' => h ⟨hf, h'⟩)] at this
        omega
      · exact j3 hf

/-! ### Two objectives -/

theorem argsort_of_decreasing {argsort : List ℝ → List ℕ} (hs : Sorts argsort) (l : List ℝ)
    (hl : l.Pairwise (fun a b => b < a)) : argsort l = (List.range l.length).reverse := by
  obtain ⟨hperm, hsort⟩ := hs l
  have hnd : (argsort l).Nodup := hperm.nodup_iff.2 List.nodup_range
  have hdec : (argsort l).Pairwise (fun i j => j ≤ i) := by
    have hmem : ∀ i ∈ argsort l, i < l.length := fun i hi => by simpa using hperm.mem_iff.1 hi
    refine List.Pairwise.imp_of_mem ?_ hsort
    intro i j hi hj h
    by_contra hcon
    rw [not_le] at hcon
    have hil := hmem i hi
    have hjl := hmem j hj
    have h1 := h l[i] l[j] (List.getElem?_eq_getElem hil) (List.getElem?_eq_getElem hjl)
    have h2 := List.pairwise_iff_getElem.1 hl i j hil hjl hcon
    exact absurd h2 (not_lt.2 h1)
  have hrev : ((List.range l.length).reverse).Pairwise (fun i j => j ≤ i) := by
    rw [List.pairwise_reverse]
    exact List.pairwise_lt_range.imp (fun h => h.le)
  exact List.Perm.eq_of_pairwise (fun a b _ _ h1 h2 => le_antisymm h2 h1) hdec hrev
    (hperm.trans (List.reverse_perm _).symm)

/-- The upper index of the second objective in the direct method for two objectives. -/
theorem augIndices_2d {argsort : List ℝ → List ℕ} (hs : Sorts argsort) {P : List (Fin (0 + 1 + 1) → ℝ)}
    (hdec : P.Pairwise (fun p q => q 1 < p 1)) {i : ℕ} (hi : i ≤ P.length) :
    entryAt (augIndices argsort P (Fin.last (0 + 1))) (P.length + 1 - i) =
      if i = 0 then P.length + 1 else i := by
  have hlast : (Fin.last (0 + 1)) = (1 : Fin (0 + 1 + 1)) := rfl
  rw [hlast]
  obtain ⟨h0, hn, -⟩ := grid_facts hs P 1
  split_ifs with h
  · rw [h, Nat.sub_zero]; exact hn
  · unfold entryAt augIndices
    rw [argsort_of_decreasing hs _ (by rw [List.pairwise_map]; exact hdec)]
    obtain ⟨-, g2, -⟩ := getD_ends 0 (P.length + 1) 0
      (((List.range (P.map (fun y => y 1)).length).reverse).map (· + 1))
    have := g2 (P.length - i) i (by
      rw [List.getElem?_map, List.getElem?_reverse (by simp; omega), List.length_map, List.length_range,
        List.getElem?_range (by omega)]
      simp only [Option.map_some, Option.some.injEq]
      omega)
    rw [show P.length + 1 - i = P.length - i + 1 by omega]
    exact this

/-- The slabs of the direct method, from row `i` on. -/
theorem slabs_count {ref : Fin (0 + 1 + 1) → ℝ} {P : List (Fin (0 + 1 + 1) → ℝ)} (hbelow : ∀ p ∈ P, ∀ k, p k < - ref k)
    (hsort : P.Pairwise (fun p q => p 0 < q 0 ∧ q 1 < p 1)) (w : Fin (0 + 1 + 1) → ℝ)
    (cell : ℕ → Cell (0 + 1 + 1) ℕ)
    (hcell : ∀ i, i ≤ P.length → (cell i).lo 0 = i ∧ (cell i).lo 1 = 0 ∧ (cell i).hi 0 = i + 1 ∧
      (cell i).hi 1 = if i = 0 then P.length + 1 else i) :
    ((FreeOf P w ∧ ∀ k, w k < - ref k) → idxCount ref P ((List.range (P.length + 1)).map cell) w = 1) ∧
    (¬ (FreeOf P w ∧ ∀ k, w k < - ref k) → idxCount ref P ((List.range (P.length + 1)).map cell) w = 0) := by
  classical
  obtain ⟨b10, b20, b30⟩ := augBound_facts ref P 0
  obtain ⟨b11, b21, b31⟩ := augBound_facts ref P 1
  -- membership of one slab
  have hmem : ∀ i, i ≤ P.length → (InIdx ref P (cell i) w ↔
      (augBound ref P 0 i ≤ (w 0 : EReal) ∧ (w 0 : EReal) < augBound ref P 0 (i + 1)) ∧
        (w 1 : EReal) < augBound ref P 1 (if i = 0 then P.length + 1 else i)) := by
    intro i hi
    obtain ⟨h1, h2, h3, h4⟩ := hcell i hi
    unfold InIdx
    rw [forall_fin2 (p := fun k => augBound ref P k ((cell i).lo k) ≤ (w k : EReal) ∧
      (w k : EReal) < augBound ref P k ((cell i).hi k)), h1, h2, h3, h4, b11]
    constructor
    · rintro ⟨h, -, h'⟩; exact ⟨h, h'⟩
    · rintro ⟨h, h'⟩; exact ⟨h, bot_le, h'⟩
  -- the grid of the first objective is increasing
  have hmono0 : ∀ i j, i ≤ j → j ≤ P.length + 1 → augBound ref P 0 i ≤ augBound ref P 0 j := by
    intro i j hij hj
    rcases Nat.eq_zero_or_pos i with rfl | hi
    · rw [b10]; exact bot_le
    · rcases Nat.lt_or_ge j (P.length + 1) with hj' | hj'
      · obtain ⟨i', rfl⟩ : ∃ i', i = i' + 1 := ⟨i - 1, by omega⟩
        obtain ⟨j', rfl⟩ : ∃ j', j = j' + 1 := ⟨j - 1, by omega⟩
        have hil : i' < P.length := by omega
        have hjl : j' < P.length := by omega
        rw [b20 i' _ (List.getElem?_eq_getElem hil), b20 j' _ (List.getElem?_eq_getElem hjl), EReal.coe_le_coe_iff]
        rcases Nat.eq_or_lt_of_le hij with h | h
        · have : i' = j' := by omega
          subst this; exact le_refl _
        · exact (List.pairwise_iff_getElem.1 hsort i' j' hil hjl (by omega)).1.le
      · have : j = P.length + 1 := by omega
        subst this
        rcases Nat.lt_or_ge i (P.length + 1) with hi' | hi'
        · obtain ⟨i', rfl⟩ : ∃ i', i = i' + 1 := ⟨i - 1, by omega⟩
          have hil : i' < P.length := by omega
          rw [b20 i' _ (List.getElem?_eq_getElem hil), b30, EReal.coe_le_coe_iff]
          exact (hbelow _ (List.getElem_mem hil) 0).le
        · have : i = P.length + 1 := by omega
          rw [this]
  have hcnt : idxCount ref P ((List.range (P.length + 1)).map cell) w =
      (List.range (P.length + 1)).countP (fun i => decide (InIdx ref P (cell i) w)) := by
    unfold idxCount
    rw [List.countP_map]
    rfl
  rw [hcnt]
  -- two slabs never share a vector
  have hdisj : ∀ i j, i < j → j ≤ P.length → InIdx ref P (cell i) w → ¬ InIdx ref P (cell j) w := by
    intro i j hij hj h1 h2
    rw [hmem i (by omega)] at h1
    rw [hmem j hj] at h2
    exact absurd (lt_of_lt_of_le h1.1.2 (hmono0 (i + 1) j (by omega) (by omega))) (not_lt.2 h2.1.1)
  constructor
  · rintro ⟨hfree, hw⟩
    -- the last row not right of w
    have hex : ∃ i, i ≤ P.length ∧ augBound ref P 0 i ≤ (w 0 : EReal) ∧ (w 0 : EReal) < augBound ref P 0 (i + 1) := by
      have : ∀ j, j ≤ P.length → augBound ref P 0 j ≤ (w 0 : EReal) ∨
          ∃ i, i < j ∧ augBound ref P 0 i ≤ (w 0 : EReal) ∧ (w 0 : EReal) < augBound ref P 0 (i + 1) := by
        intro j
        induction j with
        | zero => intro _; left; rw [b10]; exact bot_le
        | succ j ih =>
          intro hj
          rcases ih (by omega) with h | ⟨i, h1, h2⟩
          · rcases lt_or_ge (w 0 : EReal) (augBound ref P 0 (j + 1)) with h' | h'
            · exact Or.inr ⟨j, by omega, h, h'⟩
            · exact Or.inl h'
          · exact Or.inr ⟨i, by omega, h2⟩
      rcases this P.length (le_refl _) with h | ⟨i, h1, h2⟩
      · refine ⟨P.length, le_refl _, h, ?_⟩
        rw [b30, EReal.coe_lt_coe_iff]
        exact hw 0
      · exact ⟨i, by omega, h2⟩
    obtain ⟨i, hi, h1, h2⟩ := hex
    have hin : InIdx ref P (cell i) w := by
      rw [hmem i hi]
      refine ⟨⟨h1, h2⟩, ?_⟩
      split_ifs with h0
      · rw [b31, EReal.coe_lt_coe_iff]; exact hw 1
      · obtain ⟨i', rfl⟩ : ∃ i', i = i' + 1 := ⟨i - 1, by omega⟩
        have hil : i' < P.length := by omega
        rw [b21 i' _ (List.getElem?_eq_getElem hil), EReal.coe_lt_coe_iff]
        rw [b20 i' _ (List.getElem?_eq_getElem hil), EReal.coe_le_coe_iff] at h1
        obtain ⟨k, hk⟩ := hfree _ (List.getElem_mem hil)
        fin_cases k
        · exact absurd hk (not_lt.2 h1)
        · exact hk
    apply countP_eq_one List.nodup_range (a := i)
    · rw [List.mem_range]; omega
    · simpa using hin
    · intro j hj hjin
      rw [List.mem_range] at hj
      simp only [decide_eq_true_eq] at hjin
      rcases lt_trichotomy i j with h | h | h
      · exact absurd hjin (hdisj i j h (by omega) hin)
      · exact h.symm
      · exact absurd hin (hdisj j i h hi hjin)
  · intro hnot
    rw [List.countP_eq_zero]
    intro i hi hin
    rw [List.mem_range] at hi
    simp only [decide_eq_true_eq] at hin
    rw [hmem i (by omega)] at hin
    apply hnot
    obtain ⟨⟨h1, h2⟩, h3⟩ := hin
    have hw0 : w 0 < - ref 0 := by
      have := lt_of_lt_of_le h2 (hmono0 (i + 1) (P.length + 1) (by omega) (le_refl _))
      rw [b30, EReal.coe_lt_coe_iff] at this
      exact this
    have hw1 : w 1 < - ref 1 := by
      split_ifs at h3 with h0
      · rw [b31, EReal.coe_lt_coe_iff] at h3; exact h3
      · obtain ⟨i', rfl⟩ : ∃ i', i = i' + 1 := ⟨i - 1, by omega⟩
        have hil : i' < P.length := by omega
        rw [b21 i' _ (List.getElem?_eq_getElem hil), EReal.coe_lt_coe_iff] at h3
        exact h3.trans (hbelow _ (List.getElem_mem hil) 1)
    refine ⟨?_, (forall_fin2 (p := fun k => w k < - ref k)).2 ⟨hw0, hw1⟩⟩
    intro p hp
    obtain ⟨j, hjl, rfl⟩ := List.mem_iff_getElem.1 hp
    rcases Nat.lt_or_ge j i with hji | hji
    · -- left of or at the slab: the second objective
      refine ⟨1, ?_⟩
      rw [if_neg (by omega)] at h3
      obtain ⟨i', rfl⟩ : ∃ i', i = i' + 1 := ⟨i - 1, by omega⟩
      have hil : i' < P.length := by omega
      rw [b21 i' _ (List.getElem?_eq_getElem hil), EReal.coe_lt_coe_iff] at h3
      rcases Nat.eq_or_lt_of_le (show j ≤ i' by omega) with h | h
      · subst h; exact h3
      · exact h3.trans (List.pairwise_iff_getElem.1 hsort j i' hjl hil h).2
    · refine ⟨0, ?_⟩
      have := lt_of_lt_of_le h2 (hmono0 (i + 1) (j + 1) (by omega) (by omega))
      rw [b20 j _ (List.getElem?_eq_getElem hjl), EReal.coe_lt_coe_iff] at this
      exact this

/-! ### The class -/

theorem neg_inCell {a b : EReal} {x : ℝ} : - b < (x : EReal) ∧ (x : EReal) ≤ - a ↔
    a ≤ ((- x : ℝ) : EReal) ∧ ((- x : ℝ) : EReal) < b := by
  rw [EReal.neg_lt_comm, EReal.le_neg, EReal.coe_neg]
  exact and_comm

/-- The invariant. -/
structure BinInv (argsort : List ℝ → List ℕ) (argmax : (Fin (m + 1) → ℕ) → Fin (m + 1)) (alpha : ℝ)
    (ref : Fin (m + 1) → ℝ) (Y : List (Fin (m + 1) → ℝ)) (s : BinState m) : Prop where
  negY : s.negY = negRows Y
  front : s.negPareto = negParetoOf argsort true ref (negRows Y)
  cells : s.hypercells = binPartitionSpace argsort argmax alpha s.negPareto

theorem binHistory_inv (argsort : List ℝ → List ℕ) (argmax : (Fin (m + 1) → ℕ) → Fin (m + 1)) (alpha : ℝ)
    (ref : Fin (m + 1) → ℝ) (Ys : List (List (Fin (m + 1) → ℝ))) :
    match binHistory argsort argmax alpha ref Ys with
    | none => Ys = []
    | some s => BinInv argsort argmax alpha ref Ys.flatten s := by
  induction Ys using List.reverseRecOn with
  | nil => rfl
  | append_singleton Ys Y ih =>
    have hstep : binHistory argsort argmax alpha ref (Ys ++ [Y]) =
        some (binUpdate argsort argmax alpha ref (binHistory argsort argmax alpha ref Ys) Y) := by
      simp [binHistory, List.foldl_append]
    rw [hstep]
    simp only [List.flatten_append, List.flatten_singleton]
    rcases hh : binHistory argsort argmax alpha ref Ys with _ | s
    · rw [hh] at ih
      simp only at ih
      rw [ih]
      exact ⟨rfl, rfl, rfl⟩
    · rw [hh] at ih
      have hneg : s.negY ++ negRows Y = negRows (Ys.flatten ++ Y) := by
        rw [ih.negY]; simp [negRows]
      unfold binUpdate
      simp only
      rw [hneg]
      split_ifs with h
      · exact ⟨rfl, h.symm, ih.cells⟩
      · exact ⟨rfl, rfl, rfl⟩

/-- The reported boxes, counted at a vector. -/
theorem binInv_count {argsort : List ℝ → List ℕ} (hs : Sorts argsort) {argmax : (Fin (m + 1) → ℕ) → Fin (m + 1)}
    (hmax : PicksMax argmax) {alpha : ℝ} {ref : Fin (m + 1) → ℝ} {Y : List (Fin (m + 1) → ℝ)} {s : BinState m}
    (h : BinInv argsort argmax alpha ref Y s) (v : Fin (m + 1) → ℝ) :
    (v ∈ improvementRegion ref Y → coverage (binBounds ref s) (fun k => (v k : EReal)) ≤ 1) ∧
    (v ∈ improvementRegion ref Y → (alpha ≤ 0 ∨ m + 1 = 2) →
      coverage (binBounds ref s) (fun k => (v k : EReal)) = 1) ∧
    (v ∉ improvementRegion ref Y → coverage (binBounds ref s) (fun k => (v k : EReal)) = 0) := by
  classical
  have hok := frontOk_of_perm hs true ref Y
  have hreg := improvement_iff hs true ref Y v
  rw [← h.front] at hok hreg
  set w : Fin (m + 1) → ℝ := fun k => - v k with hw
  have hcov : coverage (binBounds ref s) (fun k => (v k : EReal)) = idxCount ref s.negPareto s.hypercells w := by
    unfold coverage binBounds idxCount
    rw [List.countP_map]
    apply List.countP_congr
    intro c _
    simp only [Function.comp, decide_eq_true_eq]
    unfold InCell StrictlyBelow WeaklyBelow InIdx
    rw [← forall_and]
    exact forall_congr' (fun k => neg_inCell)
  have hreg' : v ∈ improvementRegion ref Y ↔ (FreeOf s.negPareto w ∧ ∀ k, w k < - ref k) := by
    rw [hreg, and_comm]
    apply and_congr
    · unfold FreeOf
      refine forall_congr' (fun p => forall_congr' (fun _ => ?_))
      push Not
      rfl
    · refine forall_congr' (fun k => ?_)
      rw [hw]
      exact neg_lt_neg_iff.symm
  rw [hreg', hcov, h.cells]
  unfold binPartitionSpace
  split_ifs with hm
  · obtain rfl : m = 0 + 1 := by omega
    have hsorted : s.negPareto.Pairwise (fun p q => p 0 ≤ q 0) := by
      rw [h.front]
      unfold negParetoOf
      split_ifs with h3 h4
      · rw [List.length_eq_zero_iff.1 h3]; exact List.Pairwise.nil
      · exact pickRows_sorted hs _
      · exact absurd rfl h4
    have hs2 := front_sorted2 hok hsorted
    have key := slabs_count hok.below hs2 w (fun i =>
      ⟨fun k => if k = 0 then i else 0, fun k => if k = 0 then 1 + i else
        entryAt (augIndices argsort s.negPareto (Fin.last (0 + 1))) (s.negPareto.length + 1 - i)⟩) (by
      intro i hi
      refine ⟨rfl, rfl, Nat.add_comm 1 i, ?_⟩
      exact augIndices_2d hs (hs2.imp (fun h => h.2)) hi)
    refine ⟨fun h => le_of_eq (key.1 h), fun h _ => key.1 h, fun h => key.2 h⟩
  · obtain ⟨k1, k2, k3⟩ := binPartition_count hs hmax (alpha := alpha) hok.below w
    refine ⟨fun h => k1 h.1 h.2, fun h ha => k2 h.1 h.2 (ha.resolve_right hm), fun h => k3 h⟩

end Verif.Proofs
