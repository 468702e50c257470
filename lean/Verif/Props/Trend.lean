import Verif.Spec.Trend
import Mathlib.Algebra.Order.Ring.Rat
import Mathlib.Algebra.Field.Rat
import Mathlib.Data.List.Nodup
import Mathlib.Data.List.Range
import Mathlib.Tactic.Ring
import Mathlib.Tactic.Linarith

/-! # C41: trend functions -/
namespace Verif.Props
open Verif.Model Verif.Spec

variable {K : Type*} [Field K]

/-- The columns of the three trends, in order. -/
def columns (k : TrendKind) (n : ℕ) : List Monomial :=
  match k with
  | .constant => [.one]
  | .linear => .one :: (List.range n).map .lin
  | .quadratic => (.one :: (List.range n).map .lin) ++
      (List.range n).flatMap (fun i => (List.range (n - i)).map (fun d => .quad i (i + d)))

private theorem list_eq_range (n : ℕ) (x : List K) (hx : x.length = n) :
    x = (List.range n).map (fun i => x.getD i 0) := by
  apply List.ext_getElem
  · simp [hx]
  · intro i h1 h2
    simp [List.getD_eq_getElem?_getD, List.getElem?_eq_getElem h1]

private theorem row_eq (k : TrendKind) (n : ℕ) (x : List K) (hx : x.length = n) :
    trendRow k n x = (columns k n).map (Monomial.eval (fun i => x.getD i 0)) := by
  have hlin : (1 :: x : List K) = ((.one :: (List.range n).map .lin : List Monomial)).map
      (Monomial.eval (fun i => x.getD i 0)) := by
    rw [List.map_cons, List.map_map]
    congr 1
    exact list_eq_range n x hx
  cases k with
  | constant => rfl
  | linear => exact hlin
  | quadratic =>
    show (1 :: x) ++ quadProducts n x = List.map _ (_ ++ _)
    rw [List.map_append, hlin]
    congr 1
    unfold quadProducts
    rw [List.map_flatMap]
    apply List.flatMap_congr
    intro i hi
    rw [List.mem_range] at hi
    have : x.drop i = (List.range (n - i)).map (fun d => x.getD (i + d) 0) := by
      apply List.ext_getElem
      · simp [hx]
      · intro j h1 h2
        rw [List.length_drop] at h1
        simp [List.getD_eq_getElem?_getD, List.getElem?_eq_getElem (show i + j < x.length by omega)]
    rw [this, List.map_map, List.map_map]
    rfl

private theorem columns_mem (k : TrendKind) (n : ℕ) (m : Monomial) : m ∈ columns k n ↔ m.belongs k n := by
  cases k <;> cases m <;> simp [columns, Monomial.belongs]
  rename_i i j
  constructor
  · rintro ⟨ha, d, hd, rfl⟩
    omega
  · rintro ⟨h1, h2⟩
    exact ⟨by omega, j - i, by omega, by omega⟩

private theorem columns_nodup (k : TrendKind) (n : ℕ) : (columns k n).Nodup := by
  have hl : ((.one :: (List.range n).map .lin : List Monomial)).Nodup := by
    rw [List.nodup_cons]
    refine ⟨by simp, List.Nodup.map (fun a b h => by simpa using h) List.nodup_range⟩
  cases k with
  | constant => exact List.nodup_singleton _
  | linear => exact hl
  | quadratic =>
    show List.Nodup (_ ++ _)
    rw [List.nodup_append]
    refine ⟨hl, ?_, ?_⟩
    · rw [List.nodup_flatMap]
      refine ⟨fun i _ => List.Nodup.map (fun a b h => by simpa using h) List.nodup_range, ?_⟩
      refine List.Pairwise.imp ?_ (List.nodup_range (n := n))
      intro a b hab m h1 h2
      simp only [List.mem_map] at h1 h2
      obtain ⟨d, -, rfl⟩ := h1
      obtain ⟨d', -, h⟩ := h2
      simp only [Monomial.quad.injEq] at h
      exact hab h.1.symm
    · intro a ha b hb
      simp only [List.mem_cons, List.mem_map, List.mem_flatMap] at ha hb
      obtain ⟨i, -, d, -, rfl⟩ := hb
      rcases ha with rfl | ⟨j, -, rfl⟩ <;> simp

private theorem two_mul_quad (n : ℕ) :
    2 * ((List.range n).flatMap (fun i => (List.range (n - i)).map (fun d => Monomial.quad i (i + d)))).length =
      n * (n + 1) := by
  have : ∀ m ≤ n, 2 * ((List.range m).flatMap
      (fun i => (List.range (n - i)).map (fun d => Monomial.quad i (i + d)))).length + m * m = m * (2 * n + 1) := by
    intro m
    induction m with
    | zero => simp
    | succ m ih =>
      intro hm
      have := ih (by omega)
      rw [List.range_succ, List.flatMap_append, List.length_append, Nat.mul_add]
      simp only [List.flatMap_cons, List.flatMap_nil, List.append_nil, List.length_map, List.length_range]
      have h2 : 2 * (n - m) = 2 * n - 2 * m := by omega
      zify [hm, (by omega : m ≤ n)] at *
      nlinarith
  have h := this n le_rfl
  nlinarith

private theorem columns_length (k : TrendKind) (n : ℕ) : (columns k n).length = trendDim k n := by
  cases k with
  | constant => rfl
  | linear => simp [columns, trendDim]
  | quadratic =>
    have h := two_mul_quad n
    show List.length (_ ++ _) = _
    rw [List.length_append]
    simp only [List.length_cons, List.length_map, List.length_range, trendDim]
    have h2 : (n + 1) * (n + 2) = n * (n + 1) + 2 * (n + 1) := by ring
    rw [h2, ← h]
    omega

/-- C41: for every trend and every number of features there is a fixed duplicate-free list of monomials, exactly those of the
trend, of length `n_dim`, such that the basis matrix of every sample has one row per sample point, consisting of the
values of these monomials. -/
theorem c41_basis (k : TrendKind) (n : ℕ) :
    ∃ ms : List Monomial, ms.Nodup ∧ (∀ m, m ∈ ms ↔ m.belongs k n) ∧ ms.length = trendDim k n ∧
      ∀ X : Arr2 K, IsSample n X →
        trendF k n X = some (X.rows.map (fun x => ms.map (Monomial.eval (fun i => x.getD i 0)))) := by
  refine ⟨columns k n, columns_nodup k n, columns_mem k n, columns_length k n, fun X hX => ?_⟩
  obtain ⟨h1, -, h3⟩ := hX
  unfold trendF checkInput
  rw [if_pos h1, Option.map_some, Option.some.injEq]
  exact List.map_congr_left (fun x hx => row_eq k n x (h3 x hx))

/-- C41: the numbers of columns are 1, `n + 1` and `(n + 1)(n + 2) / 2` (exactly, the product is even). -/
theorem c41_sizes (n : ℕ) :
    trendDim .constant n = 1 ∧ trendDim .linear n = n + 1 ∧ 2 * trendDim .quadratic n = (n + 1) * (n + 2) := by
  refine ⟨rfl, rfl, ?_⟩
  have h : 2 ∣ (n + 1) * (n + 2) := (Nat.even_mul_succ_self (n + 1)).two_dvd
  exact Nat.mul_div_cancel' h

/-- C41: an array of another width is transposed if that helps, and refused otherwise; in particular a single row of `m`
numbers is accepted as `m` points when there is one feature. -/
theorem c41_check_input (n : ℕ) (X : Arr2 K) (h : X.ncol ≠ n) :
    (X.nrow = n → ∃ Y, checkInput n X = some Y ∧ Y.ncol = n ∧ Y.nrow = X.ncol ∧
      ∀ i j, i < X.ncol → (Y.rows.getD i []).getD j 0 = ((X.rows.map (fun r => r.getD i 0)).getD j 0)) ∧
    (X.nrow ≠ n → checkInput n X = none) := by
  constructor
  · intro hn
    refine ⟨X.T, ?_, hn, rfl, ?_⟩
    · unfold checkInput; rw [if_neg h, if_pos (show X.T.ncol = n from hn)]
    · intro i j hi
      have : X.T.rows.getD i [] = X.rows.map (fun r => r.getD i 0) := by
        rw [List.getD_eq_getElem?_getD]
        unfold Arr2.T
        simp [hi]
      rw [this]
  · intro hn
    unfold checkInput
    rw [if_neg h, if_neg (show ¬ X.T.ncol = n from hn)]

private theorem zipWith_sum_replicate (b : K) (l : List K) :
    (List.zipWith (· * ·) l (List.replicate l.length b)).sum = l.sum * b := by
  induction l with
  | nil => simp
  | cons x l ih => simp only [List.length_cons, List.replicate_succ, List.zipWith_cons_cons, List.sum_cons, ih]; ring

/-- C41: a trend with coefficients is the corresponding linear combination of its monomials; a scalar coefficient is used for all of
them, and a vector of the wrong length is refused. -/
theorem c41_call (k : TrendKind) (n : ℕ) (X : Arr2 K) (hX : IsSample n X) :
    ∃ ms : List Monomial, (∀ m, m ∈ ms ↔ m.belongs k n) ∧ ms.Nodup ∧
      (∀ b : List K, b.length = ms.length → trendCall k n (.vector b) X = some (X.rows.map (fun x =>
        (List.zipWith (fun m c => m.eval (fun i => x.getD i 0) * c) ms b).sum))) ∧
      (∀ b : List K, b.length ≠ ms.length → trendCall k n (.vector b) X = none) ∧
      trendCall k n .unset X = none ∧
      (∀ b : K, trendCall k n (.scalar b) X = some (X.rows.map (fun x =>
        (ms.map (Monomial.eval (fun i => x.getD i 0))).sum * b))) := by
  refine ⟨columns k n, columns_mem k n, columns_nodup k n, ?_, ?_, rfl, ?_⟩
  · intro b hb
    have hs : setBeta (trendDim k n) (.vector b) = some b := if_pos (hb.trans (columns_length k n))
    unfold trendCall
    rw [hs, Option.bind_some]
    unfold trendF checkInput
    rw [if_pos hX.1, Option.map_some, Option.map_some, List.map_map, Option.some.injEq]
    refine List.map_congr_left (fun x hx => ?_)
    simp only [Function.comp]
    rw [row_eq k n x (hX.2.2 x hx), List.zipWith_map_left]
  · intro b hb
    have hs : setBeta (trendDim k n) (.vector b) = none :=
      if_neg (fun h => hb (Eq.trans h (columns_length k n).symm))
    unfold trendCall
    rw [hs]
    rfl
  · intro b
    unfold trendCall setBeta
    rw [Option.bind_some]
    unfold trendF checkInput
    rw [if_pos hX.1, Option.map_some, Option.map_some, List.map_map, Option.some.injEq]
    refine List.map_congr_left (fun x hx => ?_)
    simp only [Function.comp]
    rw [row_eq k n x (hX.2.2 x hx), ← columns_length k n]
    have := zipWith_sum_replicate b ((columns k n).map (Monomial.eval (fun i => x.getD i 0)))
    rwa [List.length_map] at this

private theorem dot_unit (n i : ℕ) (h : List K) (hi : i < n) (hl : h.length = n) :
    (List.zipWith (· * ·) ((List.range n).map (fun j => if i = j then (1 : K) else 0)) h).sum = h.getD i 0 := by
  have gen : ∀ (m s : ℕ) (h : List K), h.length = m →
      (List.zipWith (· * ·) ((List.range' s m).map (fun j => if i = j then (1 : K) else 0)) h).sum =
        if s ≤ i ∧ i < s + m then h.getD (i - s) 0 else 0 := by
    intro m
    induction m with
    | zero => intro s h _; simp
    | succ m ih =>
      intro s h hl
      cases h with
      | nil => simp at hl
      | cons a h =>
        simp only [List.length_cons, Nat.add_right_cancel_iff] at hl
        rw [List.range'_succ, List.map_cons, List.zipWith_cons_cons, List.sum_cons, ih (s + 1) h hl]
        by_cases his : i = s
        · subst his
          simp
        · rw [if_neg his, zero_mul, zero_add]
          by_cases hc : s + 1 ≤ i ∧ i < s + 1 + m
          · rw [if_pos hc, if_pos (by omega)]
            obtain ⟨d, hd⟩ : ∃ d, i - s = d + 1 := ⟨i - s - 1, by omega⟩
            rw [hd, List.getD_cons_succ]
            congr 1
            omega
          · rw [if_neg hc, if_neg (by omega)]
  rw [List.range_eq_range', gen n 0 h hl, if_pos (by omega)]
  simp

/-- C41: where a Jacobian is implemented it is, at every single point, the derivative: moving from `x` by `h` changes the basis functions by exactly the
Jacobian applied to `h` (the constant and the linear basis are affine).  The quadratic trend has none. -/
theorem c41_jacobian (n : ℕ) (x h : List K) (hx : x.length = n) (hh : h.length = n) :
    (∀ k, k ≠ .quadratic → ∃ J, trendJacobian k n ⟨1, n, [x]⟩ = some J ∧ J.length = trendDim k n ∧
      trendRow k n (List.zipWith (· + ·) x h) =
        List.zipWith (fun f r => f + (List.zipWith (· * ·) r h).sum) (trendRow k n x) J) ∧
    trendJacobian .quadratic n ⟨1, n, [x]⟩ = none := by
  have hzero : (List.zipWith (· * ·) (List.replicate n (0 : K)) h).sum = 0 := by
    subst hh
    clear hx
    induction h with
    | nil => simp
    | cons a h ih => simp only [List.length_cons, List.replicate_succ, List.zipWith_cons_cons, List.sum_cons, ih]; ring
  have hc : checkInput n (⟨1, n, [x]⟩ : Arr2 K) = some ⟨1, n, [x]⟩ := if_pos rfl
  refine ⟨?_, rfl⟩
  intro k hk
  cases k with
  | constant => exact ⟨_, by unfold trendJacobian; rw [hc]; rfl, rfl, by simp [trendRow, hzero]⟩
  | linear =>
    refine ⟨_, by unfold trendJacobian; rw [hc, Option.bind_some]; exact if_pos rfl, by simp [trendDim], ?_⟩
    simp only [trendRow, List.zipWith_cons_cons, hzero, add_zero, List.cons.injEq, true_and]
    apply List.ext_getElem
    · simp [hx, hh]
    · intro i h1 h2
      have hi : i < n := by simp [hx, hh] at h1; exact h1
      rw [List.getElem_zipWith, List.getElem_zipWith, List.getElem_map]
      simp only [List.getElem_range]
      rw [dot_unit n i h hi hh, List.getD_eq_getElem?_getD, List.getElem?_eq_getElem (by omega)]
      rfl
  | quadratic => exact absurd rfl hk

/-- A sample of two points with three features. -/
example : IsSample 3 (⟨2, 3, [[1, 2, 3], [4, 5, 6]]⟩ : Arr2 ℚ) ∧
    trendF .quadratic 3 (⟨2, 3, [[1, 2, 3], [4, 5, 6]]⟩ : Arr2 ℚ) =
      some [[1, 1, 2, 3, 1, 2, 3, 4, 6, 9], [1, 4, 5, 6, 16, 20, 24, 25, 30, 36]] := by
  constructor
  · simp [IsSample]
  · decide +kernel

end Verif.Props
