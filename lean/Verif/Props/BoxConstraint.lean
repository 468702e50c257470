import Verif.Proofs.BoxConstraint
import Mathlib.Data.Rat.Floor
import Mathlib.Data.Fin.VecNotation
import Mathlib.Tactic.NormNum
import Mathlib.Tactic.FinCases
import Mathlib.Data.Fintype.Basic

/-! # Property C09: reflection repair (`handle_box_constraint`, `boundary_handling`) -/
set_option linter.unusedSectionVars false
namespace Verif.Props
open Verif.Model Verif.Proofs

variable {K : Type*} [Field K] [LinearOrder K] [IsStrictOrderedRing K] [FloorRing K]

/-- What the repair `f` of one coordinate must do on `[l, u]`. -/
structure IsReflectionRepair (l u : K) (f : K → K) : Prop where
  in_box : ∀ x, l ≤ f x ∧ f x ≤ u
  fixes_inside : ∀ x, l ≤ x → x ≤ u → f x = x
  idempotent : ∀ x, f (f x) = f x
  mirror_lower : ∀ x, f (2 * l - x) = f x
  mirror_upper : ∀ x, f (2 * u - x) = f x
  period : ∀ x, f (x + 2 * (u - l)) = f x

/-- The specification determines the repair: it is the unique function with these laws, so no other
program satisfies it. -/
theorem c09_spec_unique (l u : K) (h : l < u) (f g : K → K) (hf : IsReflectionRepair l u f)
    (hg : IsReflectionRepair l u g) : f = g := by
  have per : ∀ (f : K → K), IsReflectionRepair l u f → ∀ (n : ℕ) (x : K),
      f (x + 2 * n * (u - l)) = f x := by
    intro f hf n
    induction n with
    | zero => intro x; simp
    | succ n ih =>
      intro x
      have : x + 2 * ((n + 1 : ℕ) : K) * (u - l) = (x + 2 * n * (u - l)) + 2 * (u - l) := by
        push_cast; ring
      rw [this, hf.period, ih]
  have perZ : ∀ (f : K → K), IsReflectionRepair l u f → ∀ (n : ℤ) (x : K),
      f (x + 2 * n * (u - l)) = f x := by
    intro f hf n x
    obtain ⟨m, rfl | rfl⟩ := n.eq_nat_or_neg
    · simpa using per f hf m x
    · have := per f hf m (x + 2 * ((-(m : ℤ) : ℤ) : K) * (u - l))
      rw [← this]
      congr 1
      push_cast
      ring
  have key : ∀ (f : K → K), IsReflectionRepair l u f → ∀ x, f x = reflect l u x := by
    intro f hf x
    obtain ⟨hlo, hhi⟩ := reflect_mem h x
    rw [← hf.fixes_inside _ hlo hhi]
    obtain ⟨n, hn | hn⟩ := reflect_orbit h x
    · rw [hn, perZ f hf]
    · rw [hn, perZ f hf, hf.mirror_lower]
  funext x
  rw [key f hf, key g hg]

/-- C09, scalar law: with finite bounds `l < u` an entry is never NaN and is repaired by reflection. -/
theorem c09_entry (l u : K) (h : l < u) :
    ∃ f : K → K, (∀ x, repairEntry (.fin l) (.fin u) x = some (f x)) ∧ IsReflectionRepair l u f := by
  refine ⟨reflect l u, fun x => ?_, ?_⟩
  · simp [repairEntry, h.ne']
  · exact ⟨reflect_mem h, fun x => reflect_id h,
      fun x => reflect_id h (reflect_mem h x).1 (reflect_mem h x).2,
      reflect_mirror_lb h, reflect_mirror_ub h, reflect_translate h⟩

/-- C09: entries with an infinite bound on either side are untouched. -/
theorem c09_entry_unbounded (lb ub : Bound K) (h : lb = .nonfinite ∨ ub = .nonfinite) (x : K) :
    repairEntry lb ub x = some x := by
  rcases h with rfl | rfl
  · rfl
  · cases lb <;> rfl

/-- Boundary case outside the claim: with `lb = ub` the result is NaN, not the bound. -/
theorem c09_degenerate_box (l x : K) : repairEntry (.fin l) (.fin l) x = none := by
  simp [repairEntry]

/-- C09 for a single point of dimension `k`: coordinate `i` is repaired with bound `i`. -/
theorem c09_single_point {k : ℕ} (lb ub : Fin k → Bound K) (x : Fin k → K) :
    handleBox1 lb ub x = .ok (fun i => repairEntry (lb i) (ub i) (x i)) := by
  unfold handleBox1 handleBox
  by_cases h : 1 = k
  · subst h
    simp only [dite_true, Fin.cast_eq_self]
    congr 1
    funext i
    rw [Subsingleton.elim i 0]
  · simp [h]

/-- C09 for a batch of `n` points stored as rows, partial: if the number of points differs from the
dimension, coordinate `j` of every point is repaired with bound `j`.  Missing: `n = k`, where the code
matches rows with bounds (`c09_square_batch_misaligned`). -/
theorem c09_batch_rows_partial {n k : ℕ} (hnk : n ≠ k) (lb ub : Fin k → Bound K) (x : Fin n → Fin k → K) :
    handleBox lb ub x = .ok (fun i j => repairEntry (lb j) (ub j) (x i j)) := by
  unfold handleBox
  simp [hnk]

/-- C09 for a batch of `n` points stored as columns (as `boundary_handling` expects): always aligned. -/
theorem c09_batch_columns {n k : ℕ} (lb ub : Fin k → Bound K) (x : Fin k → Fin n → K) :
    handleBox lb ub x = .ok (fun i j => repairEntry (lb i) (ub i) (x i j)) ∧
    boundaryHandling lb ub x = fun i j => repairEntry (lb i) (ub i) (x i j) := by
  constructor
  · unfold handleBox; simp
  · rfl

/-- With `n = k = 2` points given as rows, a coordinate can leave its box: the statement of
`c09_batch_rows_partial` without `n ≠ k` is false. -/
theorem c09_square_batch_misaligned :
    ∃ (lb ub : Fin 2 → Bound ℚ) (x y : Fin 2 → Fin 2 → ℚ),
      lb = ![.fin 0, .fin 10] ∧ ub = ![.fin 1, .fin 11] ∧
      handleBox lb ub x = .ok (fun i j => some (y i j)) ∧
      -- every point of x is inside the box, yet its second coordinate is moved out of [10, 11]
      (∀ i, 0 ≤ x i 0 ∧ x i 0 ≤ 1 ∧ 10 ≤ x i 1 ∧ x i 1 ≤ 11) ∧ ¬ (10 ≤ y 0 1) := by
  refine ⟨![.fin 0, .fin 10], ![.fin 1, .fin 11], fun _ => ![0, 10], fun i j =>
    ![![reflect 0 1 0, reflect 0 1 10], ![reflect 10 11 0, reflect 10 11 10]] i j, rfl, rfl, ?_, ?_, ?_⟩
  · unfold handleBox
    simp only [dite_true]
    congr 1
    funext i j
    fin_cases i <;> fin_cases j <;> simp [repairEntry]
  · intro i; simp; norm_num
  · have := (reflect_mem (show (0 : ℚ) < 1 by norm_num) 10).2
    simp only [Matrix.cons_val_zero, Matrix.cons_val_one]
    intro h
    linarith

/-- Non-vacuity: a point far outside is reflected to a definite value (7/2 over [0,1] gives 1/2). -/
example : repairEntry (.fin (0 : ℚ)) (.fin 1) (13 / 4) = some (3 / 4) := by
  have : (⌊(13 / 4 : ℚ)⌋ : ℤ) = 3 := by
    rw [Int.floor_eq_iff]; norm_num
  simp only [repairEntry, reflect]
  norm_num [this, abs_of_nonneg]

/-- C09 for a batch of three points in a box of dimension two, with a bound that is not finite. -/
example : handleBox ![.fin 0, .nonfinite] ![.fin 1, .fin 2] ![![(13 / 4 : ℚ), 5], ![0, 0], ![-1 / 2, 1]] =
    .ok (fun i j => repairEntry (![.fin 0, .nonfinite] j) (![.fin 1, .fin 2] j) (![![13 / 4, 5], ![0, 0], ![-1 / 2, 1]] i j)) :=
  c09_batch_rows_partial (by decide) _ _ _

example : ∃ f : ℚ → ℚ, (∀ x, repairEntry (.fin (-5)) (.fin 10) x = some (f x)) ∧ IsReflectionRepair (-5) 10 f :=
  c09_entry _ _ (by norm_num)

end Verif.Props
