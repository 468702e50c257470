import Mathlib.Tactic.Linarith
import Mathlib.Tactic.NormNum
import Mathlib.Algebra.Order.Field.Basic
import Verif.Model.PredictBatch

/-!
# Property C148: prediction in batches
-/
namespace Verif.Props
open Verif.Model

/-- C148: exactly when `predict` with a batch size returns, and what.  `predict` without batch size gives one row of
`w ≥ 1` numbers per point.  With a batch size the call returns only for a positive int, a single point and a single
target, and then gives the number that the call without batch size gives. -/
theorem c148_returns_iff_partial {X K : Type*} [Zero K] (predict : List X → List (List K)) (w : ℕ) (hw : 1 ≤ w)
    (hrows : ∀ xs, (predict xs).length = xs.length) (hwidth : ∀ xs, ∀ r ∈ predict xs, r.length = w) (z : ℤ)
    (xs : List X) (hxs : xs ≠ []) (out : Predicted K) :
    predictWith predict w (.int z) xs = .ok out ↔
      0 < z ∧ xs.length = 1 ∧ w = 1 ∧ ∃ y, predict xs = [[y]] ∧ out = .vector [y] := by
  have hlen : 1 ≤ xs.length := List.length_pos_iff.2 hxs
  unfold predictWith
  by_cases hz : z ≤ 0
  · simp only [hz, if_true]
    constructor
    · intro h; cases h
    · rintro ⟨h, _⟩; omega
  simp only [hz, if_false]
  have hz' : 0 < z := by omega
  have hb : 0 < z.toNat := by omega
  have hbq : (0 : ℚ) < z.toNat := by exact_mod_cast hb
  by_cases hq : 1 < (xs.length : ℚ) / z.toNat
  · simp only [batchCount, hq, if_true]
    constructor
    · intro h; cases h
    · rintro ⟨_, h1, _⟩
      rw [h1, lt_div_iff₀ hbq] at hq
      have : (1 : ℚ) ≤ z.toNat := by exact_mod_cast hb
      push_cast at hq
      linarith
  · have hle : xs.length ≤ z.toNat := by
      rw [not_lt, div_le_iff₀ hbq, one_mul] at hq
      exact_mod_cast hq
    simp only [batchCount, hq, if_false, List.range_one, List.foldlM_cons, List.foldlM_nil]
    have hstop : min ((0 + 1) * z.toNat + 1) (xs.length + 1) = xs.length + 1 := by omega
    have hsl : slice xs 0 (xs.length + 1) = xs := by simp [slice]
    have hsy : slice (List.replicate xs.length (0 : K)) 0 (xs.length + 1) = List.replicate xs.length 0 := by
      simp [slice]
    unfold batchStep
    simp only [zero_mul]
    rw [hstop, hsl]
    have hr := hrows xs
    have hwd := hwidth xs
    unfold assignSlice
    simp only [hsy, List.length_replicate]
    match hp : predict xs with
    | [] => rw [hp] at hr; simp at hr; omega
    | [row] =>
      rw [hp] at hr hwd
      have hn : xs.length = 1 := by simpa using hr.symm
      have hrow : row.length = w := hwd row (by simp)
      by_cases h1 : w = 1
      · subst h1
        obtain ⟨x, rfl⟩ := List.length_eq_one_iff.1 hrow
        simp only [hn, if_true, List.take_zero, List.nil_append, List.drop_replicate]
        constructor
        · intro h
          cases h
          exact ⟨hz', trivial, trivial, x, rfl, by simp⟩
        · rintro ⟨_, _, _, y, hy, rfl⟩
          cases hy
          rfl
      · simp only [hn, h1, if_false]
        constructor
        · intro h
          cases w with
          | zero => omega
          | succ w =>
            cases w with
            | zero => omega
            | succ w => simp only at h; cases h
        · rintro ⟨_, _, h, _⟩
          exact absurd h (by simp)
    | r1 :: r2 :: rest =>
      constructor
      · intro h; cases h
      · rintro ⟨_, _, _, y, hy, _⟩
        cases hy

/-- C148 is false: with two points no batch size is accepted, although the call without one returns. -/
theorem c148_two_points_fail {X K : Type*} [Zero K] (predict : List X → List (List K)) (w : ℕ) (hw : 1 ≤ w)
    (hrows : ∀ xs, (predict xs).length = xs.length) (hwidth : ∀ xs, ∀ r ∈ predict xs, r.length = w)
    (xs : List X) (h2 : 2 ≤ xs.length) (batch : BatchArg) (out : Predicted K)
    (h : predictWith predict w batch xs = .ok out) : batch = .absent ∧ out = .table (predict xs) := by
  cases batch with
  | absent => cases h; exact ⟨rfl, rfl⟩
  | other => cases h
  | int z =>
    have hne : xs ≠ [] := by rintro rfl; simp at h2
    have := (c148_returns_iff_partial predict w hw hrows hwidth z xs hne out).1 h
    omega

/-- C148: which error the user sees, for a positive int and at least two points: with more points than the batch size
`range` gets a float, otherwise the result does not fit. -/
theorem c148_errors {X K : Type*} [Zero K] (predict : List X → List (List K)) (w : ℕ)
    (hrows : ∀ xs, (predict xs).length = xs.length) (z : ℤ) (hz : 0 < z) (xs : List X) (h2 : 2 ≤ xs.length) :
    predictWith predict w (.int z) xs = .error (if z < xs.length then .rangeOfFloat else .shape) := by
  have hz' : ¬ z ≤ 0 := by omega
  have hb : 0 < z.toNat := by omega
  have hbq : (0 : ℚ) < z.toNat := by exact_mod_cast hb
  unfold predictWith
  simp only [hz', if_false]
  have hiff : 1 < (xs.length : ℚ) / z.toNat ↔ z < xs.length := by
    rw [lt_div_iff₀ hbq, one_mul]
    constructor
    · intro h
      have : z.toNat < xs.length := by exact_mod_cast h
      omega
    · intro h
      have : z.toNat < xs.length := by omega
      exact_mod_cast this
  by_cases h : z < xs.length
  · simp only [batchCount, hiff, h, if_true]
  · simp only [batchCount, hiff, h, if_false, List.range_one, List.foldlM_cons, List.foldlM_nil]
    have hstop : min ((0 + 1) * z.toNat + 1) (xs.length + 1) = xs.length + 1 := by omega
    have hsl : slice xs 0 (xs.length + 1) = xs := by simp [slice]
    unfold batchStep
    simp only [zero_mul]
    rw [hstop, hsl]
    have hr := hrows xs
    unfold assignSlice
    match hp : predict xs with
    | [] => rw [hp] at hr; simp at hr; omega
    | [_] => rw [hp] at hr; simp at hr; omega
    | _ :: _ :: _ => rfl

/-- A prediction with one row per point, and the one call that works. -/
example : (∀ xs : List ℚ, (xs.map fun x => [2 * x]).length = xs.length) ∧
    (∀ xs : List ℚ, ∀ r ∈ xs.map (fun x => [2 * x]), r.length = 1) ∧
    predictWith (fun xs : List ℚ => xs.map fun x => [2 * x]) 1 (.int 10) [3] = .ok (.vector [6]) := by
  refine ⟨by simp, by simp, ?_⟩
  rw [c148_returns_iff_partial _ 1 (le_refl _) (by simp) (by simp) 10 [3] (by simp)]
  exact ⟨by norm_num, rfl, rfl, 6, by norm_num, rfl⟩

end Verif.Props
