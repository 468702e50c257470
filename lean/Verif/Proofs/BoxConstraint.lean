import Verif.Model.BoxConstraint
import Mathlib.Tactic.Linarith
import Mathlib.Tactic.Ring
import Mathlib.Tactic.FieldSimp

namespace Verif.Proofs
open Verif.Model

variable {K : Type*} [Field K] [LinearOrder K] [IsStrictOrderedRing K] [FloorRing K]

/-- The folding map on the normalised coordinate. -/
def fold (y : K) : K := if ⌊y⌋ % 2 = 0 then Int.fract y else 1 - Int.fract y

theorem reflect_eq (lb ub x : K) : reflect lb ub x = lb + (ub - lb) * fold ((x - lb) / (ub - lb)) := by
  unfold reflect fold
  have : |((x - lb) / (ub - lb)) - (⌊(x - lb) / (ub - lb)⌋ : K)| = Int.fract ((x - lb) / (ub - lb)) := by
    rw [show ((x - lb) / (ub - lb)) - (⌊(x - lb) / (ub - lb)⌋ : K) = Int.fract ((x - lb) / (ub - lb)) from rfl]
    exact abs_of_nonneg (Int.fract_nonneg _)
  simp only [this]

theorem fold_nonneg (y : K) : 0 ≤ fold y := by
  unfold fold
  split
  · exact Int.fract_nonneg y
  · linarith [Int.fract_lt_one y]

theorem fold_le_one (y : K) : fold y ≤ 1 := by
  unfold fold
  split
  · exact (Int.fract_lt_one y).le
  · linarith [Int.fract_nonneg y]

theorem fold_id {y : K} (h0 : 0 ≤ y) (h1 : y ≤ 1) : fold y = y := by
  rcases h1.lt_or_eq with h | h
  · have hf : ⌊y⌋ = 0 := Int.floor_eq_zero_iff.2 ⟨h0, h⟩
    simp [fold, hf, Int.fract]
  · subst h
    simp [fold, Int.fract]

theorem fold_add_two (y : K) : fold (y + 2) = fold y := by
  have h : ⌊y + 2⌋ = ⌊y⌋ + 2 := by
    have := Int.floor_add_intCast y 2
    push_cast at this
    exact this
  have hf : Int.fract (y + 2) = Int.fract y := by
    unfold Int.fract; rw [h]; push_cast; ring
  unfold fold
  rw [h, hf]
  have : (⌊y⌋ + 2) % 2 = ⌊y⌋ % 2 := by omega
  rw [this]

theorem fold_neg (y : K) : fold (-y) = fold y := by
  by_cases hz : Int.fract y = 0
  · -- y is an integer
    have hy : y = (⌊y⌋ : K) := by
      have := Int.self_sub_floor y
      rw [hz] at this
      linarith
    generalize ⌊y⌋ = n at hy
    subst hy
    have h1 : ⌊(-(n : K))⌋ = -n := by
      rw [← Int.cast_neg]; exact Int.floor_intCast _
    unfold fold
    have h2 : Int.fract (-(n : K)) = 0 := by
      rw [← Int.cast_neg]; exact Int.fract_intCast _
    rw [h1, h2, Int.fract_intCast, Int.floor_intCast]
    have : (-n) % 2 = 0 ↔ n % 2 = 0 := by omega
    simp only [this]
  · have hfl : ⌊-y⌋ = -⌊y⌋ - 1 := by
      rw [Int.floor_eq_iff]
      have hpos : 0 < Int.fract y := lt_of_le_of_ne (Int.fract_nonneg y) (Ne.symm hz)
      have hlt := Int.fract_lt_one y
      have hs := Int.self_sub_floor y
      push_cast
      constructor <;> linarith
    have hfr : Int.fract (-y) = 1 - Int.fract y := by
      unfold Int.fract
      rw [hfl]
      push_cast
      ring
    unfold fold
    rw [hfl, hfr]
    by_cases he : ⌊y⌋ % 2 = 0
    · have : ¬ ((-⌊y⌋ - 1) % 2 = 0) := by omega
      simp only [he, this, if_true, if_false]
      ring
    · have : (-⌊y⌋ - 1) % 2 = 0 := by omega
      simp only [he, this, if_true, if_false]

/-- Every reflection result is an even translate of ±(x - lb). -/
theorem fold_orbit (y : K) : ∃ n : ℤ, fold y = y + 2 * n ∨ fold y = -y + 2 * n := by
  unfold fold
  split
  · rename_i h
    refine ⟨-(⌊y⌋ / 2), Or.inl ?_⟩
    have : (⌊y⌋ : ℤ) = 2 * (⌊y⌋ / 2) := by omega
    have h2 : ((⌊y⌋ : ℤ) : K) = 2 * ((⌊y⌋ / 2 : ℤ) : K) := by
      exact_mod_cast this
    unfold Int.fract
    rw [h2]
    push_cast
    ring
  · rename_i h
    refine ⟨⌊y⌋ / 2 + 1, Or.inr ?_⟩
    have : (⌊y⌋ : ℤ) = 2 * (⌊y⌋ / 2) + 1 := by omega
    have h2 : ((⌊y⌋ : ℤ) : K) = 2 * ((⌊y⌋ / 2 : ℤ) : K) + 1 := by
      exact_mod_cast this
    unfold Int.fract
    rw [h2]
    push_cast
    ring

variable {lb ub : K}

theorem reflect_mem (h : lb < ub) (x : K) : lb ≤ reflect lb ub x ∧ reflect lb ub x ≤ ub := by
  rw [reflect_eq]
  have hw : 0 < ub - lb := by linarith
  have h0 := fold_nonneg ((x - lb) / (ub - lb))
  have h1 := fold_le_one ((x - lb) / (ub - lb))
  have := mul_nonneg hw.le h0
  have := mul_le_mul_of_nonneg_left h1 hw.le
  constructor <;> linarith

theorem reflect_id (h : lb < ub) {x : K} (h0 : lb ≤ x) (h1 : x ≤ ub) : reflect lb ub x = x := by
  rw [reflect_eq]
  have hw : 0 < ub - lb := by linarith
  rw [fold_id (div_nonneg (by linarith) hw.le) ((div_le_one hw).2 (by linarith))]
  field_simp
  ring

theorem reflect_translate (h : lb < ub) (x : K) : reflect lb ub (x + 2 * (ub - lb)) = reflect lb ub x := by
  have hw : ub - lb ≠ 0 := by
    intro h0; linarith
  rw [reflect_eq, reflect_eq]
  have : (x + 2 * (ub - lb) - lb) / (ub - lb) = (x - lb) / (ub - lb) + 2 := by
    field_simp
    ring
  rw [this, fold_add_two]

theorem reflect_mirror_lb (h : lb < ub) (x : K) : reflect lb ub (2 * lb - x) = reflect lb ub x := by
  have hw : ub - lb ≠ 0 := by
    intro h0; linarith
  rw [reflect_eq, reflect_eq]
  have : (2 * lb - x - lb) / (ub - lb) = - ((x - lb) / (ub - lb)) := by
    field_simp
    ring
  rw [this, fold_neg]

theorem reflect_mirror_ub (h : lb < ub) (x : K) : reflect lb ub (2 * ub - x) = reflect lb ub x := by
  have : 2 * ub - x = (2 * lb - x) + 2 * (ub - lb) := by ring
  rw [this, reflect_translate h, reflect_mirror_lb h]

theorem reflect_orbit (h : lb < ub) (x : K) :
    ∃ n : ℤ, reflect lb ub x = x + 2 * n * (ub - lb) ∨ reflect lb ub x = 2 * lb - x + 2 * n * (ub - lb) := by
  have hw : ub - lb ≠ 0 := by
    intro h0; linarith
  obtain ⟨n, hn⟩ := fold_orbit ((x - lb) / (ub - lb))
  refine ⟨n, ?_⟩
  rw [reflect_eq]
  rcases hn with hn | hn
  · left
    rw [hn]
    field_simp
    ring
  · right
    rw [hn]
    field_simp
    ring

end Verif.Proofs
