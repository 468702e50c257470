import Verif.Model.Metropolis
import Mathlib.MeasureTheory.Measure.Lebesgue.Basic

/-!
# The Metropolis rule
-/
namespace Verif.Spec

/-- The random numbers in `[0, 1)` with which a move from log probability `a` to `b` is taken. -/
def acceptSet (a b : ℝ) : Set ℝ := {u | 0 ≤ u ∧ u < 1 ∧ u ≤ Real.exp (b - a)}

/-- The probability of taking a move from log probability `a` to `b`, with a uniform random number. -/
noncomputable def acceptProbability (a b : ℝ) : ENNReal := MeasureTheory.volume (acceptSet a b)

/-- `x` meets every constraint. -/
def MeetsAll {R : Type*} (constraints : List (R → ℝ)) (x : R) : Prop := ∀ c ∈ constraints, c x ≤ 0

/-- `x` violates some constraint by more than `tol`. -/
def ViolatesBy {R : Type*} (constraints : List (R → ℝ)) (tol : ℝ) (x : R) : Prop := ∃ c ∈ constraints, tol < c x

/-- The point with coordinate `i` of the proposal. -/
def moved {V : Type*} (i : ℕ) (x p : List V) : List V := (p[i]?).elim x fun v => x.set i v

end Verif.Spec
