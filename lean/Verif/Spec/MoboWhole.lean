import Verif.Model.MoboRun
import Verif.Spec.Mobo

/-! Specification for C185: whole multi-objective runs. -/
namespace Verif.Spec

open Verif.Model

variable {X : Type*} {m : ℕ}

/-- The point `x` has the finite outcome `v`. -/
def HasOutcome (L : MoLearner X m) (x : X) (v : Fin (m + 1) → ℝ) : Prop := ∀ k, L.objectives x k = some (v k)

/-- The outcome `v` is that of an evaluated point and no evaluated point has an outcome that dominates it. -/
def ParetoOutcome (L : MoLearner X m) (points : List X) (v : Fin (m + 1) → ℝ) : Prop :=
  (∃ x ∈ points, HasOutcome L x v) ∧ ∀ y ∈ points, ∀ w, HasOutcome L y w → ¬ DominatesIn L.minimize w v

/-- No step proposes more than `q` points. -/
def BatchAtMost (L : MoLearner X m) (q : ℕ) : Prop := ∀ i v xs, L.propose i v = some xs → xs.length ≤ q

/-- Every step proposes points or raises. -/
def ProposesSome (L : MoLearner X m) : Prop := ∀ i v, L.propose i v ≠ some []

/-- In an objective, `a` is worse than `b` by at most `tol`. -/
def WorseAtMost (minimize : Bool) (tol a b : ℝ) : Prop := if minimize then a ≤ b + tol else b - tol ≤ a

/-- In an objective, `a` is better than `b` by more than `tol`. -/
def BetterByMore (minimize : Bool) (tol a b : ℝ) : Prop := if minimize then a + tol < b else b + tol < a

/-- The values of objective `k` at the given points differ by at most `S`. -/
def SpreadAtMost (L : MoLearner X m) (points : List X) (k : Fin (m + 1)) (S : ℝ) : Prop :=
  ∀ x ∈ points, ∀ y ∈ points, ∀ v w, HasOutcome L x v → HasOutcome L y w → v k - w k ≤ S

end Verif.Spec
