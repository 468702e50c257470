import Verif.Model.Penalty

/-! # Specification for C34 -/
namespace Verif.Spec
open Verif.Model

variable {α : Type*}

/-- The point satisfies the constraints: every equality value is zero up to `eps`, every inequality value is at most
zero. -/
def Satisfied (eps : ℝ) (h g : Option (Cand α → Option (List ℝ))) (x : List α) : Prop :=
  (∀ f, h = some f → ∀ v, f (.point x) = some v → ∀ a ∈ v, |a| ≤ eps) ∧
  (∀ f, g = some f → ∀ v, f (.point x) = some v → ∀ a ∈ v, a ≤ 0)

/-- The points of a call. -/
def pointsOf : PenArg α → List (List α)
  | .point x => [x]
  | .batch X => X

/-- The constraint function can be evaluated on every point and always returns `k` values. -/
def Evaluable (f : Option (Cand α → Option (List ℝ))) (X : List (List α)) : Prop :=
  ∀ c, f = some c → ∃ k, ∀ x ∈ X, ∃ v, c (.point x) = some v ∧ v.length = k

end Verif.Spec
