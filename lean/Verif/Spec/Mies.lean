import Verif.Model.Mies
import Verif.Spec.Ask

/-! # Specification for C31 -/
namespace Verif.Spec
open Verif.Model

variable {K : Type*} [LinearOrder K]

/-- `argsort` returns the positions in non-decreasing order of the values. -/
def SortsValues (argsort : List K → List ℕ) : Prop :=
  ∀ l, (argsort l).Perm (List.range l.length) ∧
    (argsort l).Pairwise (fun i j => ∀ a b, l[i]? = some a → l[j]? = some b → a ≤ b)

/-- `a` is at least as good as `b`. -/
def AtLeastAsGood (minimize : Bool) (a b : K) : Prop := if minimize then a ≤ b else b ≤ a

/-- Ordered bounds; integer variables have integer bounds. -/
def ProperBounds : Kind → Prop
  | .real v => v.lo < v.hi
  | .integer v => v.lo < v.hi ∧ (∃ l : ℤ, v.lo = l) ∧ ∃ u : ℤ, v.hi = u
  | _ => True

/-- Parents come from the population. -/
def NoiseOk (mu : ℕ) (noise : ℕ → ℕ → MNoise) : Prop :=
  ∀ t i, (noise t i).p1 < mu ∧ (noise t i).p2 < mu

end Verif.Spec
