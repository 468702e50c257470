import Verif.Model.Sampling
import Mathlib.Algebra.Order.Floor.Semiring
import Mathlib.Algebra.BigOperators.Group.List.Basic

/-!
# Specification for C152 and C160: how many points a space has that the optimiser tells apart
-/
namespace Verif.Spec
open Verif.Model

/-- How many values of a variable can differ from each other for the optimiser: real values count as equal within `1e-8`; an integer variable has
the integers between its bounds, any other its levels. -/
noncomputable def distinctValues : Kind → ℕ
  | .real v => ⌊(v.hi - v.lo) * 10 ^ 8⌋₊ + 1
  | .integer v => (⌊v.hi⌋ - ⌈v.lo⌉ + 1).toNat
  | k => k.levels.length

/-- The same for points. -/
noncomputable def distinctPoints (ks : List Kind) : ℕ := (ks.map distinctValues).prod

/-- No variable is real. -/
def DiscreteSpace (ks : List Kind) : Prop := ∀ k ∈ ks, k.vtype ≠ .real

end Verif.Spec
