import Verif.Model.MiesStrength
import Verif.Spec.Mies

/-! # Specification for C165 -/
namespace Verif.Spec
open Verif.Model

/-- Strengths that make sense: step sizes are not negative, strengths of integer variables are positive, the mutation probability is one and not zero. -/
structure ProperStrengths (ks : List Kind) (a : Individual) : Prop where
  step : ∀ (j : ℕ) (v : RealVar), ks[j]? = some (.real v) → 0 ≤ a.sigma j
  integer : ∀ (j : ℕ) (v : IntVar), ks[j]? = some (.integer v) → 0 < a.eta j
  category : (∃ k ∈ ks, k.vtype ≠ .real ∧ k.vtype ≠ .integer) → 0 < a.prob ∧ a.prob ≤ 1

/-- Random numbers that the generators can give for a population of `mu` individuals: normal numbers other than 0, geometric numbers from 1, uniform numbers in `[0, 1)`, numbers of
parents and levels. -/
structure PossibleDraws (ks : List Kind) (mu : ℕ) (n : StrengthNoise) : Prop where
  p1 : n.p1 < mu
  p2 : n.p2 < mu
  normal : ∀ j, n.R j ≠ 0
  geometric : ∀ j, 1 ≤ n.g1 j ∧ 1 ≤ n.g2 j
  uniform : ∀ j, 0 ≤ n.u j ∧ n.u j < 1
  level : ∀ (j : ℕ) (k : Kind), ks[j]? = some k → k.levels ≠ [] → n.level j < k.levels.length

/-- The value is one the variable can take after rounding. -/
def OnGrid : Kind → Val → Prop
  | .real v, .real x => v.round x = x
  | _, _ => True

end Verif.Spec
