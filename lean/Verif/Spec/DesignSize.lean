import Verif.Spec.Ask

/-!
# What a user expects of the size of the initial design
-/
namespace Verif.Spec
open Verif.Model

/-- The sampler delivers as many points of the space as requested (C17). -/
def FullSampler (vars : List (String × Kind)) (sample : ℕ → ℤ → List (List Val)) : Prop :=
  ∀ k n, 0 < n → ((sample k n).length : ℤ) = n ∧ ∀ r ∈ sample k n, PointOf (vars.map Prod.snd) r

/-- Row `i` of the table `X` differs from all other rows of `X` and from the rows of `data`. -/
def StandsOut (ks : List Kind) (data X : List (List Val)) (i : ℕ) : Prop :=
  ∀ x, X[i]? = some x → (∀ d ∈ data, Differs ks x d) ∧ ∀ j y, X[j]? = some y → j ≠ i → Differs ks x y

/-- No two points of the space count as different (in the sense of C15). -/
def NoTwoDiffer (ks : List Kind) : Prop := ∀ x y, PointOf ks x → PointOf ks y → ¬ Differs ks x y

end Verif.Spec
