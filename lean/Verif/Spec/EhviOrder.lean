import Mathlib.Data.Real.Basic

/-!
# Comparing sets of outcomes
-/
namespace Verif.Spec

variable {m : ℕ}

/-- For each outcome of the first list the second one has an outcome that is at least as good in all objectives (which are maximised). -/
def Superseded (Y Y' : List (Fin m → ℝ)) : Prop := ∀ y ∈ Y, ∃ y' ∈ Y', ∀ k, y k ≤ y' k

end Verif.Spec
