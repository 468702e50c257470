import Verif.Spec.Mobo

/-!
# Progress of a set of outcomes
-/
namespace Verif.Spec

variable {m : ℕ}

/-- The outcome `a` matches or beats `b` in every objective. -/
def AsGood (minimize : Fin m → Bool) (a b : Fin m → ℝ) : Prop := ∀ k, NoWorse (minimize k) (a k) (b k)

/-- Every outcome of `old` is matched or beaten by one of `new`. -/
def Covers (minimize : Fin m → Bool) (new old : List (Fin m → ℝ)) : Prop := ∀ v ∈ old, ∃ w ∈ new, AsGood minimize w v

/-- The outcomes that a set of outcomes matches or beats; its part above a reference point is what the hypervolume measures. -/
def Region (minimize : Fin m → Bool) (F : List (Fin m → ℝ)) : Set (Fin m → ℝ) := {v | ∃ w ∈ F, AsGood minimize w v}

end Verif.Spec
