import Mathlib.Analysis.SpecialFunctions.Log.Base

/-!
# Specification of bounds on hyper-parameters
-/
namespace Verif.Spec

/-- Lower and upper bounds of positive parameters: as many of each, in order. -/
def PositiveBounds (l u : List ℝ) : Prop := List.Forall₂ (fun a b => 0 < a ∧ a ≤ b) l u

/-- Each parameter is between its bounds. -/
def BetweenBounds (l u t : List ℝ) : Prop := t.length = l.length ∧ ∀ (i : ℕ) (a b x : ℝ), l[i]? = some a → u[i]? = some b → t[i]? = some x → a ≤ x ∧ x ≤ b

/-- The decimal logarithms of positive numbers between the bounds: what a search on a logarithmic scale with bounds may return, and what random
numbers drawn between the logarithms of the bounds are. -/
def InLogBox (bounds : List (ℝ × ℝ)) (x : List ℝ) : Prop :=
  List.Forall₂ (fun b t => Real.logb 10 b.1 ≤ t ∧ t ≤ Real.logb 10 b.2) bounds x

end Verif.Spec
