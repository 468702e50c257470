import Verif.Model.Penalized

/-!
# The violation of constraints
-/
namespace Verif.Spec

/-- How much a point violates the constraints: equalities beyond a tenth count linearly, inequalities with the power 3/2. -/
noncomputable def violation (h g : List ℝ → List ℝ) (x : List ℝ) : ℝ :=
  ((h x).map fun a => if |a| ≤ 1 / 10 then 0 else |a|).sum + ((g x).map fun a => (max a 0) ^ (3 / 2 : ℝ)).sum

/-- The point is feasible, equalities up to a tenth. -/
def WithinTolerance (h g : List ℝ → List ℝ) (x : List ℝ) : Prop := (∀ a ∈ h x, |a| ≤ 1 / 10) ∧ ∀ a ∈ g x, a ≤ 0

/-- Central differences. -/
noncomputable def centralDifferences (v : List ℝ → ℝ) (delta : ℝ) (x : List ℝ) : List ℝ :=
  (List.range x.length).map fun i => (v (x.modify i (· + delta)) - v (x.modify i (· - delta))) / (2 * delta)

/-- The function along axis `i` through `x`. -/
noncomputable def alongAxis (v : List ℝ → ℝ) (x : List ℝ) (i : ℕ) (s : ℝ) : ℝ := v (x.modify i (· + s))

/-- The constraint functions as total functions; `none` has no values. -/
def valuesOf (h : Option (List ℝ → List ℝ)) (x : List ℝ) : List ℝ := h.elim [] fun f => f x

/-- A constraint function that never raises. -/
def totalC (h : Option (List ℝ → List ℝ)) : Option (List ℝ → Option (List ℝ)) := h.map fun f x => some (f x)

end Verif.Spec
