import Verif.Model.Annealing

/-! # Specification for C35 -/
namespace Verif.Spec
open Verif.Model

/-- The iteration counters at the calls of `ask` on optimiser `i`. -/
def asksOf (i : ℕ) : List AnnealOp → List ℕ
  | [] => []
  | .ask j iter :: l => if j = i then iter :: asksOf i l else asksOf i l
  | .create .. :: l => asksOf i l

/-- The geometric interpolation between `t0` (at 0) and `tf` (at `N`). -/
noncomputable def geometric (t0 tf N : ℝ) (k : ℕ) : ℝ := t0 * (tf / t0) ^ ((k : ℝ) / N)

/-- The straight line between `t0` (at 0) and `tf` (at `N`). -/
noncomputable def straight (t0 tf N : ℝ) (k : ℕ) : ℝ := t0 + (tf - t0) * ((k : ℝ) / N)

end Verif.Spec
