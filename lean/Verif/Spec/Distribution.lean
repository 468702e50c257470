import Verif.Model.Sampling

/-!
# Specification for C147: what "uniform on the scale" means

Written without the functions of the model: logarithms to any base give the same shares.
-/
namespace Verif.Spec
open Verif.Model

/-- Where `x` lies on the axis of a scale. -/
noncomputable def axis : Scale → ℝ → ℝ
  | .linear, x => x
  | .log, x => Real.log x
  | .log10, x => Real.log x
  | .logit, x => Real.log x - Real.log (1 - x)
  | .bilog, x => if 0 ≤ x then Real.log (1 + x) else - Real.log (1 - x)

/-- The share of `[a, b]` in `[lo, hi]`, measured on the axis of the scale. -/
noncomputable def share (s : Scale) (lo hi a b : ℝ) : ℝ :=
  (axis s b - axis s a) / (axis s hi - axis s lo)

/-- The values a variable that is not real should take: for an integer variable the numbers
`lo, lo + step, …` up to `hi`, otherwise the levels. -/
def Possible : Kind → Val → Prop
  | .integer v, .int z => ∃ n : ℕ, (z : ℝ) = v.lo + n * v.step ∧ (z : ℝ) ≤ v.hi
  | .ordinal l, .lvl x => x ∈ l
  | .discrete l, .lvl x => x ∈ l
  | .bool, .lvl x => x = .one (.bool false) ∨ x = .one (.bool true)
  | .subset b, .lvl x => ∃ t, x = .tup t ∧ t ≠ [] ∧ t.Sublist b
  | _, _ => False

end Verif.Spec
