import Mathlib.Order.Basic
import Mathlib.Data.List.Basic

/-! # Specification for C50 -/
namespace Verif.Spec

/-- `a` is a strictly better performance than `b`. -/
def StrictlyBetter {K : Type*} [LT K] (minimize : Bool) (a b : K) : Prop := if minimize then a < b else b < a

/-- Position `i` is valid and some position has a strictly worse performance. -/
def NotWorst {K : Type*} [LT K] (minimize : Bool) (perf : List K) (i : ℕ) : Prop :=
  ∃ a b, perf[i]? = some a ∧ b ∈ perf ∧ StrictlyBetter minimize a b

end Verif.Spec
