import Verif.Model.ConditionalRun

/-! Specification for C188: whole runs of the conditional optimiser. -/
namespace Verif.Spec

open Verif.Model

variable {P : Type*}

/-- numpy delivers as many choices as are asked for, and each is the number of a sub-space. -/
def ChoicesValid (W : CondWorld P) : Prop := ∀ i, (W.pick i).length = W.nPoint ∧ ∀ k ∈ W.pick i, k < W.nSub

/-- The objective never fails. -/
def NeverFails (W : CondWorld P) : Prop := ∀ p, W.objective p ≠ none

/-- `r` is recorded and no recorded value is better. -/
def BestRecord (minimize : Bool) (d : List (P × ℚ)) (r : P × ℚ) : Prop :=
  r ∈ d ∧ ∀ q ∈ d, if minimize then r.2 ≤ q.2 else q.2 ≤ r.2

/-- Number of calls of the objective that failed. -/
def failedCalls (es : List (CondEval P)) : ℕ := es.countP fun e => e.value.isNone

end Verif.Spec
