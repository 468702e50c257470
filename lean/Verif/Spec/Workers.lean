import Verif.Model.Workers
import Verif.Spec.Optimizer
import Mathlib.Data.Fintype.BigOperators

/-! Specification for C186: what the workers did, read off the events. -/
namespace Verif.Spec

open Verif.Model

variable {P K : Type*} {W : ℕ}

/-- All points taken. -/
def takenPoints (es : List (WorkerEvent W P K)) : List P := es.flatMap fun | .take _ X => X | _ => []

/-- All points delivered, whatever their values. -/
def deliveredPoints (es : List (WorkerEvent W P K)) : List P := es.flatMap fun | .deliver _ X _ _ => X | _ => []

/-- The finite values delivered, with their points, in the order of delivery. -/
def deliveredValues (es : List (WorkerEvent W P K)) : List (P × K) := es.flatMap fun | .deliver _ X vals _ => finitePart (X.zip vals) | _ => []

/-- All points lost with their worker. -/
def lostPoints (es : List (WorkerEvent W P K)) : List P := es.flatMap fun | .die _ X => X | _ => []

/-- How often points were taken. -/
def takes (es : List (WorkerEvent W P K)) : ℕ := (es.filter fun | .take _ _ => true | _ => false).length

/-- The points being evaluated. -/
def inWork (s : Workers W P K) : List P := (List.finRange W).flatMap fun w => (s.inHand w).getD []

/-- At most `q` points are taken at a time. -/
def TakesAtMost (q : ℕ) (es : List (WorkerEvent W P K)) : Prop := ∀ w X, WorkerEvent.take w X ∈ es → X.length ≤ q

/-- The state of the optimiser when `run` is left (or after the given number of iterations). -/
def finalState : RunResult P K → OptState P K
  | .running s => s
  | .raised _ s => s
  | .returned _ s _ => s

end Verif.Spec
