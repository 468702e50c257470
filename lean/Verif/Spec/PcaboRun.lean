import Verif.Model.PcaboRun

/-! Specification for C189: whole runs of PCA-BO. -/
namespace Verif.Spec

open Verif.Model

variable {P : Type*}

/-- `ask` returns between one and `q` points. -/
def AsksBetween (W : PcaWorld P) (q : ℕ) : Prop := ∀ i s X, W.propose i s = some X → X ≠ [] ∧ X.length ≤ q

/-- The calls of the objective in a run, in order. -/
def objectiveCalls (calls : List (PcaCall P)) : List P := calls.flatMap PcaCall.X

/-- The finite values of the objective at the points, in order. -/
def finiteValues (W : PcaWorld P) (X : List P) : List (P × ℝ) :=
  X.filterMap fun x => match W.objective x with | .fin v => some (x, v) | _ => none

end Verif.Spec
