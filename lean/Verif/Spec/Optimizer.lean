import Verif.Model.Optimizer

/-!
# Specification vocabulary for the optimiser

Says what a history of `tell` calls should leave behind, in terms of the arguments of the calls only.
-/
namespace Verif.Spec
open Verif.Model (Obs TellArgs Op)

variable {P K : Type*} [LinearOrder K]

/-- `b` is the best of `vs`: the least when minimising, the greatest when maximising. -/
def IsBestOf (minimize : Bool) (b : K) (vs : List K) : Prop :=
  b ∈ vs ∧ ∀ v ∈ vs, if minimize then b ≤ v else v ≤ b

/-- `a` is strictly better than `b`. -/
def Better (minimize : Bool) (a b : K) : Prop := if minimize then a < b else b < a

/-- A call is well-formed: at least one point, a value for every point, as many labels as points if given. -/
def WellFormed (a : TellArgs P K) : Prop :=
  a.X ≠ [] ∧ a.X.length ≤ a.vals.length ∧ ∀ l, a.index = some l → l.length = a.X.length

/-- The finite part of a list of observations. -/
def finitePart : List (P × Obs K) → List (P × K)
  | [] => []
  | (x, .fin v) :: rest => (x, v) :: finitePart rest
  | _ :: rest => finitePart rest

/-- The finite part of a list of labelled observations, each with its label. -/
def labelledPart : List ((P × Obs K) × String) → List (P × K × String)
  | [] => []
  | ((x, .fin v), i) :: rest => (x, v, i) :: labelledPart rest
  | _ :: rest => labelledPart rest

open Classical in
/-- The point/value pairs an operation should add to the data. -/
noncomputable def told : Op P K → List (P × K)
  | .tell a => if WellFormed a then finitePart (a.X.zip a.vals) else []
  | .checkStop => []

/-- Everything a history should have recorded. -/
noncomputable def toldAll (ops : List (Op P K)) : List (P × K) := ops.flatMap told

/-- The values have (population) standard deviation at most `1e-8`. -/
def NearlyConstant {K : Type*} [Field K] [LinearOrder K] (fs : List K) : Prop :=
  (fs.map (fun f => (f - fs.sum / (fs.length : K)) ^ 2)).sum / (fs.length : K) ≤ ((1 / 10 ^ 8) ^ 2 : K)

end Verif.Spec
