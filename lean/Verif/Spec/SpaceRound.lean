import Verif.Model.SpaceRound

/-!
# Specification for C171: conversion of designs column by column
-/
namespace Verif.Spec

open Verif.Model

/-- The space is of the class that its variables say: `RealSpace` has real variables only, a discrete space none. -/
def ProperSpace (s : DesignSpace) : Prop :=
  (s.cls = .real → ∀ v ∈ s.vars, v.isSome) ∧ (s.cls = .discrete → ∀ v ∈ s.vars, v = none)

/-- A row that fits the variables: as many values as variables, and numbers for the real ones. -/
def FitsRow (vs : List (Option RealVar)) (r : List DesignEntry) : Prop :=
  List.Forall₂ (fun v e => v.isSome → ∃ x, e = .num x) vs r

/-- The row is converted: the value of a real variable by `op`, all others are as before. -/
def RowConverted (op : RealVar → ℝ → ℝ) (vs : List (Option RealVar)) (before after : List DesignEntry) : Prop :=
  before.length = vs.length ∧ after.length = vs.length ∧ ∀ i : ℕ,
    (∀ v x, vs[i]? = some (some v) → before[i]? = some (.num x) → after[i]? = some (.num (op v x))) ∧
    (vs[i]? = some none → after[i]? = before[i]?)

/-- The argument is an array of integers. -/
def IsIntArray : DesignArg → Prop
  | .array t _ => t = .int
  | .vector t _ => t = .int
  | _ => False

/-- The argument is an array (of any kind). -/
def IsArray : DesignArg → Prop
  | .array _ _ => True
  | .vector _ _ => True
  | _ => False

/-- The rows in the argument. -/
def designRows : DesignArg → List (List DesignEntry)
  | .rows x => x
  | .row x => [x]
  | .array _ x => x
  | .vector _ x => [x]

end Verif.Spec
