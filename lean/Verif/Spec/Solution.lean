import Verif.Model.Solution

/-!
# What a solution set means

A row is an assignment of values to variable names, together with its fitness, evaluation counter and label.
-/
namespace Verif.Spec
open Verif.Model

variable {α F : Type*}

/-- The assignment described by a row under given column names. -/
def assignment (names : List String) (row : List α) : String → Option α := fun n => (names.zip row).lookup n

/-- The metadata lists have one entry per row and every row one entry per variable. -/
structure Wf (a : Sol α F) : Prop where
  nonempty : a.arr.rows ≠ []
  width : ∀ r ∈ a.arr.rows, r.length = a.varName.length
  dim : 0 < a.varName.length
  fitness : a.fitness.length = a.arr.rows.length
  nEval : a.nEval.length = a.arr.rows.length
  index : a.index.length = a.arr.rows.length
  names : a.fitnessName.length = a.nObj

/-- The content of a solution set: for every row the assignment, fitness, evaluation counter and label. -/
def records (a : Sol α F) : List ((String → Option α) × F × ℕ × String) :=
  ((a.arr.rows.map (assignment a.varName)).zip (a.fitness.zip (a.nEval.zip a.index)))

/-- `idx` lists, in increasing order, the positions at which a row occurs for the first time. -/
def FirstOccurrences (rows : List (List α)) (idx : List ℕ) : Prop :=
  idx.Pairwise (· < ·) ∧
    ∀ i : ℕ, i ∈ idx ↔ i < rows.length ∧ ∀ j : ℕ, j < i → rows[j]? ≠ rows[i]?

end Verif.Spec
