import Verif.Model.LocalUpperBounds
import Mathlib.Data.EReal.Basic

/-!
# Specification vocabulary: decompositions of objective space into boxes

Only the record of two corner vectors (`Cell`) is taken from the model.
-/
namespace Verif.Spec

open Verif.Model (Cell)

variable {m : ℕ} {L : Type*} [LinearOrder L]

/-- `a` is at most `b` in every coordinate. -/
def WeaklyBelow (a b : Fin m → L) : Prop := ∀ k, a k ≤ b k

/-- `a` is less than `b` in every coordinate. -/
def StrictlyBelow (a b : Fin m → L) : Prop := ∀ k, a k < b k

/-- `v` lies in the box, counted as open below and closed above in each coordinate, so that two boxes
with a common face share no vector. -/
def InCell (c : Cell m L) (v : Fin m → L) : Prop := StrictlyBelow c.lo v ∧ WeaklyBelow v c.hi

open Classical in
/-- How many of the listed boxes (by position in the list) contain `v`. -/
noncomputable def coverage (cells : List (Cell m L)) (v : Fin m → L) : ℕ :=
  cells.countP (fun c => decide (InCell c v))

/-- The outcome vectors (objectives maximised) that are better than the reference point in every objective and that
no vector of `Y` equals or dominates. -/
def improvementRegion (ref : Fin m → ℝ) (Y : List (Fin m → ℝ)) : Set (Fin m → ℝ) :=
  {v | (∀ k, ref k < v k) ∧ ∀ y ∈ Y, ¬ ∀ k, v k ≤ y k}

/-- The boxes partition a region of real vectors: every vector of the region lies in exactly one box, any other vector
in none. -/
def PartitionsReal (cells : List (Cell m EReal)) (R : Set (Fin m → ℝ)) : Prop :=
  ∀ v : Fin m → ℝ, (v ∈ R → coverage cells (fun k => (v k : EReal)) = 1) ∧
    (v ∉ R → coverage cells (fun k => (v k : EReal)) = 0)

/-- `argsort` returns the positions in non-decreasing order of the values; equal values in any order. -/
def Sorts (argsort : List ℝ → List ℕ) : Prop :=
  ∀ l, (argsort l).Perm (List.range l.length) ∧
    (argsort l).Pairwise (fun i j => ∀ a b, l[i]? = some a → l[j]? = some b → a ≤ b)

/-- `argmax` returns a position of the largest value. -/
def PicksMax (argmax : (Fin m → ℕ) → Fin m) : Prop := ∀ (f : Fin m → ℕ) (k : Fin m), f k ≤ f (argmax f)

end Verif.Spec
