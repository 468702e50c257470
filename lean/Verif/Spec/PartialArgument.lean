import Verif.Model.PartialArgument

/-! # Specification for C37 -/
namespace Verif.Spec
open Verif.Model

variable {α : Type*}

/-- `y` is the full point: one entry for each name, the fixed entries as in the dictionary, and the others, read from left to right, are
the entries of `x`. -/
def FullPoint (names : List String) (fixed : FixedDict α) (x y : List α) : Prop :=
  y.length = names.length ∧
  (∀ (i : ℕ) (n : String) (v : α), names[i]? = some n → fixed n = some v → y[i]? = some v) ∧
  ((names.zip y).filter (fun p => (fixed p.1).isNone)).map Prod.snd = x

/-- The number of names that are not fixed. -/
def freeCount (names : List String) (fixed : FixedDict α) : ℕ := (names.filter (fun n => (fixed n).isNone)).length

end Verif.Spec
