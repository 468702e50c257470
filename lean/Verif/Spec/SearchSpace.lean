import Verif.Model.SearchSpace

/-!
# Specification vocabulary for search spaces
-/
namespace Verif.Spec
open Verif.Model

/-- The documented renaming: names that occur more than once get their occurrence number appended. -/
def numbered (names : List String) : List String :=
  (List.range names.length).map (fun k =>
    let n := names.getD k ""
    if names.count n > 1 then n ++ toString ((names.take k).count n) else n)

/-- A variable with its name blanked out. -/
def anon (v : PyVar) : PyVar := { v with name := "" }

/-- The variables of a space, in order. -/
def view (h : Heap) (s : PySpace) : List (Option PyVar) := s.data.map (fun r => h[r]?)

/-- The variables of a space without their names, in order. -/
def anonView (h : Heap) (s : PySpace) : List (Option PyVar) := (view h s).map (Option.map anon)

/-- A space as the constructor leaves it, for variables without conditions: all variables exist and are distinct
objects, the cached names are current and distinct, and there is no condition tree. -/
structure Plain (h : Heap) (s : PySpace) : Prop where
  alive : ∀ r ∈ s.data, r < h.length
  distinct : s.data.Nodup
  current : s.varName = s.data.map (nameOf h)
  names : s.varName.Nodup
  uncond : ∀ r ∈ s.data, (h[r]?).bind PyVar.cond = none
  flat : s.structure' = []

/-- Some name is a repeated name followed by digits (such as `x, x, x0`). -/
def DigitClash (names : List String) : Prop :=
  ∃ a ∈ names, ∃ b ∈ names, names.count a > 1 ∧ ∃ s : List Char, s ≠ [] ∧ (∀ c ∈ s, c.isDigit = true) ∧
    b.toList = a.toList ++ s

end Verif.Spec
