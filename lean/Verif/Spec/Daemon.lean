import Verif.Model.Daemon

/-! # Specification for C39 and C67 -/
namespace Verif.Spec
open Verif.Model

/-- The pid-file names process `n`. -/
def Names (s : DState) (n : ℕ) : Prop := s.file = some (.pid n)

/-- Process `n` exists. -/
def Alive (s : DState) (n : ℕ) : Prop := s.procs n ≠ none

/-- The pid-file is missing or holds a number. -/
def Readable (s : DState) : Prop := s.file ≠ some .garbage

/-- Two start requests do not overlap: whenever one is made, no daemon is between its check and writing its pid. -/
def NoOverlap : DState → List DEvent → Prop
  | _, [] => True
  | s, e :: es =>
    (∀ q, e = .begin q → ∀ p, s.procs p ≠ some .starting) ∧ NoOverlap (dExec s e) es

end Verif.Spec
