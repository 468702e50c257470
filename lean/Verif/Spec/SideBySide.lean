import Verif.Model.SideBySide

/-! Specification for C182: optimisers of one program. -/
namespace Verif.Spec

open Verif.Model

variable {G : Type*}

/-- Two constructor calls that use one dictionary: the same dictionary of the user, or the default of the batch classes. -/
def OneDictionary (a b : BoArgs) : Prop :=
  match a.par, b.par with
  | some k, some l => k = l
  | none, none => a.cls.batch = true ∧ b.cls.batch = true
  | _, _ => False

/-- No other optimiser of the program is given the surrogate or the dictionary of the optimiser called `name`. -/
def KeepsApart (name : ℕ) (h : List (ℕ × BoCall G)) : Prop :=
  ∀ a, (name, BoCall.make a) ∈ h → ∀ m b, m ≠ name → (m, BoCall.make b) ∈ h → b.model ≠ a.model ∧ ¬ OneDictionary a b

/-- The part of a program, or of what it shows, that concerns one optimiser. -/
def concerning {α : Type*} (name : ℕ) (l : List (ℕ × α)) : List (ℕ × α) := l.filter (fun c => c.1 == name)

/-- The program starts: there are no optimisers yet. -/
def NoOptimisers (w : BoWorld) : Prop := ∀ n, w.objs n = none

end Verif.Spec
