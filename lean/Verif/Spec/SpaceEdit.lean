import Verif.Model.SpaceEdit

/-!
# What the attributes of a search space should be, and what it should contain
-/
namespace Verif.Spec

open Verif.Model

/-- The variable objects of a space. -/
def liveVars (s : LiveSpace) : List PyVar := s.data.filterMap fun r => s.heap[r]?

/-- The cached attributes agree with the variables. -/
structure AttributesAgree (s : LiveSpace) : Prop where
  names : s.varName = (liveVars s).map PyVar.name
  types : s.varType = (liveVars s).map PyVar.typ
  bounds : s.bounds = (liveVars s).map PyVar.bounds
  ids : liveVars s ≠ [] → ∃ ix, s.index = some ix ∧ ∀ τ i, i ∈ ix.id τ ↔ ∃ v, (liveVars s)[i]? = some v ∧ v.typ = τ

/-- The class of the object is the class of spaces of type `τ` iff it has variables and all have type `τ`. -/
def ClassAgrees (s : LiveSpace) : Prop := ∀ τ, s.cls = some τ ↔ liveVars s ≠ [] ∧ ∀ v ∈ liveVars s, v.typ = τ

/-- The calls of the history that assign several variables at once do not raise half way. -/
def NoHalfAssignment (fuel : ℕ) : LiveSpace → List SpaceCall → Prop
  | _, [] => True
  | s, c :: rest => (∀ kvs, c = .setItems kvs → (s.setItems kvs).2 = true) ∧ NoHalfAssignment fuel (s.step fuel c) rest

/-- No condition is attached to a variable that a call brings in, and no call assigns to an item. -/
def PlainCall : SpaceCall → Prop
  | .setItem _ _ => False
  | .setItems _ => False
  | .iadd vars => ∀ v ∈ vars, v.cond = none
  | _ => True

/-- The same value for Python: equal numbers, or equal strings, or tuples of such. -/
def SameAtom (a b : Base) : Prop := (∃ q, a.number = some q ∧ b.number = some q) ∨ ∃ s, a = .str s ∧ b = .str s

/-- The same level. -/
def SameLevel : Lvl → Lvl → Prop
  | .one a, .one b => SameAtom a b
  | .tup l, .tup m => List.Forall₂ SameAtom l m
  | _, _ => False

/-- A number between the bounds, or one of the levels. -/
def InRange (v : PyVar) (x : Lvl) : Prop :=
  if v.typ = .real ∨ v.typ = .integer then
    ∃ lo hi q, v.bounds[0]?.bind Lvl.number = some lo ∧ v.bounds[1]?.bind Lvl.number = some hi ∧ x.number = some q ∧ lo ≤ q ∧ q ≤ hi
  else ∃ l ∈ v.bounds, SameLevel l x

/-- The value belongs to the variable: it is in its range and, for an integer variable, whole. -/
def InVariable (v : PyVar) (x : Lvl) : Prop := InRange v x ∧ (v.typ = .integer → ∃ q, x.number = some q ∧ q.den = 1)

end Verif.Spec
