import Verif.Model.SpaceReplace

/-!
# Specification for C151: attributes that describe a search space
-/
namespace Verif.Spec
open Verif.Model

/-- A list of positions without repetition, holding exactly those of the variables with a property. -/
def Positions (l : List ℕ) (types : List VType) (p : VType → Prop) : Prop :=
  l.Nodup ∧ ∀ j, j ∈ l ↔ ∃ t, types[j]? = some t ∧ p t

/-- The attributes describe the space. -/
structure Describes (a : SpaceAttrs) (sp : SpaceView) : Prop where
  dim : a.dim = sp.types.length
  names : a.varNames = sp.names
  types : a.paramType = sp.types
  real : Positions a.rIndex sp.types (· = .real)
  integer : Positions a.iIndex sp.types (· = .integer)
  categorical : Positions a.dIndex sp.types (fun t => t ≠ .real ∧ t ≠ .integer)
  counts : a.nR = a.rIndex.length ∧ a.nI = a.iIndex.length ∧ a.nD = a.dIndex.length

end Verif.Spec
