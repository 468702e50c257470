import Verif.Model.SaveLoad

/-! # Specification for C38 and C68 -/
namespace Verif.Spec
open Verif.Model

variable {R D F W B : Type}

/-- What dill promises: whatever could be written is read back. -/
def Lawful (c : Codec R D F W B) : Prop :=
  (∀ d b, c.dumpData d = some b → c.loadData b = some d) ∧
  (∀ l b, c.dumpLog l = some b → c.loadLog b = some l) ∧
  (∀ o b, c.dumpObj o = some b → c.loadObj b = some o)

/-- An optimiser as users have it: data (if any) and logger are live objects, and the wrapped constraints are those of the
constraints given. -/
def LiveObj (wrap : F → W) (o : SObj R D F W B) (n : String) : Prop :=
  (∀ d, o.data = some d → ∃ x, d = .inl x) ∧ o.logger = .inl n ∧ o.hWrap = o.h.map wrap ∧ o.gWrap = o.g.map wrap

/-- A traversal of a set lists each element once. -/
def SetOrderOk (setOrder : List String → List String) : Prop :=
  ∀ l, (setOrder l).Nodup ∧ ∀ x, x ∈ setOrder l ↔ x ∈ l

end Verif.Spec
