import Verif.Model.SearchSpace

/-!
# Specification vocabulary for dictionaries that describe search spaces
-/
namespace Verif.Spec
open Verif.Model

/-- The variable that an entry of type `τ` under key `k` declares. -/
def declared (k : String) (τ : VType) (e : Entry) : PyVar :=
  { name := k, typ := τ, bounds := boundsFor τ e.range, default := e.default
    precision := if τ = .real then e.precision else none
    scale := if τ = .real then e.scale else .linear
    step := if τ = .integer then e.step.getD 1 else 1
    cond := e.conditions }

/-- Number of variables an entry declares (`N`, one if absent). -/
def declaredCount (e : Entry) : ℕ := (e.n.getD 1).toNat

/-- An entry the parser handles: known type name, no default, no conditions, valid declaration, and the default
step if it declares several integers. -/
def Handled (valid : PyVar → Bool) (k : String) (τ : VType) (e : Entry) : Prop :=
  (∃ s, e.typ = some (.str s) ∧ typeOfTag (.str s) = some τ) ∧ e.default = none ∧ e.conditions = none ∧
    valid (declared k τ e) = true ∧ (τ = .integer → 2 ≤ declaredCount e → e.step.getD 1 = 1)

end Verif.Spec
