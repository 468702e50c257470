import Verif.Model.MoboRun

/-! Specification for C183: how the objectives of a multi-objective optimisation are written down. -/
namespace Verif.Spec

open Verif.Model

variable {X : Type*} {m : ℕ}

/-- An outcome in other units and from other zeros, objective by objective. -/
def outcomeIn (a b : Fin m → ℝ) (v : Fin m → ℝ) : Fin m → ℝ := fun k => a k * v k + b k

/-- Recorded data with changed outcomes. -/
def recordsIn (f : (Fin m → ℝ) → (Fin m → ℝ)) (d : List (X × (Fin m → ℝ))) : List (X × (Fin m → ℝ)) := d.map (fun p => (p.1, f p.2))

/-- The optimiser with changed outcomes. -/
def moStateIn (f : (Fin (m + 1) → ℝ) → (Fin (m + 1) → ℝ)) (s : MoState X m) : MoState X m :=
  { s with data := s.data.map (recordsIn f), histF := s.histF.map (fun F => F.map f) }

/-- The end of a run with changed outcomes. -/
def moEndIn (f : (Fin (m + 1) → ℝ) → (Fin (m + 1) → ℝ)) : MoEnd X m → MoEnd X m
  | .stopped front => .stopped (recordsIn f front)
  | .raised => .raised
  | .running => .running

/-- A run with changed outcomes: the same points evaluated. -/
def moOutIn (f : (Fin (m + 1) → ℝ) → (Fin (m + 1) → ℝ)) (o : MoOut X m) : MoOut X m := ⟨moStateIn f o.opt, o.log, moEndIn f o.ending⟩

/-- The same problem with the objectives in other units. -/
def objectivesIn (a b : Fin (m + 1) → ℝ) (L : MoLearner X m) : MoLearner X m :=
  { L with objectives := fun x k => (L.objectives x k).map (fun v => a k * v + b k) }

/-- In every objective the outcomes are all equal or differ somewhere by ten machine precisions, in both units. -/
def SpreadIn (a : Fin m → ℝ) (F : List (Fin m → ℝ)) : Prop :=
  ∀ k, (∀ u ∈ F, ∀ v ∈ F, u k = v k) ∨ ((∃ u ∈ F, ∃ v ∈ F, 10 / 2 ^ 52 ≤ v k - u k) ∧ ∃ u ∈ F, ∃ v ∈ F, 10 / 2 ^ 52 ≤ a k * (v k - u k))

/-- The objectives listed in another order: objective `k` of the new list is objective `σ k` of the old one. -/
def listedAs (σ : Equiv.Perm (Fin m)) {α : Type*} (v : Fin m → α) : Fin m → α := fun k => v (σ k)

/-- The same problem with the objectives listed in another order; the proposals depend on the points, the values and the reference point as before. -/
def objectivesListed (σ : Equiv.Perm (Fin (m + 1))) (L : MoLearner X m) : MoLearner X m :=
  { L with
    propose := fun i v => L.propose i (v.map (fun w => (recordsIn (listedAs σ.symm) w.1, listedAs σ.symm w.2)))
    objectives := fun x => listedAs σ (L.objectives x)
    minimize := listedAs σ L.minimize }

/-- Some of the objectives written with the opposite sign. -/
def oppositeSign (S : Fin m → Bool) (v : Fin m → ℝ) : Fin m → ℝ := fun k => if S k then -v k else v k

/-- … and optimised in the opposite direction. -/
def oppositeDirection (S : Fin m → Bool) (minimize : Fin m → Bool) : Fin m → Bool := fun k => if S k then !minimize k else minimize k

end Verif.Spec
