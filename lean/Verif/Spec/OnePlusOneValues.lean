import Verif.Spec.OnePlusOneFull

/-!
# Specification for C174: the same problem with other values
-/
namespace Verif.Spec

open Verif.Model

variable {n : ℕ}

/-- The problem with the values transformed by `φ` (objective and target), minimised or maximised as `minimize` says. -/
def withValues (φ : ℝ → ℝ) (minimize : Bool) (cfg : OpoCfg n) : OpoCfg n :=
  { cfg with
    stag := { cfg.stag with minimize := minimize, ftarget := cfg.stag.ftarget.map φ }
    objective := fun x => φ (cfg.objective x) }

/-- Two states that differ in the values only: the values of the second are those of the first transformed by `φ`.  (`deltaF`, the average change of the values, may differ.) -/
def SameButValues (φ : ℝ → ℝ) (s s' : OpoState n) : Prop :=
  ∃ d, s' = { s with fopt := φ s.fopt, fpen := φ s.fpen, deltaF := d }

/-- `φ` keeps the order of the values, or reverses it if maximisation and minimisation are exchanged. -/
def KeepsOrder (φ : ℝ → ℝ) (before after : Bool) : Prop := if before = after then StrictMono φ else StrictAnti φ

end Verif.Spec
