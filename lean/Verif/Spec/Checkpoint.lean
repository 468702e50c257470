import Verif.Model.Checkpoint
import Verif.Spec.SaveLoad

/-! Specification for C184: crashes of a program that saves the optimiser after every step. -/
namespace Verif.Spec

open Verif.Model

variable {G F W B : Type}

/-- What dill writes it reads back, the optimiser at every stage can be written, and the optimiser is newly constructed and has a logger called `n`. -/
structure Checkpointable (K : CkSetup G F W B) (n : String) : Prop where
  lawful : Lawful K.codec
  writes : ∀ (s : OptState Row ℝ) (reg : LogRegistry), (save K.codec reg (holding K.fresh s)).1 = true
  live : LiveObj K.wrap K.fresh n
  new : K.fresh.rest = {} ∧ K.fresh.data = none

/-- The run that is never interrupted and not saved: its state and its end after at most `k` stopping tests. -/
noncomputable def uninterrupted (K : CkSetup G F W B) (k : ℕ) : FullOut := learnRun K.cfg K.u K.acq K.L k 0 {} []

/-- The same state apart from the data file. -/
def SameButFile (s t : OptState Row ℝ) : Prop := { s with csv := [] } = { t with csv := [] }

/-- The optimiser `o` is what the run without interruption has after `k` steps. -/
def AtStep (K : CkSetup G F W B) (k : ℕ) (o : CkObj F W B) : Prop :=
  (∃ s log, uninterrupted K k = ⟨s, log, .running⟩ ∧ ∀ csv, SameButFile (heldState o csv) s) ∧
    o.logger = K.fresh.logger ∧ o.h = K.fresh.h ∧ o.g = K.fresh.g ∧ o.hWrap = K.fresh.hWrap ∧ o.gWrap = K.fresh.gWrap

end Verif.Spec
