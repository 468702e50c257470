import Verif.Spec.MiesFull

/-! # Specification for C176: the evolution strategy on an objective in other units -/
namespace Verif.Spec
open Verif.Model

/-- The same strategy on an objective whose values are expressed in another scale. -/
def rescaled (φ : ℝ → ℝ) (cfg : MiesCfg ℝ) : MiesCfg ℝ := { cfg with fit := fun t r => φ (cfg.fit t r) }

/-- Two states of the strategy that differ in the scale of the values only: same individuals in the same order, same points evaluated in the same order, same best point, same counters,
and both have ended or none has. -/
structure SameRun (φ : ℝ → ℝ) (s s' : MiesFullState) : Prop where
  pop : s'.core.pop = s.core.pop.map fun e => (e.1, φ e.2)
  evaluated : s'.core.evaluated = s.core.evaluated.map fun e => (e.1, φ e.2)
  xopt : s'.xopt = s.xopt
  fopt : s'.fopt = φ s.fopt
  iterCount : s'.core.iterCount = s.core.iterCount
  evalCount : s'.evalCount = s.evalCount
  stopped : s'.stopped = s.stopped

end Verif.Spec
