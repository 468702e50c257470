import Verif.Model.OnePlusOne

/-! # Specification for C32 and C64 -/
namespace Verif.Spec
open Verif.Model

variable {n : ℕ}

/-- The box of the search space. -/
def InBox (cfg : CmaCfg n) (x : Fin n → ℝ) : Prop := ∀ i, (cfg.vars i).lo ≤ x i ∧ x i ≤ (cfg.vars i).hi

/-- `a` is at least as good as `b`. -/
def CmaGood (minimize : Bool) (a b : ℝ) : Prop := if minimize then a ≤ b else b ≤ a

/-- The random numbers of the restarts lie in the unit interval. -/
def CmaNoiseOk (w : CmaNoise n) : Prop := ∀ i, 0 ≤ w.u i ∧ w.u i ≤ 1

/-- The states reached by the public methods: the constructor and any number of steps. -/
def CmaReachable (cfg : CmaCfg n) (r : ℤ) (s : CmaState n) : Prop :=
  ∃ x0 s0 ws, cmaInit cfg x0 r = some s0 ∧ (∀ w ∈ ws, CmaNoiseOk w) ∧ s = cmaSteps cfg ws s0

end Verif.Spec
