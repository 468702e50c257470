import Verif.Model.OnePlusOneFull
import Verif.Spec.OnePlusOne
import Verif.Spec.Cholesky

/-!
# Specification for C172: the parts of the (1+1)-CMA-ES in one program
-/
namespace Verif.Spec

open Verif.Model

variable {n : ℕ}

/-- The arguments as the model of the points (C32, C64) takes them, for a budget of `m`. -/
def pointsCfg (cfg : OpoCfg n) (m : ℕ) : CmaCfg n where
  vars := cfg.vars
  objective := cfg.objective
  penalty := cfg.penalty
  minimize := cfg.stag.minimize
  ftarget := cfg.stag.ftarget
  maxFEs := m

/-- The two states agree about parent, best point, counters and flags. -/
def SamePoints (s : OpoState n) (t : CmaState n) : Prop :=
  t.x = s.x ∧ t.best = some (s.xopt, s.fopt, s.fpen) ∧ t.evalCount = s.evalCount ∧ t.iterCount = s.iterCount ∧ t.nRestart = s.nRestart ∧
    t.restartFlag = s.restartFlag ∧ t.stop = s.stop ∧ t.dict = s.dict

/-- The arguments as the model of the stopping tests (C136, C137) takes them. -/
def scalarsCfg (cfg : OpoCfg n) : StagCfg := { cfg.stag with dim := n }

/-- The part of the state that the stopping tests look at; `r` is the number of restarts so far. -/
def scalarsOf (r : ℕ) (s : OpoState n) : StagState where
  rate := s.rate
  sigma := s.sigma
  deltaF := s.deltaF
  deltaX := s.deltaX
  fopt := s.fopt
  fpen := s.fpen
  evalCount := s.evalCount
  nRestart := s.nRestart
  restartFlag := s.restartFlag
  stop := s.stop
  dict := s.dict
  restarts := r

/-- The box of the search space. -/
def Inside (cfg : OpoCfg n) (x : Fin n → ℝ) : Prop := ∀ i, (cfg.vars i).lo ≤ x i ∧ x i ≤ (cfg.vars i).hi

/-- Legal arguments: bounds in order, starting point between them, and uniform random numbers from the unit interval. -/
def ProperCall (cfg : OpoCfg n) (u : ℕ → Fin n → ℝ) (x0 : Fin n → ℝ) : Prop :=
  (∀ i, (cfg.vars i).lo < (cfg.vars i).hi) ∧ Inside cfg x0 ∧ ∀ k i, 0 ≤ u k i ∧ u k i ≤ 1

/-- The points that a run of `k` passes has told the optimiser: the starting point, the points proposed by the steps, and the starting points of restarts that were not made after
the end of the run was decided. -/
def Told (cfg : OpoCfg n) (g u : ℕ → Fin n → ℝ) (x0 : Fin n → ℝ) (r : ℤ) (k : ℕ) (p : Fin n → ℝ) : Prop :=
  p = x0 ∨ ∃ j < k, ∃ s, opoRun cfg g u x0 r j = some s ∧ s.stop = false ∧
    (p = opoRepair cfg (opoMutant s (g j)) ∨
      ∃ s1, opoEvaluate cfg s (opoRepair cfg (opoMutant s (g j))) = some s1 ∧ (opoCheck cfg s1).restartFlag = true ∧ (opoCheck cfg s1).stop = false ∧
        p = opoSample cfg (u j))

end Verif.Spec
