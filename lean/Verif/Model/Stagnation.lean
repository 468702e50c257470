import Mathlib.Analysis.SpecialFunctions.Exp

/-!
# Step size, stagnation tests and restarts of the (1+1)-CMA-ES (`bayes_optim/acquisition/optim/one_plus_one_cma_es.py`)

`Verif.Model.OnePlusOne` leaves the outcome of the stagnation tests open; this module computes them.  The points themselves are not
represented: a step is given by the objective value of the new point, its penalty, its distance from the parent and the outcome of the
factorisation of the covariance matrix, and the theorems quantify over all of these.  Numbers are reals; `max_FEs` may be infinite.
-/
namespace Verif.Model

noncomputable section

/-- The arguments of the constructor (lines 100-144) and the parameters of `_init_aux_var` (lines 149-152, 155). -/
structure StagCfg where
  minimize : Bool
  ftarget : Option ℝ
  maxFEs : Option ℕ
  xtol : ℝ
  ftol : ℝ
  sigma0 : ℝ
  pTarget : ℝ
  cp : ℝ
  damp : ℝ
  dim : ℕ

/-- The attributes.  `dict` says whether `stop_dict` has an entry; `restarts` counts the restarts (ghost). -/
structure StagState where
  rate : ℝ
  sigma : ℝ
  deltaF : ℝ
  deltaX : ℝ
  fopt : ℝ
  fpen : ℝ
  evalCount : ℕ
  nRestart : ℤ
  restartFlag : Bool
  stop : Bool
  dict : Bool
  restarts : ℕ

/-- One evaluated point: objective value, penalty, distance from the parent, and whether `_update_A` (lines 395-407) fails. -/
structure StagIn where
  y : ℝ
  pen : ℝ
  dist : ℝ
  covFails : Bool

/-- Line 122 `_better`. -/
def StagCfg.better (cfg : StagCfg) (a b : ℝ) : Prop := if cfg.minimize then a ≤ b else b ≤ a

open Classical in
/-- Lines 390-393 `_update_step_size`: the success rate. -/
def stagRate (cfg : StagCfg) (success : Prop) (rate : ℝ) : ℝ := (1 - cfg.cp) * rate + cfg.cp * (if success then 1 else 0)

/-- Line 393. -/
def stagSigma (cfg : StagCfg) (rate sigma : ℝ) : ℝ := sigma * Real.exp ((rate - cfg.pTarget) / (1 - cfg.pTarget) / cfg.damp)

/-- Lines 409-411: the step size is out of range. -/
def OutOfRange (sigma : ℝ) : Prop := sigma < 1e-8 ∨ 1e8 < sigma

open Classical in
/-- Lines 302-337 `tell` after the first call, and 409-418 `_handle_exception`. -/
def stagTell (cfg : StagCfg) (i : StagIn) (s : StagState) : StagState :=
  if s.stop then s
  else
    let success := cfg.better (i.y + i.pen) s.fpen
    let rate := stagRate cfg success s.rate
    let sigma := stagSigma cfg rate s.sigma
    { s with
      rate := rate
      deltaF := s.deltaF * 0.9 + (if success then (1 - 0.9) * |s.fpen - (i.y + i.pen)| else 0)
      deltaX := s.deltaX * 0.9 + (if success then (1 - 0.9) * i.dist else 0)
      fpen := if success then i.y + i.pen else s.fpen
      fopt := if success ∧ i.pen = 0 then i.y else s.fopt
      sigma := if OutOfRange sigma ∨ (success ∧ i.covFails = true) then cfg.sigma0 else sigma }

/-- Lines 113-144, 218-221 and 302-320: the state after the constructor, `i` being the first point. -/
def stagInit (cfg : StagCfg) (nRestart : ℤ) (i : StagIn) : StagState where
  rate := cfg.pTarget
  sigma := cfg.sigma0
  deltaF := cfg.ftol / 0.9 ^ (5 * cfg.dim)
  deltaX := cfg.xtol / 0.9 ^ (5 * cfg.dim)
  fopt := i.y
  fpen := i.y + i.pen
  evalCount := 1
  nRestart := max 0 nRestart
  restartFlag := false
  stop := false
  dict := false
  restarts := 0

open Classical in
/-- Lines 355-359: target or budget reached. -/
def stagFinal (cfg : StagCfg) (s : StagState) : Bool :=
  decide (∃ t ∈ cfg.ftarget, cfg.better s.fopt t) || decide (∃ m ∈ cfg.maxFEs, m ≤ s.evalCount)

open Classical in
/-- Lines 362-369: the stagnation tests. -/
def stagTests (cfg : StagCfg) (s : StagState) : Bool :=
  decide (OutOfRange s.sigma) || decide (s.deltaF < cfg.ftol) || decide (s.deltaX < cfg.xtol)

/-- Lines 354-377 `check_stop`. -/
def stagCheck (cfg : StagCfg) (s : StagState) : StagState :=
  let d := s.dict || stagFinal cfg s || stagTests cfg s
  if stagFinal cfg s then { s with dict := d, stop := true }
  else if 0 < s.nRestart then { s with dict := d, restartFlag := d }
  else { s with dict := d, stop := d }

/-- Lines 266-277 `restart`; `i` is the new starting point, which is its own parent when it is told (line 218). -/
def stagRestart (cfg : StagCfg) (i : StagIn) (s : StagState) : StagState :=
  if s.restartFlag then
    { stagTell cfg { i with dist := 0 } { s with evalCount := s.evalCount + 1 } with
      sigma := cfg.sigma0
      deltaX := cfg.xtol * 200
      deltaF := cfg.ftol * 200
      dict := false
      nRestart := s.nRestart - 1
      restarts := s.restarts + 1 }
  else s

/-- Lines 240-246 `step`; `i.2` is used if there is a restart. -/
def stagStep (cfg : StagCfg) (i : StagIn × StagIn) (s : StagState) : StagState :=
  stagRestart cfg i.2 (stagCheck cfg (stagTell cfg i.1 { s with evalCount := s.evalCount + 1 }))

/-- Lines 235-238 `run`, at most `fuel` steps. -/
def stagRun (cfg : StagCfg) (inp : ℕ → StagIn × StagIn) : ℕ → ℕ → StagState → StagState
  | 0, _, s => s
  | fuel + 1, k, s => if s.stop then s else stagRun cfg inp fuel (k + 1) (stagStep cfg (inp k) s)

end

end Verif.Model
