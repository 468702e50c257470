import Verif.Model.Variables
import Verif.Model.BoxConstraint

/-!
# Model of the (1+1)-CMA-ES (`bayes_optim/acquisition/optim/one_plus_one_cma_es.py:18-418`)

The step size, covariance matrix and evolution path are not represented: they determine the mutant `x + sigma * z` of
line 294 and the stagnation tests of lines 362-369, and the theorems quantify over all mutants and outcomes of these
tests.  All bounds are finite.  Objective values and penalties are reals (no NaN).
-/
namespace Verif.Model

/-- The constructor arguments that matter (lines 100-122).  `objective x` is the value of `obj_fun`, `penalty t x` that of
`dynamic_penalty` at time `t`. -/
structure CmaCfg (n : ℕ) where
  vars : Fin n → RealVar
  objective : (Fin n → ℝ) → ℝ
  penalty : ℕ → (Fin n → ℝ) → ℝ
  minimize : Bool
  ftarget : Option ℝ
  maxFEs : ℕ

/-- One evaluated point: the point, its objective value and its penalty at the time. -/
structure CmaEval (n : ℕ) where
  x : Fin n → ℝ
  y : ℝ
  pen : ℝ

/-- The attributes; `x` is `_x`, `best` is `None` before the first evaluation and otherwise `xopt`, `fopt`,
`fopt_penalized`; `dict` says whether `stop_dict` has an entry; `told` (all points processed by `tell`, oldest first)
and `restarts` (number of times `restart` has restarted) are ghost variables. -/
structure CmaState (n : ℕ) where
  x : Fin n → ℝ
  best : Option ((Fin n → ℝ) × ℝ × ℝ)
  evalCount : ℕ
  iterCount : ℕ
  nRestart : ℤ
  restartFlag : Bool
  stop : Bool
  dict : Bool
  told : List (CmaEval n)
  restarts : ℕ

variable {n : ℕ}

/-- Line 122 `_better`. -/
noncomputable def CmaCfg.better (cfg : CmaCfg n) (a b : ℝ) : Bool :=
  if cfg.minimize then decide (a ≤ b) else decide (b ≤ a)

/-- Lines 302-337 `tell`. -/
noncomputable def cmaTell (cfg : CmaCfg n) (s : CmaState n) (x : Fin n → ℝ) (y pen : ℝ) : CmaState n :=
  if s.stop then s
  else match s.best with
    | none => { s with best := some (x, y, y + pen), told := s.told ++ [⟨x, y, pen⟩] }
    | some (xopt, fopt, fpen) =>
      let success := cfg.better (y + pen) fpen
      { s with
        x := if success then x else s.x,
        best := some (if success = true ∧ pen = 0 then x else xopt, if success = true ∧ pen = 0 then y else fopt,
          if success then y + pen else fpen),
        iterCount := s.iterCount + 1,
        told := s.told ++ [⟨x, y, pen⟩] }

/-- Lines 258-264, 248-256 and 302: evaluate `x`, compute the penalty and tell. -/
noncomputable def cmaEvaluate (cfg : CmaCfg n) (s : CmaState n) (x : Fin n → ℝ) : CmaState n :=
  cmaTell cfg { s with evalCount := s.evalCount + 1 } x (cfg.objective x) (cfg.penalty (s.iterCount + 1) x)

/-- Lines 218-221: the end of the setter of `x`, for a given or sampled point. -/
noncomputable def cmaSetX (cfg : CmaCfg n) (s : CmaState n) (x : Fin n → ℝ) : CmaState n :=
  cmaEvaluate cfg { s with x := x } x

/-- Lines 113-120, 127, 144: the state before the initial point is set; `r` is the argument `n_restart`. -/
def cmaEmpty (x : Fin n → ℝ) (r : ℤ) : CmaState n :=
  { x := x, best := none, evalCount := 0, iterCount := 0, nRestart := max 0 r, restartFlag := false, stop := false,
    dict := false, told := [], restarts := 0 }

/-- Lines 146 and 207-221: the constructor with `x0`; `none` is an AssertionError. -/
noncomputable def cmaInit (cfg : CmaCfg n) (x0 : Fin n → ℝ) (r : ℤ) : Option (CmaState n) :=
  open Classical in
  if ∀ i, (cfg.vars i).lo ≤ x0 i ∧ x0 i ≤ (cfg.vars i).hi then some (cmaSetX cfg (cmaEmpty x0 r) x0) else none

/-- Line 216: the uniform sample, `u` being the random numbers in `[0, 1)`. -/
def cmaSample (cfg : CmaCfg n) (u : Fin n → ℝ) : Fin n → ℝ :=
  fun i => ((cfg.vars i).hi - (cfg.vars i).lo) * u i + (cfg.vars i).lo

/-- Lines 294-297 `ask`: `m` is the mutant `x + sigma * z`; it is reflected and rounded. -/
noncomputable def cmaAsk (cfg : CmaCfg n) (m : Fin n → ℝ) : Fin n → ℝ :=
  fun i => (cfg.vars i).round (reflect (cfg.vars i).lo (cfg.vars i).hi (m i))

/-- Lines 355-356: the target has been reached. -/
noncomputable def cmaHit (cfg : CmaCfg n) (s : CmaState n) : Bool :=
  match cfg.ftarget, s.best with
  | some t, some b => cfg.better b.2.1 t
  | _, _ => false

/-- Lines 358-359: the evaluations are used up. -/
def cmaFull (cfg : CmaCfg n) (s : CmaState n) : Bool := decide (cfg.maxFEs ≤ s.evalCount)

/-- Lines 354-377 `check_stop`; `stag` says whether one of the tests in lines 362-369 fires. -/
noncomputable def cmaCheckStop (cfg : CmaCfg n) (stag : Bool) (s : CmaState n) : CmaState n :=
  let d := s.dict || cmaHit cfg s || cmaFull cfg s || stag
  if cmaHit cfg s || cmaFull cfg s then { s with dict := d, stop := true }
  else if 0 < s.nRestart then { s with dict := d, restartFlag := d }
  else { s with dict := d, stop := d }

/-- Lines 266-277 `restart`. -/
noncomputable def cmaRestart (cfg : CmaCfg n) (u : Fin n → ℝ) (s : CmaState n) : CmaState n :=
  if s.restartFlag then
    { cmaSetX cfg s (cmaSample cfg u) with dict := false, nRestart := s.nRestart - 1, restarts := s.restarts + 1 }
  else s

/-- The random outcomes of one step: the mutant as a function of the parent, the stagnation tests, and the sample used if
a restart happens. -/
structure CmaNoise (n : ℕ) where
  mutant : (Fin n → ℝ) → Fin n → ℝ
  stag : Bool
  u : Fin n → ℝ

/-- Lines 240-246 `step`. -/
noncomputable def cmaStep (cfg : CmaCfg n) (w : CmaNoise n) (s : CmaState n) : CmaState n :=
  cmaRestart cfg w.u (cmaCheckStop cfg w.stag (cmaEvaluate cfg s (cmaAsk cfg (w.mutant s.x))))

/-- `k` steps. -/
noncomputable def cmaSteps (cfg : CmaCfg n) : List (CmaNoise n) → CmaState n → CmaState n
  | [], s => s
  | w :: ws, s => cmaSteps cfg ws (cmaStep cfg w s)

/-- Lines 235-238 `run`, at most `fuel` steps; the second component says whether the loop ended by itself. -/
noncomputable def cmaRun (cfg : CmaCfg n) (noise : ℕ → CmaNoise n) : ℕ → ℕ → CmaState n → CmaState n × Bool
  | 0, _, s => (s, s.stop)
  | fuel + 1, k, s => if s.stop then (s, true) else cmaRun cfg noise fuel (k + 1) (cmaStep cfg (noise k) s)

end Verif.Model
