import Verif.Model.Cholesky
import Verif.Model.OnePlusOne
import Verif.Model.Stagnation

/-!
# The (1+1)-Cholesky-CMA-ES as one program (`bayes_optim/acquisition/optim/one_plus_one_cma_es.py:100-468`)

`Verif.Model.OnePlusOne` follows the points, `Verif.Model.Stagnation` the step size and the stopping tests, `Verif.Model.Cholesky` the
matrices; each leaves the others open.  Here they are put together: the only inputs are the random numbers.  Numbers are reals without
rounding errors, all bounds are finite; `none` stands for a run in which NaN has appeared (division by `L = 0` in the update of the
factor).
-/
namespace Verif.Model

open Matrix

noncomputable section

/-- The arguments of the constructor (lines 100-144): `stag` holds the scalars (`stag.dim` is not used, the dimension is `n`), `par` the
learning rates of the covariance matrix, `vars` the search space. -/
structure OpoCfg (n : ℕ) where
  stag : StagCfg
  par : CholPar
  vars : Fin n → RealVar
  objective : (Fin n → ℝ) → ℝ
  penalty : ℕ → (Fin n → ℝ) → ℝ

/-- The attributes once the first point has been told. -/
structure OpoState (n : ℕ) where
  x : Fin n → ℝ
  xopt : Fin n → ℝ
  fopt : ℝ
  fpen : ℝ
  chol : CholState n
  rate : ℝ
  sigma : ℝ
  deltaF : ℝ
  deltaX : ℝ
  evalCount : ℕ
  iterCount : ℕ
  nRestart : ℤ
  restartFlag : Bool
  stop : Bool
  dict : Bool

variable {n : ℕ}

/-- Lines 326-327: the distance between two points. -/
def opoDist (x y : Fin n → ℝ) : ℝ := Real.sqrt (∑ i, (x i - y i) ^ 2)

open Classical in
/-- Lines 302-337 `tell` after the first call, with 390-393, 409-417 and 451-468. -/
def opoTell (cfg : OpoCfg n) (s : OpoState n) (x : Fin n → ℝ) (y pen : ℝ) : Option (OpoState n) :=
  if s.stop then some s
  else
    let success := cfg.stag.better (y + pen) s.fpen
    let z : Fin n → ℝ := fun i => (x i - s.x i) / s.sigma
    let rate := stagRate cfg.stag success s.rate
    let sigma := stagSigma cfg.stag rate s.sigma
    (if success then cholUpdate cfg.par rate z s.chol else some s.chol).map fun chol =>
      { s with
        rate := rate
        deltaF := s.deltaF * 0.9 + (if success then (1 - 0.9) * |s.fpen - (y + pen)| else 0)
        deltaX := s.deltaX * 0.9 + (if success then (1 - 0.9) * opoDist s.x x else 0)
        fpen := if success then y + pen else s.fpen
        x := if success then x else s.x
        xopt := if success ∧ pen = 0 then x else s.xopt
        fopt := if success ∧ pen = 0 then y else s.fopt
        sigma := if OutOfRange sigma then cfg.stag.sigma0 else sigma
        chol := if OutOfRange sigma then cholReset chol else chol
        iterCount := s.iterCount + 1 }

/-- Lines 258-264, 248-256, 302: evaluate, compute the penalty and tell. -/
def opoEvaluate (cfg : OpoCfg n) (s : OpoState n) (x : Fin n → ℝ) : Option (OpoState n) :=
  opoTell cfg { s with evalCount := s.evalCount + 1 } x (cfg.objective x) (cfg.penalty (s.iterCount + 1) x)

/-- Line 294: the mutant for the normal random numbers `g`, before it is repaired. -/
def opoMutant (s : OpoState n) (g : Fin n → ℝ) : Fin n → ℝ := fun i => s.x i + s.sigma * (s.chol.A *ᵥ g) i

/-- Lines 295-297: reflection at the bounds, then rounding. -/
def opoRepair (cfg : OpoCfg n) (m : Fin n → ℝ) : Fin n → ℝ :=
  fun i => (cfg.vars i).round (reflect (cfg.vars i).lo (cfg.vars i).hi (m i))

open Classical in
/-- Lines 355-359: target or budget reached. -/
def opoFinal (cfg : OpoCfg n) (s : OpoState n) : Bool :=
  decide (∃ t ∈ cfg.stag.ftarget, cfg.stag.better s.fopt t) || decide (∃ m ∈ cfg.stag.maxFEs, m ≤ s.evalCount)

open Classical in
/-- Lines 362-369. -/
def opoStagnates (cfg : OpoCfg n) (s : OpoState n) : Bool :=
  decide (OutOfRange s.sigma) || decide (s.deltaF < cfg.stag.ftol) || decide (s.deltaX < cfg.stag.xtol)

/-- Lines 354-377 `check_stop`. -/
def opoCheck (cfg : OpoCfg n) (s : OpoState n) : OpoState n :=
  let d := s.dict || opoFinal cfg s || opoStagnates cfg s
  if opoFinal cfg s then { s with dict := d, stop := true }
  else if 0 < s.nRestart then { s with dict := d, restartFlag := d }
  else { s with dict := d, stop := d }

/-- Line 216: the sample for uniform random numbers `u`. -/
def opoSample (cfg : OpoCfg n) (u : Fin n → ℝ) : Fin n → ℝ :=
  fun i => ((cfg.vars i).hi - (cfg.vars i).lo) * u i + (cfg.vars i).lo

/-- Lines 266-277 `restart`: the setter of `x` tells the new point first, with the old step size and matrices. -/
def opoRestart (cfg : OpoCfg n) (u : Fin n → ℝ) (s : OpoState n) : Option (OpoState n) :=
  if s.restartFlag then
    (opoEvaluate cfg { s with x := opoSample cfg u } (opoSample cfg u)).map fun s' =>
      { s' with
        sigma := cfg.stag.sigma0
        chol := cholReset s'.chol
        deltaX := cfg.stag.xtol * 200
        deltaF := cfg.stag.ftol * 200
        dict := false
        nRestart := s'.nRestart - 1 }
  else some s

/-- Lines 240-246 `step`; `g` are the normal random numbers of `ask`, `u` the uniform ones of a restart. -/
def opoStep (cfg : OpoCfg n) (g u : Fin n → ℝ) (s : OpoState n) : Option (OpoState n) :=
  (opoEvaluate cfg s (opoRepair cfg (opoMutant s g))).bind fun s' => opoRestart cfg u (opoCheck cfg s')

/-- Lines 100-146, 207-221, 302-320: the state after the constructor with starting point `x0`. -/
def opoInit (cfg : OpoCfg n) (x0 : Fin n → ℝ) (nRestart : ℤ) : OpoState n where
  x := x0
  xopt := x0
  fopt := cfg.objective x0
  fpen := cfg.objective x0 + cfg.penalty 1 x0
  chol := cholInit n
  rate := cfg.stag.pTarget
  sigma := cfg.stag.sigma0
  deltaF := cfg.stag.ftol / 0.9 ^ (5 * n)
  deltaX := cfg.stag.xtol / 0.9 ^ (5 * n)
  evalCount := 1
  iterCount := 0
  nRestart := max 0 nRestart
  restartFlag := false
  stop := false
  dict := false

/-- Lines 235-238 `run` after `k` passes of the loop (or fewer, if it has ended); `g k` and `u k` are the random numbers of pass `k`. -/
def opoRun (cfg : OpoCfg n) (g u : ℕ → Fin n → ℝ) (x0 : Fin n → ℝ) (nRestart : ℤ) : ℕ → Option (OpoState n)
  | 0 => some (opoInit cfg x0 nRestart)
  | k + 1 => (opoRun cfg g u x0 nRestart k).bind fun s => if s.stop then some s else opoStep cfg (g k) (u k) s

end

end Verif.Model
