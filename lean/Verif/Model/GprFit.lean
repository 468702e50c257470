import Verif.Model.Likelihood

/-!
# Model of hyper-parameter search and fitting: `bayes_optim/surrogate/gaussian_process/gpr.py` 251-263 (`__init__`), 376-413 (`fit`),
1110-1162 (`_optimize_hyperparameter`, the BFGS branch)

The local searches (`fmin_l_bfgs_b` with its random starting points) are oracles.  There is one target column and a scalar nugget
(an array longer than 1 raises in line 252).  Printing is left out.
-/
namespace Verif.Model

open Matrix

noncomputable section

/-- What one call of `fmin_l_bfgs_b` returns: `param_opt_`, `llf_opt_`, `info["funcalls"]`. -/
structure LocalRun (P V : Type*) where
  param : P
  value : V
  calls : ℕ

/-- The variables of the restart loop: `param_opt`, `llf_opt`, `wait_count`, `eval_budget` (gpr.py:1110-1129). -/
structure FitRestartState (P V : Type*) where
  param : P
  value : V
  wait : ℕ
  budget : ℤ

open Classical in
/-- gpr.py:1142-1150: the state after iteration `i > 0`. -/
def fitRestartStep {P V : Type*} [LE V] (s : FitRestartState P V) (r : LocalRun P V) : FitRestartState P V :=
  if r.value ≤ s.value then { param := r.param, value := r.value, wait := 0, budget := s.budget - r.calls }
  else { s with wait := s.wait + 1, budget := s.budget - r.calls }

/-- gpr.py:1160-1162: the test for leaving the loop. -/
def fitRestartStop {P V : Type*} (waitIter : ℤ) (s : FitRestartState P V) : Bool := decide (s.budget ≤ 0 ∨ waitIter ≤ s.wait)

/-- gpr.py:1131-1162 from iteration `i` on, with `fuel` iterations left in `range(self.random_start)`; `run i` is the local search of
iteration `i`.  Also returns the number of iterations performed. -/
def fitRestartFrom {P V : Type*} [LE V] (run : ℕ → LocalRun P V) (waitIter : ℤ) :
    ℕ → ℕ → FitRestartState P V → FitRestartState P V × ℕ
  | 0, i, s => (s, i)
  | fuel + 1, i, s =>
    let s' := fitRestartStep s (run i)
    if fitRestartStop waitIter s' then (s', i + 1) else fitRestartFrom run waitIter fuel (i + 1) s'

/-- gpr.py:1129-1162 for `optimizer="BFGS"`.  `none` is the UnboundLocalError of line 1183 when the loop body never ran. -/
def fitRestartLoop {P V : Type*} [LE V] (run : ℕ → LocalRun P V) (waitIter : ℤ) (budget : ℤ) (randomStart : ℕ) :
    Option (FitRestartState P V × ℕ) :=
  match randomStart with
  | 0 => none
  | fuel + 1 =>
    let r := run 0
    let s : FitRestartState P V := { param := r.param, value := r.value, wait := 0, budget := budget - r.calls }
    some (if fitRestartStop waitIter s then (s, 1) else fitRestartFrom run waitIter fuel 1 s)

/-- `self.estimation_mode`. -/
inductive FitMode
  | noiseless | noiseEstim | noisy
  deriving DecidableEq

/-- The attributes that `fit` reads and writes between searches. -/
structure FitState where
  mode : FitMode
  noise : ℝ

open Classical in
/-- gpr.py:251-263. -/
def fitInit (nugget : ℝ) (noiseEstim : Bool) : FitState where
  mode := if ¬(nugget ≠ 0 ∨ noiseEstim = true) then .noiseless else if noiseEstim then .noiseEstim else .noisy
  noise := if nugget ≠ 0 then nugget else 0

/-- gpr.py:393-397: after an infinite likelihood. -/
def raiseNugget (s : FitState) : FitState :=
  match s.mode with
  | .noiseless => { mode := .noisy, noise := 1e-5 }
  | _ => { s with noise := s.noise * 10 }

/-- The attributes before round `j` of the `while True` of line 384, if no round succeeded before. -/
def fitRoundState (s : FitState) : ℕ → FitState
  | 0 => s
  | j + 1 => raiseNugget (fitRoundState s j)

/-- The likelihood mode for the state and the last parameter: `sigma2` or `alpha` (gpr.py:933, 950, 964-965). -/
def FitState.gpMode (s : FitState) (last : ℝ) : GpMode :=
  match s.mode with
  | .noiseless => .noiseless
  | .noiseEstim => .noiseEstim last
  | .noisy => .noisy last s.noise

variable {N k : ℕ} {T : Type*}

/-- The likelihood of the parameters that round `j` ends with (gpr.py:1183-1188); `corrMatrix` is `self.correlation_matrix` and
`search j s` are the parameters (the last one is unused without noise) that the search of round `j` returns. -/
def fitRound (chol : Matrix (Fin N) (Fin N) ℝ → Option (Matrix (Fin N) (Fin N) ℝ))
    (qr : Matrix (Fin N) (Fin k) ℝ → Matrix (Fin N) (Fin k) ℝ × Matrix (Fin k) (Fin k) ℝ) (corrMatrix : T → Matrix (Fin N) (Fin N) ℝ)
    (F : Matrix (Fin N) (Fin k) ℝ) (beta : Option (Fin k → ℝ)) (y : Fin N → ℝ) (search : ℕ → FitState → T × ℝ) (j : ℕ) (s : FitState) :
    Option (ℝ × LlfEnv N k) :=
  llfConcentrated chol qr (s.gpMode (search j s).2) (corrMatrix (search j s).1) F beta y

/-- gpr.py:376-413 `fit` ends in round `j` (counted from 0), with the returned value and attributes; `s'` are the mode and noise
afterwards (line 403 sets `noise_var` from the result).  Relational, as the loop need not end. -/
def FitEnds (chol : Matrix (Fin N) (Fin N) ℝ → Option (Matrix (Fin N) (Fin N) ℝ))
    (qr : Matrix (Fin N) (Fin k) ℝ → Matrix (Fin N) (Fin k) ℝ × Matrix (Fin k) (Fin k) ℝ) (corrMatrix : T → Matrix (Fin N) (Fin N) ℝ)
    (F : Matrix (Fin N) (Fin k) ℝ) (beta : Option (Fin k → ℝ)) (y : Fin N → ℝ) (search : ℕ → FitState → T × ℝ) (s : FitState)
    (j : ℕ) (out : ℝ × LlfEnv N k) (s' : FitState) : Prop :=
  (∀ i < j, fitRound chol qr corrMatrix F beta y search i (fitRoundState s i) = none) ∧
  fitRound chol qr corrMatrix F beta y search j (fitRoundState s j) = some out ∧
  s' = { mode := (fitRoundState s j).mode, noise := out.2.noiseVar }

end

end Verif.Model
