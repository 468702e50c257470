import Verif.Model.MiesStrength

/-!
# The mixed-integer evolution strategy as one program (`bayes_optim/acquisition/optim/mies.py`)

`Model/Mies` takes proposals and stopping tests as given, `Model/MiesStrength` adds the mutation strengths.  Here `optimize` is put together with the stopping tests of the code,
so that the only inputs are the initial sample and the random numbers.  Numbers are reals without rounding errors; the limit on the evaluations is finite.
-/
namespace Verif.Model

/-- The attributes that `optimize` reads and writes; `flags` are the entries `max_eval`, `tolfun` and `flatfitness` of `stop_dict`, `stopped` says that the loop has ended. -/
structure MiesFullState where
  core : StrengthState ℝ
  xopt : Row
  fopt : ℝ
  fOff : List ℝ
  hist : ℕ → ℝ
  evalCount : ℕ
  flagEval : Bool
  flagTol : Bool
  flagFlat : Bool
  stopped : Bool

/-- mies.py:152 `nbin = int(3 + ceil(30.0 * dim / lambda_))` -/
def historyLength (cfg : MiesCfg ℝ) : ℕ := 3 + ⌈(30 * cfg.kinds.length : ℚ) / cfg.lam⌉₊

/-- mies.py:293 `int(min(ceil(0.1 + lambda_ / 4.0), mu_ - 1))`, for `mu_` from 1. -/
def comparedPosition (cfg : MiesCfg ℝ) : ℕ := min ⌈(0.1 : ℚ) + cfg.lam / 4⌉₊ (cfg.mu - 1)

/-- mies.py:282 `int(mod(eval_count / lambda_ - 1, nbin))`: the integer part of the remainder is the remainder of the integer part. -/
def historySlot (cfg : MiesCfg ℝ) (evalCount : ℕ) : ℕ := (evalCount / cfg.lam - 1) % historyLength cfg

/-- mies.py:285 `max(histfunval) - min(histfunval) < tolfun` -/
def historyFlat (cfg : MiesCfg ℝ) (hist : ℕ → ℝ) : Prop :=
  ∀ i < historyLength cfg, ∀ j < historyLength cfg, hist i - hist j < 1e-5

noncomputable section

/-- mies.py:79-153 with the initial sample given; `none` is an exception (bounds, or no sample). -/
def miesFullInit (cfg : MiesCfg ℝ) (sample : List Row) : Option MiesFullState :=
  (strengthInit cfg sample).bind fun c => (firstBest cfg.minimize (c.pop.map fun e => (e.1.row, e.2))).map fun e =>
    { core := c, xopt := e.1, fopt := e.2, fOff := List.replicate cfg.lam (((c.pop.map Prod.snd).head?).getD 0), hist := fun _ => 0, evalCount := sample.length,
      flagEval := false, flagTol := false, flagFlat := false, stopped := false }

open Classical in
/-- mies.py:276-314 `stop`; `none` is the IndexError of line 293.  `mod(eval_count / lambda_, nbin) == 0` says that `lambda_ * nbin` divides the count. -/
def miesFullStop (cfg : MiesCfg ℝ) (s : MiesFullState) : Option MiesFullState :=
  let flagEval := s.flagEval || decide (cfg.maxEval < s.evalCount)
  if s.evalCount ≠ 0 ∧ s.core.iterCount ≠ 0 then
    s.fOff[0]?.bind fun f0 => s.fOff[comparedPosition cfg]?.map fun fk =>
      let hist := Function.update s.hist (historySlot cfg s.evalCount) f0
      { s with
        hist := hist, flagEval := flagEval, flagTol := s.flagTol || decide (cfg.lam * historyLength cfg ∣ s.evalCount ∧ historyFlat cfg hist),
        flagFlat := s.flagFlat || decide (f0 = fk) }
  else some { s with flagEval := flagEval }

/-- mies.py:323-339: the body of the loop; `none` is an IndexError. -/
def miesFullStep (cfg : MiesCfg ℝ) (s : MiesFullState) (noise : ℕ → StrengthNoise) : Option MiesFullState :=
  ((List.range cfg.lam).mapM fun i => strengthOffspring cfg s.core.pop (noise i)).bind fun inds =>
    let off := inds.map fun a => (a, cfg.fit s.core.iterCount a.row)
    let pop := strengthSelect cfg s.core.pop off
    pop.head?.map fun c =>
      { s with
        core := { pop := pop, iterCount := s.core.iterCount + 1, evaluated := s.core.evaluated ++ off.map fun e => (e.1.row, e.2) },
        xopt := if betterThan cfg.minimize c.2 s.fopt then c.1.row else s.xopt, fopt := if betterThan cfg.minimize c.2 s.fopt then c.2 else s.fopt,
        fOff := off.map Prod.snd, evalCount := s.evalCount + inds.length }

/-- mies.py:320-339: one pass of `while not self.stop()`. -/
def miesFullPass (cfg : MiesCfg ℝ) (noise : ℕ → ℕ → StrengthNoise) (s : MiesFullState) : Option MiesFullState :=
  if s.stopped then some s
  else (miesFullStop cfg s).bind fun s' =>
    if s'.flagEval || s'.flagTol || s'.flagFlat then some { s' with stopped := true } else miesFullStep cfg s' (noise s'.core.iterCount)

/-- The state after `t` passes; `noise k` are the random numbers of generation `k`. -/
def miesFullRun (cfg : MiesCfg ℝ) (sample : List Row) (noise : ℕ → ℕ → StrengthNoise) : ℕ → Option MiesFullState
  | 0 => miesFullInit cfg sample
  | t + 1 => (miesFullRun cfg sample noise t).bind (miesFullPass cfg noise)

end

end Verif.Model
