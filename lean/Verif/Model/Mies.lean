import Verif.Model.Ask
import Verif.Model.BoxConstraint

/-!
# Model of the mixed-integer evolution strategy (`bayes_optim/acquisition/optim/mies.py`)

Strategy parameters (step sizes, mutation rates) are not represented: they only influence the proposals `x + sigma * R`,
`geometric(p) - geometric(p)` and the set of mutated categorical positions, and the theorems quantify over all
proposals.  Penalised fitness values are elements of a linear order (no NaN).  The branch `x0 is not None`
(lines 108-126) is not modelled.
-/
namespace Verif.Model

/-- The random outcomes used for one offspring: parents (line 325), positions taken from the second parent
(line 183), real proposals `x + sigma * R` (line 233), differences of geometric draws (line 257), and, for the mutated
categorical positions, the index of the new level (lines 270-274). -/
structure MNoise where
  p1 : ℕ
  p2 : ℕ
  mask : ℕ → Bool
  real : ℕ → ℝ
  int : ℕ → ℤ
  cat : ℕ → Option ℕ

/-- mies.py:175-185 `recombine`. -/
def recombineRow (n : MNoise) (a b : Row) : Row :=
  if n.p1 = n.p2 then a else (List.zip a b).mapIdx (fun j ab => if n.mask j then ab.2 else ab.1)

/-- mies.py:221-274 on one coordinate: reals are reflected into the box and rounded (235-238), integers reflected and
truncated (260), mutated categorical coordinates get a level (272-274). -/
noncomputable def mutateVal (n : MNoise) (j : ℕ) : Kind → Val → Val
  | .real v, .real _ => .real (v.round (reflect v.lo v.hi (n.real j)))
  | .integer v, .int z => .int (trunc (reflect v.lo v.hi ((z + n.int j : ℤ) : ℝ)))
  | k, .lvl l => .lvl (((n.cat j).bind (fun i => k.levels[i]?)).getD l)
  | _, x => x

/-- mies.py:212-219 `mutate`. -/
noncomputable def mutateRow (ks : List Kind) (n : MNoise) (r : Row) : Row :=
  (List.zip ks r).mapIdx (fun j kv => mutateVal n j kv.1 kv.2)

/-- The constructor arguments that matter. -/
structure MiesCfg (K : Type*) where
  kinds : List Kind
  minimize : Bool
  elitism : Bool
  mu : ℕ
  lam : ℕ
  maxEval : ℕ
  /-- objective plus penalty at iteration counter `t` (mies.py:199-210) -/
  fit : ℕ → Row → K
  /-- numpy's `argsort` -/
  argsort : List K → List ℕ

/-- The state; `evaluated` is a ghost variable, all rows with the penalised value computed for them. -/
structure MiesState (K : Type*) where
  pop : List (Row × K)
  xopt : Row
  fopt : K
  evalCount : ℕ
  iterCount : ℕ
  evaluated : List (Row × K)

variable {K : Type*} [LinearOrder K]

/-- mies.py:316-317 `_better`. -/
def betterThan (minimize : Bool) (a b : K) : Bool := if minimize then decide (a < b) else decide (b < a)

/-- `min(self.fitness) if self.minimize else max(self.fitness)` (line 142), with the first row that attains it (lines
143-144). -/
def firstBest (minimize : Bool) : List (Row × K) → Option (Row × K)
  | [] => none
  | e :: l =>
    match firstBest minimize l with
    | none => some e
    | some e' => if betterThan minimize e'.2 e.2 then some e' else some e

/-- mies.py:127-144 with the initial sample given. -/
def miesInit (cfg : MiesCfg K) (sample : List Row) : Option (MiesState K) :=
  let pop := sample.map (fun r => (r, cfg.fit 0 r))
  (firstBest cfg.minimize pop).map (fun e =>
    { pop := pop, xopt := e.1, fopt := e.2, evalCount := sample.length, iterCount := 0, evaluated := pop })

/-- mies.py:324-327: one offspring; `none` is an IndexError. -/
noncomputable def miesOffspring (cfg : MiesCfg K) (pop : List (Row × K)) (n : MNoise) : Option Row :=
  pop[n.p1]?.bind (fun a => pop[n.p2]?.map (fun b => mutateRow cfg.kinds n (recombineRow n a.1 b.1)))

/-- mies.py:187-197 `select`. -/
def miesSelect (cfg : MiesCfg K) (pop off : List (Row × K)) : List (Row × K) :=
  let all := if cfg.elitism then pop ++ off else off
  let rank := cfg.argsort (all.map Prod.snd)
  let rank := if cfg.minimize then rank else rank.reverse
  (rank.take cfg.mu).filterMap (fun i => all[i]?)

/-- mies.py:323-339: one generation; `none` is an IndexError. -/
noncomputable def miesStep (cfg : MiesCfg K) (s : MiesState K) (noise : ℕ → MNoise) : Option (MiesState K) :=
  ((List.range cfg.lam).mapM (fun i => miesOffspring cfg s.pop (noise i))).bind (fun rows =>
    let off := rows.map (fun r => (r, cfg.fit s.iterCount r))
    let pop := miesSelect cfg s.pop off
    pop.head?.map (fun c =>
      { pop := pop,
        xopt := if betterThan cfg.minimize c.2 s.fopt then c.1 else s.xopt,
        fopt := if betterThan cfg.minimize c.2 s.fopt then c.2 else s.fopt,
        evalCount := s.evalCount + rows.length,
        iterCount := s.iterCount + 1,
        evaluated := s.evaluated ++ off }))

/-- How `optimize` ends. -/
inductive MiesOut (K : Type*) where
  | done (s : MiesState K)
  | raised
  | running

/-- mies.py:320-344 `optimize`, at most `fuel` generations.  `flat t` says whether the criteria of lines 286-294
(tolerance and flat fitness, only after the first generation) hold at iteration `t`; the evaluation limit is tested with
`>` (line 277).  Once set, a criterion stays set. -/
noncomputable def miesLoop (cfg : MiesCfg K) (flat : ℕ → Bool) (noise : ℕ → ℕ → MNoise) :
    ℕ → MiesState K → MiesOut K
  | 0, _ => .running
  | fuel + 1, s =>
    if s.evalCount > cfg.maxEval ∨ (s.iterCount ≠ 0 ∧ flat s.iterCount = true) then .done s
    else match miesStep cfg s (noise s.iterCount) with
      | none => .raised
      | some s' => miesLoop cfg flat noise fuel s'

end Verif.Model
