import Verif.Model.Mies

/-!
# The self-adaptation of the mixed-integer evolution strategy (`bayes_optim/acquisition/optim/mies.py`)

`Model/Mies` takes the proposals as given; here they come from the mutation strengths, which are inherited, averaged and mutated.  Strengths are indexed by the
coordinate they belong to (the code appends them to the row).  Rounding errors are not modelled.
-/
namespace Verif.Model

/-- mies.py:62-70: how many variables there are of a type. -/
def countType (p : VType → Bool) (ks : List Kind) : ℕ := (ks.filter fun k => p k.vtype).length

/-- mies.py:68 `N_r` -/
def countReal (ks : List Kind) : ℕ := countType (fun t => t == .real) ks

/-- mies.py:69 `N_i` -/
def countInteger (ks : List Kind) : ℕ := countType (fun t => t == .integer) ks

/-- mies.py:70 `N_d` (`categorical_id` has all other types) -/
def countCategorical (ks : List Kind) : ℕ := countType (fun t => t != .real && t != .integer) ks

/-- A row of the population with its step sizes for the real variables, its strengths for the integer variables and its mutation probability. -/
structure Individual where
  row : Row
  sigma : ℕ → ℝ
  eta : ℕ → ℝ
  prob : ℝ

/-- The random numbers used for one offspring: the parents (line 325), the positions taken from the second parent (line 183), the normal numbers of lines 225-230, the normal
numbers of lines 250-253, the geometric numbers of line 257, the normal number of line 267, and the uniform numbers and level numbers of lines 270-274. -/
structure StrengthNoise where
  p1 : ℕ
  p2 : ℕ
  mask : ℕ → Bool
  zr : ℝ
  zrs : ℕ → ℝ
  R : ℕ → ℝ
  zi : ℝ
  zis : ℕ → ℝ
  g1 : ℕ → ℕ
  g2 : ℕ → ℕ
  zd : ℝ
  u : ℕ → ℝ
  level : ℕ → ℕ

/-- mies.py:164, 168, 172 `tau = 1 / sqrt(2 N)` -/
noncomputable def tauGlobal (N : ℕ) : ℝ := 1 / Real.sqrt (2 * N)

/-- mies.py:165, 169 `tau_p = 1 / sqrt(2 sqrt(N))` -/
noncomputable def tauLocal (N : ℕ) : ℝ := 1 / Real.sqrt (2 * Real.sqrt N)

/-- mies.py:224-227, 250-253: the factor of a step size. -/
noncomputable def stepFactor (N : ℕ) (z zj : ℝ) : ℝ := if N = 1 then Real.exp (tauGlobal N * z) else Real.exp (tauGlobal N * z + tauLocal N * zj)

/-- mies.py:224-227: the step size used for the proposal. -/
noncomputable def sigmaUsed (ks : List Kind) (n : StrengthNoise) (a : Individual) (j : ℕ) : ℝ := a.sigma j * stepFactor (countReal ks) n.zr (n.zrs j)

/-- mies.py:250-254: the strength of an integer variable, at most 1. -/
noncomputable def etaUsed (ks : List Kind) (n : StrengthNoise) (a : Individual) (j : ℕ) : ℝ := min (a.eta j * stepFactor (countInteger ks) n.zi (n.zis j)) 1

/-- mies.py:256: the parameter of the two geometric draws. -/
noncomputable def geometricPar (N : ℕ) (eta : ℝ) : ℝ := 1 - eta / N / (1 + Real.sqrt (1 + (eta / N) ^ 2))

/-- mies.py:265-267: the mutation probability used for the categorical variables. -/
noncomputable def probUsed (ks : List Kind) (n : StrengthNoise) (a : Individual) : ℝ :=
  1 / (1 + (1 - a.prob) / a.prob * Real.exp (-tauGlobal (countCategorical ks) * n.zd))

/-- The real number at position `j` (0 if there is none). -/
def realAt (r : Row) (j : ℕ) : ℝ :=
  match r[j]? with
  | some (.real x) => x
  | _ => 0

/-- mies.py:221-274: the proposals that come out of the strengths. -/
noncomputable def proposalsOf (ks : List Kind) (n : StrengthNoise) (a : Individual) : MNoise where
  p1 := n.p1
  p2 := n.p2
  mask := n.mask
  real j := realAt a.row j + sigmaUsed ks n a j * n.R j
  int j := (n.g1 j : ℤ) - n.g2 j
  cat j := if n.u j < probUsed ks n a then some (n.level j) else none

/-- mies.py:212-274 `mutate`: the row changes as in `mutateRow`; a step size becomes the step made over the normal number (line 242), the strength of an integer variable the
one used (line 262), the probability the one used, reflected into its bounds (line 268).  Division by a normal number that is exactly 0 is not modelled. -/
noncomputable def mutateInd (ks : List Kind) (n : StrengthNoise) (a : Individual) : Individual where
  row := mutateRow ks (proposalsOf ks n a) a.row
  sigma j := |(realAt (mutateRow ks (proposalsOf ks n a) a.row) j - realAt a.row j) / n.R j|
  eta j := etaUsed ks n a j
  prob := reflect (1 / (3 * countCategorical ks)) (1 / 2) (probUsed ks n a)

/-- mies.py:175-185 `recombine`: strengths are averaged. -/
noncomputable def recombineInd (ks : List Kind) (n : StrengthNoise) (a b : Individual) : Individual where
  row := recombineRow (proposalsOf ks n a) a.row b.row
  sigma j := if n.p1 = n.p2 then a.sigma j else (a.sigma j + b.sigma j) / 2
  eta j := if n.p1 = n.p2 then a.eta j else (a.eta j + b.eta j) / 2
  prob := if n.p1 = n.p2 then a.prob else (a.prob + b.prob) / 2

/-- mies.py:90-97, 129-138: the strengths at the start. -/
noncomputable def startInd (ks : List Kind) (row : Row) : Individual where
  row := row
  sigma j := match ks[j]? with
    | some (.real v) => 5 / 100 * (v.hi - v.lo)
    | _ => 0
  eta j := match ks[j]? with
    | some (.integer v) => 5 / 100 * (v.hi - v.lo)
    | _ => 0
  prob := 1 / countCategorical ks

/-- mies.py:155-159 `_check_bounds` -/
def boundsChecked : Kind → Prop
  | .real v => v.lo < v.hi
  | .integer v => v.lo < v.hi
  | _ => True

/-- The population with its strengths and penalised values, the generation counter and everything evaluated. -/
structure StrengthState (K : Type*) where
  pop : List (Individual × K)
  iterCount : ℕ
  evaluated : List (Row × K)

variable {K : Type*}

open Classical in
/-- mies.py:79-144 with the initial sample given; `none` is the ValueError of line 159. -/
noncomputable def strengthInit (cfg : MiesCfg K) (sample : List Row) : Option (StrengthState K) :=
  if ∀ k ∈ cfg.kinds, boundsChecked k then
    some { pop := sample.map fun r => (startInd cfg.kinds r, cfg.fit 0 r), iterCount := 0, evaluated := sample.map fun r => (r, cfg.fit 0 r) }
  else none

/-- mies.py:187-197 `select` -/
def strengthSelect (cfg : MiesCfg K) (pop off : List (Individual × K)) : List (Individual × K) :=
  let all := if cfg.elitism then pop ++ off else off
  let rank := cfg.argsort (all.map Prod.snd)
  let rank := if cfg.minimize then rank else rank.reverse
  (rank.take cfg.mu).filterMap (fun i => all[i]?)

/-- mies.py:324-327: one offspring; `none` is an IndexError. -/
noncomputable def strengthOffspring (cfg : MiesCfg K) (pop : List (Individual × K)) (n : StrengthNoise) : Option Individual :=
  pop[n.p1]?.bind fun a => pop[n.p2]?.map fun b => mutateInd cfg.kinds n (recombineInd cfg.kinds n a.1 b.1)

/-- mies.py:323-331: one generation. -/
noncomputable def strengthStep (cfg : MiesCfg K) (s : StrengthState K) (noise : ℕ → StrengthNoise) : Option (StrengthState K) :=
  ((List.range cfg.lam).mapM fun i => strengthOffspring cfg s.pop (noise i)).map fun inds =>
    { pop := strengthSelect cfg s.pop (inds.map fun a => (a, cfg.fit s.iterCount a.row)), iterCount := s.iterCount + 1,
      evaluated := s.evaluated ++ inds.map fun a => (a.row, cfg.fit s.iterCount a.row) }

/-- The state after `t` generations. -/
noncomputable def strengthAfter (cfg : MiesCfg K) (sample : List Row) (noise : ℕ → ℕ → StrengthNoise) : ℕ → Option (StrengthState K)
  | 0 => strengthInit cfg sample
  | t + 1 => (strengthAfter cfg sample noise t).bind fun s => strengthStep cfg s (noise t)

end Verif.Model
