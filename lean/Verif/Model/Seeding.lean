import Verif.Model.AskFull
import Verif.Model.FullRun
import Mathlib.Analysis.SpecialFunctions.Log.Basic

/-!
# numpy's global generator during an optimisation

`SearchSpace.__init__` calls `np.random.seed(random_seed)` (search_space.py:97, 129-134), also when a space is sliced (263), as `filter` does (421-437).  `ask` slices the
space before it draws anything: base.py:376 in `create_DoE`, base.py:236 with 464 in `arg_max_acquisition`.  Here the generator is threaded through these calls.
-/
namespace Verif.Model

noncomputable section

/-- The state of the generator, and how often it was restarted from the entropy of the operating system so far. -/
structure GenState (G : Type*) where
  gen : G
  restarts : ℕ

/-- The generator and what the operating system delivers at each restart without a seed. -/
structure GenSource (G : Type*) where
  rng : Rng G
  entropy : ℕ → G

variable {G : Type*}

/-- `np.random.seed(seed)`. -/
def npSeed (e : GenSource G) (seed : Option ℕ) (w : GenState G) : GenState G :=
  match seed with
  | some s => ⟨e.rng.seed s, w.restarts⟩
  | none => ⟨e.entropy w.restarts, w.restarts + 1⟩

/-- _base.py:150-155: `random_seed` of the optimiser; 0 counts as no seed. -/
def setRandomSeed (e : GenSource G) (seed : Option ℕ) (w : GenState G) : GenState G :=
  match seed with
  | some s => if s = 0 then w else npSeed e (some s) w
  | none => w

/-- search_space.py:198-202: variables of several types. -/
def isMixed (ks : List Kind) : Bool := (pureType ks).isNone && !ks.isEmpty

/-- search_space.py:500-568 `sample(N)` without constraints; a mixed space is sliced once for each type.  An exception is represented by no rows, as in `designSample`. -/
def sampleGen (e : GenSource G) (seed : Option ℕ) (ks : List Kind) (N : ℕ) (w : GenState G) : List Row × GenState G :=
  match sampleFree e.rng (fun τ => e.entropy (w.restarts + supportedTypes.idxOf τ)) seed ks N w.gen with
  | none => ([], w)
  | some r => (sampledRows r.1, ⟨r.2, if isMixed ks && seed.isNone then w.restarts + supportedTypes.length else w.restarts⟩)

/-- search_space.py:570-578: `round` of a mixed space slices out the real variables. -/
def roundGen (e : GenSource G) (seed : Option ℕ) (ks : List Kind) (w : GenState G) : GenState G :=
  if isMixed ks && !(typeIds ks .real).isEmpty then npSeed e seed w else w

/-- base.py:378-399, the loop of `create_DoE` with the generator (`doeLoop` takes the samples as given). -/
def doeLoopGen (e : GenSource G) (seed : Option ℕ) (vars : Vars) (fixed : List (String × Val)) (data : List Row) :
    ℕ → ℤ → List Row → GenState G → Option (List Row) × GenState G
  | 0, _, acc, w => (some acc, w)
  | k + 1, n, acc, w =>
    if n = 0 then (some acc, w)
    else
      let r := sampleGen e seed (freeKinds vars fixed) n.toNat w
      match fillin (vars.map Prod.fst) (some fixed) r.1 with
      | none => (none, r.2)
      | some X =>
        if X.isEmpty then doeLoopGen e seed vars fixed data k n acc r.2
        else
          let Y := preEvalCheck (vars.map Prod.snd) data (X.map (roundRow (vars.map Prod.snd)))
          doeLoopGen e seed vars fixed data k (n - Y.length) (acc ++ Y) (roundGen e seed (vars.map Prod.snd) r.2)

/-- base.py:362-400 `create_DoE` without constraints; line 376 slices the space, whose seed is `seed`. -/
def createDoEGen (e : GenSource G) (seed : Option ℕ) (vars : Vars) (fixed : Option (List (String × Val))) (data : List Row) (n : ℤ) (w : GenState G) :
    Option (List Row) × GenState G :=
  doeLoopGen e seed vars (fixed.getD []) data 4 n [] (npSeed e seed w)

/-- `n` successive draws from the generator. -/
def drawMany (draw : G → ℝ × G) : ℕ → G → List ℝ
  | 0, _ => []
  | n + 1, g => (draw g).1 :: drawMany draw n (draw g).2

/-- bayes_opt.py:85 and 100-103 with base.py:464: the parameters `t` of the criteria of a batch; `__set_argmax` has sliced the space before. -/
def batchTemperatures (e : GenSource G) (seed : Option ℕ) (randn : G → ℝ × G) (t : ℝ) (n : ℕ) (w : GenState G) : List ℝ :=
  (drawMany randn n (npSeed e seed w).gen).map (fun z => Real.exp (Real.log t + 1 / 2 * z))

/-- An optimiser: `ask` after the slicing, the objective (which draws nothing), and the training of the surrogate `M` in `tell` with its success. -/
structure GenLearner (P K M G : Type*) where
  ask : OptState P K → M → GenState G → Option (List P) × GenState G
  objective : P → Obs K
  train : OptState P K → List P → M → GenState G → (M × TellOracle) × GenState G

/-- How a run ends. -/
inductive GenEnd where
  | stopped
  | raised
  | running

/-- _base.py:133-136 `run` with base.py:252-256 `step`; `ask` begins with slicing the space. -/
def genRun {P K M : Type*} [Field K] [LinearOrder K] [IsStrictOrderedRing K] (cfg : Cfg K) (e : GenSource G) (seed : Option ℕ) (L : GenLearner P K M G) :
    ℕ → OptState P K → M → GenState G → OptState P K × M × GenEnd
  | 0, s, m, _ => (s, m, .running)
  | fuel + 1, s, m, w =>
    match checkStop cfg s with
    | (s1, .error _) => (s1, m, .raised)
    | (s1, .ok true) => (s1, m, .stopped)
    | (s1, .ok false) =>
      match L.ask s1 m (npSeed e seed w) with
      | (none, _) => (s1, m, .raised)
      | (some X, w1) =>
        let r := L.train s1 X m w1
        match tell cfg s1 { X := X, vals := X.map L.objective, oracle := r.1.2 } with
        | (s2, .error _) => (s2, r.1.1, .raised)
        | (s2, .ok _) => genRun cfg e seed L fuel s2 r.1.1 r.2

end

end Verif.Model
