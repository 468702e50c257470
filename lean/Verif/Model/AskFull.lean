import Verif.Model.Ask
import Verif.Model.ArgmaxRestart
import Verif.Model.Mies
import Verif.Model.OnePlusOne
import Verif.Model.InnerSearch

/-!
# `ask` with its acquisition search and its samplers (`base.py:231-307, 362-400, 448-480`, `acquisition/optim/__init__.py:55-153`,
`search_space/search_space.py:500-554`)

Here the models of `ask`, of the restarted acquisition search, of MIES, of the (1+1)-CMA-ES and of the samplers are put
together.  What is left open: the acquisition function, the random numbers, numpy's `argsort`, and scipy's L-BFGS-B.
-/
namespace Verif.Model

/-- The rows of a sample; `none` entries do not occur for proper variables (C17). -/
def sampledRows (rows : List (List (Option Val))) : List Row := rows.map (fun r => r.filterMap id)

/-- search_space.py `filter(keys, invert=True)` as used in base.py:236 and 375: the kinds of the variables that are not fixed. -/
def freeKinds (vars : Vars) (fixed : List (String × Val)) : List Kind :=
  (vars.filter (fun v => (fixed.lookup v.1).isNone)).map Prod.snd

/-- base.py:237-238, 383-384 with utils.py:163-215: the user's constraint with the fixed values filled in. -/
def partialConstraint (names : List String) (fixed : List (String × Val)) (f : Row → List ℝ) : Row → List ℝ :=
  fun r => f ((fillRow fixed names r).getD r)

/-- The outcomes of one restart: what L-BFGS-B returns for a budget (point, value, calls), the uniform numbers and steps of the
(1+1)-CMA-ES, the generator state, mutations and flatness tests of MIES. -/
structure RestartDraws (G : Type*) (n : ℕ) where
  bfgs : ℤ → List ℝ × Option ℝ × ℕ
  start : Fin n → ℝ
  steps : ℕ → CmaNoise n
  gen : G
  noise : ℕ → ℕ → MNoise
  flat : ℕ → Bool

/-- The global objects of the process: the random number generator, numpy's two `argsort`s, the settings of the acquisition search
(base.py:192-243), the user's constraints, the acquisition functions (one per candidate of a batch), the penalty, and all
random outcomes. -/
structure AskEnv (G : Type*) where
  rng : Rng G
  fresh : VType → G
  seed : Option ℕ
  argsort : List (Option ℝ) → List ℕ
  sortPop : List ℝ → List ℕ
  algo : Algo
  nRestart : ℕ
  waitIter : ℕ
  budget : ℤ
  h : Option (Row → List ℝ)
  g : Option (Row → List ℝ)
  value : ℕ → Row → ℝ
  penalty : ℕ → Row → ℝ
  draws : ∀ n, ℕ → ℕ → RestartDraws G n
  doeGen : ℕ → G
  walkNoise : ℕ → ℕ → ℕ → ℕ → Noise
  walkAccept : ℕ → ℕ → ℕ → ℕ → Bool
  walkSteps : ℕ
  pick : ℕ → ℕ → ℕ → List ℕ

variable {G : Type*}

/-- The real variable at a position. -/
def realVarAt (ks : List Kind) (i : ℕ) : RealVar :=
  match ks[i]? with
  | some (.real v) => v
  | _ => { lo := 0, hi := 1 }

/-- The point of a (1+1)-CMA-ES as a row. -/
def vectorRow {n : ℕ} (x : Fin n → ℝ) : Row := List.ofFn (fun i => Val.real (x i))

/-- acquisition/optim/__init__.py:98-110: the (1+1)-CMA-ES of a restart. -/
def cmaCfgOf (e : AskEnv G) (ks : List Kind) (i : ℕ) (b : ℤ) : CmaCfg ks.length where
  vars := fun j => realVarAt ks j
  objective := fun x => e.value i (vectorRow x)
  penalty := fun t x => e.penalty t (vectorRow x)
  minimize := false
  ftarget := none
  maxFEs := b.toNat

/-- acquisition/optim/__init__.py:115-124 with the defaults of mies.py:28-31: the MIES of a restart. -/
noncomputable def miesCfgOf (e : AskEnv G) (ks : List Kind) (i : ℕ) (b : ℤ) : MiesCfg ℝ where
  kinds := ks
  minimize := false
  elitism := false
  mu := 4
  lam := 10
  maxEval := b.toNat
  fit := fun t r => e.penalty (t + 1) r + e.value i r
  argsort := e.sortPop

/-- The result of a finished MIES run. -/
def miesOutcome : MiesOut ℝ → Option (Outcome Row ℝ)
  | .done s => some ⟨s.xopt, some s.fopt, s.evalCount⟩
  | _ => none

/-- acquisition/optim/__init__.py:75-124: restart `k` of the search for candidate `i` with remaining budget `b`; `none` is an exception
(or no end). -/
noncomputable def innerRun (e : AskEnv G) (ks : List Kind) (i k : ℕ) (b : ℤ) : Option (Outcome Row ℝ) :=
  let d := e.draws ks.length i k
  match e.algo with
  | .bfgs => some ⟨(d.bfgs b).1.map Val.real, (d.bfgs b).2.1, (d.bfgs b).2.2⟩
  | .onePlusOne =>
    let cfg := cmaCfgOf e ks i b
    (cmaInit cfg (cmaSample cfg d.start) 0).bind (fun s0 =>
      let s := (cmaRun cfg d.steps (cfg.maxFEs + 1) 0 s0).1
      s.best.map (fun best => ⟨vectorRow best.1, some best.2.1, s.evalCount⟩))
  | .mies =>
    let cfg := miesCfgOf e ks i b
    (sampleFree e.rng e.fresh e.seed ks 4 d.gen).bind (fun rows =>
      (miesInit cfg (sampledRows rows.1)).bind (fun s0 => miesOutcome (miesLoop cfg d.flat d.noise (cfg.maxEval + 2) s0)))

/-- base.py:231-243 with acquisition/optim/__init__.py:67-153: candidate `i`, `[]` when no restart was feasible.  A restart that raises is
represented by the empty row; `c144_search_in_space` shows that there is none. -/
noncomputable def acquisitionBest (e : AskEnv G) (vars : Vars) (fixed : List (String × Val)) (i : ℕ) : Row :=
  let names := vars.map Prod.fst
  ((argmaxRestart e.argsort (fun k b => (innerRun e (freeKinds vars fixed) i k b).getD ⟨[], none, 0⟩)
    (e.h.map (partialConstraint names fixed)) (e.g.map (partialConstraint names fixed)) e.waitIter e.nRestart e.budget).map
      Prod.fst).getD []

/-- base.py:380-385 with search_space.py:532-554: the sample for the initial design, `k` rounds being left; at least ten walks if there
are constraints. -/
noncomputable def designSample (e : AskEnv G) (vars : Vars) (fixed : List (String × Val)) (k : ℕ) (n : ℤ) : List Row :=
  let names := vars.map Prod.fst
  let ks := freeKinds vars fixed
  let N := n.toNat
  if e.h.isSome || e.g.isSome then
    sampleConstrained ((e.h.map (partialConstraint names fixed)).getD (fun _ => []))
      ((e.g.map (partialConstraint names fixed)).getD (fun _ => [])) (1 / 100) N
      ((sampledRows (sampleRaw e.rng e.fresh e.seed ks (max N 10) (e.doeGen k)).1).mapIdx
        (fun i r => scmcRow ks (e.walkNoise k i) (e.walkAccept k i) e.walkSteps r))
      (e.pick k N)
  else sampledRows (((sampleFree e.rng e.fresh e.seed ks N (e.doeGen k)).map Prod.fst).getD [])

/-- base.py:258-307 `ask(n, fixed)`, all parts together. -/
noncomputable def askFull (e : AskEnv G) (s : AskState) (n? : Option ℤ) (fixed : Option (List (String × Val))) :
    Except AskErr (List Row) :=
  ask s n? fixed (acquisitionBest e s.vars (fixed.getD [])) (designSample e s.vars (fixed.getD []))

end Verif.Model
