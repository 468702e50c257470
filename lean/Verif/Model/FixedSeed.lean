import Verif.Model.ArgmaxRestart
import Verif.Model.OnePlusOne

/-!
# The random generator in the restarted acquisition search (`bayes_optim/acquisition/optim/__init__.py:55-153`)

`Verif.Model.ArgmaxRestart` takes the restarts as an arbitrary function of their number.  Here the state of numpy's global generator
is threaded through the loop, and the inner search by the (1+1)-CMA-ES is the model of `Verif.Model.OnePlusOne` with its constructor's
effect on the generator.  The objective (an acquisition function of a fitted model) draws no random numbers.
-/
namespace Verif.Model

variable {G : Type*} {n : ℕ}

/-- What a run of the (1+1)-CMA-ES takes from the generator in state `g`: the numbers of its first point (line 216 of
`one_plus_one_cma_es.py`), the outcomes of its steps (they depend on the objective, but not on the budget), and the state
in which a run of `k` steps leaves the generator. -/
structure CmaSource (G : Type*) (n : ℕ) where
  first : G → Fin n → ℝ
  noise : G → ℕ → CmaNoise n
  after : G → ℕ → G

/-- Lines 125-130 of `one_plus_one_cma_es.py` and 92-108 of `acquisition/optim/__init__.py`: construct and run the search.  The keyword `seed`
is swallowed by `**kwargs`; `random_seed` keeps its default 42, and line 133 sets the generator to `seeded`, its state after `np.random.seed(42)`,
before the first point is drawn.  The incoming state is ignored.  The objective is maximised, without target and restarts. -/
noncomputable def cmaInner (vars : Fin n → RealVar) (f : (Fin n → ℝ) → ℝ) (penalty : ℕ → (Fin n → ℝ) → ℝ) (src : CmaSource G n) (seeded : G)
    (_x0 : Fin n → ℝ) (budget : ℤ) (_g : G) : Outcome (Fin n → ℝ) ℝ × G :=
  let cfg : CmaCfg n := ⟨vars, f, penalty, false, none, budget.toNat⟩
  let x := cmaSample cfg (src.first seeded)
  let s := (cmaRun cfg (src.noise seeded) (budget.toNat + 1) 0 (cmaSetX cfg (cmaEmpty x 0) x)).1
  (⟨(s.best.map (fun b => b.1)).getD x, s.best.map (fun b => b.2.1), s.evalCount⟩, src.after seeded s.iterCount)

/-- Lines 79-91: the search by L-BFGS-B from `x0`; it draws nothing. -/
def bfgsInner {X : Type*} (lbfgs : X → ℤ → Outcome X ℝ) (x0 : X) (budget : ℤ) (g : G) : Outcome X ℝ × G := (lbfgs x0 budget, g)

/-- Lines 75-150: the loop with the generator; `start` draws the point of line 76, `inner` is the search of the chosen optimiser. -/
noncomputable def seededLoop {X : Type*} (start : G → X × G) (inner : X → ℤ → G → Outcome X ℝ × G) (h g : Option (X → List ℝ)) (waitIter : ℕ) :
    ℕ → RState X ℝ → G → RState X ℝ × G
  | 0, s, r => (s, r)
  | k + 1, s, r =>
    let x := start r
    let o := inner x.1 s.budget x.2
    let s' := restartStep h g s o.1
    if s'.budget ≤ 0 ∨ waitIter ≤ s'.wait then (s', o.2) else seededLoop start inner h g waitIter k s' o.2

/-- Lines 67-150. -/
noncomputable def seededRun {X : Type*} (start : G → X × G) (inner : X → ℤ → G → Outcome X ℝ × G) (h g : Option (X → List ℝ)) (waitIter k : ℕ) (budget : ℤ)
    (r : G) : RState X ℝ × G :=
  seededLoop start inner h g waitIter k ⟨[], ⊥, 0, budget, []⟩ r

end Verif.Model
