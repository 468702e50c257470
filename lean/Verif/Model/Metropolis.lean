import Mathlib.Analysis.SpecialFunctions.Exp
import Mathlib.Analysis.SpecialFunctions.Log.Base
import Mathlib.Analysis.SpecialFunctions.Pow.Real

/-!
# The Metropolis steps of the constrained sampler (`search_space/samplers.py`)

`Model/Sampling` has the proposals and bounds, with an arbitrary acceptance.  Here is the acceptance, with arbitrary proposals and random numbers, for
the whole table of rows.  Log probabilities are finite reals; `none` is an exception.
-/
namespace Verif.Model

/-- samplers.py:74 `nu_schedule = np.logspace(log10(nu0), log10(tol / 8), num=20)`, entry `t`, for `nu0 = 10`. -/
noncomputable def nuSchedule (tol : ℝ) (t : ℕ) : ℝ :=
  (10 : ℝ) ^ (Real.logb 10 10 + (t / 19 : ℝ) * (Real.logb 10 (tol / 8) - Real.logb 10 10))

/-- samplers.py:95-113 `_log_posterior`: `logcdf` is that of the standard normal distribution.  A constraint that raises gives `none`; so does a target
density of zero, since line 24 turns numpy's warning into an exception. -/
noncomputable def logPosterior {R : Type*} (logcdf : ℝ → ℝ) (target : R → ℝ) (constraints : List (R → Option ℝ)) (nu : ℝ) (x : R) : Option ℝ :=
  (constraints.mapM fun (c : R → Option ℝ) => c x).bind fun c =>
    if target x ≤ 0 then none else some (Real.log (target x) + (c.map fun ci => logcdf (-1 * ci / nu)).sum)

/-- samplers.py:192-197: the acceptance probabilities.  `np.exp` overflows above `limit` (about 709.78); the warning is an exception, after which every row
is accepted. -/
noncomputable def acceptProbs (limit : ℝ) (lp lp' : List ℝ) : List ℝ :=
  let diffs := List.zipWith (fun a b => b - a) lp lp'
  if ∃ d ∈ diffs, limit < d then diffs.map fun _ => 1 else diffs.map fun d => min 1 (max 0 (Real.exp d))

/-- samplers.py:198 `np.random.rand(N) <= prob` -/
noncomputable def acceptMask (limit : ℝ) (lp lp' u : List ℝ) : List Bool :=
  List.zipWith (fun ui p => decide (ui ≤ p)) u (acceptProbs limit lp lp')

/-- `a[mask] = b[mask]` -/
def whereMask {α : Type*} (mask : List Bool) (a b : List α) : List α :=
  List.zipWith (fun m ab => if m = true then ab.2 else ab.1) mask (a.zip b)

/-- `X_dim = X.copy(); X_dim[:, i] = X_[:, i]` (lines 189-190) -/
def takeColumn {V : Type*} (i : ℕ) (X X' : List (List V)) : List (List V) :=
  List.zipWith (fun x x' => (x'[i]?).elim x fun v => x.set i v) X X'

/-- samplers.py:189-200: the update of one coordinate, on the rows and the log probabilities. -/
noncomputable def mhCoordinate {V : Type*} (limit : ℝ) (logp : List V → Option ℝ) (proposal : List (List V)) (u : List ℝ) (i : ℕ)
    (s : List (List V) × List ℝ) : Option (List (List V) × List ℝ) :=
  let Xd := takeColumn i s.1 proposal
  (Xd.mapM logp).map fun lp' =>
    let mask := acceptMask limit s.2 lp' u
    (whereMask mask s.1 Xd, whereMask mask s.2 lp')

/-- Line 188: the coordinates one after another; `us i` are the random numbers for coordinate `i`. -/
noncomputable def mhSweep {V : Type*} (limit : ℝ) (logp : List V → Option ℝ) (dim : ℕ) (proposal : List (List V)) (us : ℕ → List ℝ)
    (s : List (List V) × List ℝ) : Option (List (List V) × List ℝ) :=
  (List.range dim).foldlM (fun s i => mhCoordinate limit logp proposal (us i) i s) s

/-- samplers.py:165-201 `_metropolis_hastings` from line 186: step `k` uses the proposals `propose k X` and the random numbers `us k`. -/
noncomputable def mhLoop {V : Type*} (limit : ℝ) (logp : List V → Option ℝ) (dim steps : ℕ) (propose : ℕ → List (List V) → List (List V))
    (us : ℕ → ℕ → List ℝ) (s : List (List V) × List ℝ) : Option (List (List V) × List ℝ) :=
  (List.range steps).foldlM (fun s k => mhSweep limit logp dim (propose k s.1) (us k) s) s

/-- samplers.py:165-201 `_metropolis_hastings`. -/
noncomputable def metropolisHastings {V : Type*} (limit : ℝ) (logp : List V → Option ℝ) (dim steps : ℕ)
    (propose : ℕ → List (List V) → List (List V)) (us : ℕ → ℕ → List ℝ) (X : List (List V)) : Option (List (List V) × List ℝ) :=
  (X.mapM logp).bind fun lp => mhLoop limit logp dim steps propose us (X, lp)

end Verif.Model
