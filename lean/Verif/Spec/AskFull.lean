import Verif.Model.AskFull
import Verif.Spec.Ask
import Verif.Spec.ArgmaxRestart
import Verif.Spec.Mies
import Verif.Spec.OnePlusOne

/-! # Specification for C144 and C145 -/
namespace Verif.Spec
open Verif.Model

variable {G : Type*}

/-- scipy's contract: the point has one coordinate per variable and respects the bounds. -/
def WithinBounds (ks : List Kind) (x : List ℝ) : Prop :=
  x.length = ks.length ∧ ∀ (j : ℕ) (v : RealVar) (a : ℝ), ks[j]? = some (.real v) → x[j]? = some a → v.lo ≤ a ∧ a ≤ v.hi

/-- `idx` are `N` different numbers below `n`. -/
def Choice (N n : ℕ) (idx : List ℕ) : Prop := idx.length = N ∧ idx.Nodup ∧ ∀ i ∈ idx, i < n

/-- What the libraries promise: numpy's random numbers and sorting, scipy's bounds, parents drawn from the population. -/
structure LibrariesOk (e : AskEnv G) (ks : List Kind) : Prop where
  rng : e.rng.Valid
  argsort : ∀ l, IsArgsort l (e.argsort l)
  sortPop : SortsValues e.sortPop
  bfgs : ∀ i k b, WithinBounds ks ((e.draws ks.length i k).bfgs b).1
  start : ∀ i k j, 0 ≤ (e.draws ks.length i k).start j ∧ (e.draws ks.length i k).start j ≤ 1
  steps : ∀ i k t, CmaNoiseOk ((e.draws ks.length i k).steps t)
  parents : ∀ i k, NoiseOk 4 (e.draws ks.length i k).noise
  pick : ∀ k N n, N ≤ n → Choice N n (e.pick k N n)

/-- The user's constraints hold at the point, the equalities up to the tolerance `tol`. -/
def SatisfiesUpTo (tol : ℝ) (h g : Option (List Val → List ℝ)) (x : List Val) : Prop :=
  (∀ f, h = some f → ∀ v ∈ f x, |v| ≤ tol) ∧ (∀ f, g = some f → ∀ v ∈ f x, v ≤ 0)

/-- The point with its real coordinates rounded to the declared precisions. -/
noncomputable def roundedPoint (ks : List Kind) (x : List Val) : List Val :=
  List.zipWith (fun k v => match k, v with
    | Kind.real r, Val.real a => Val.real (r.round a)
    | _, v => v) ks x

end Verif.Spec
