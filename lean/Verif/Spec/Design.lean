import Verif.Spec.Distribution
import Verif.Model.Sampling

/-!
# Evenly spread designs
-/
namespace Verif.Spec
open Verif.Model

/-- Among `u 0, …, u (N - 1)` each of the parts `[k / N, (k + 1) / N)` holds exactly one number. -/
def LatinColumn (N : ℕ) (u : ℕ → ℝ) : Prop := ∀ k < N, ∃! i, i < N ∧ (k / N : ℝ) ≤ u i ∧ u i < (k + 1) / N

/-- What `pyDOE.lhs` promises for designs of two points or more. -/
def LatinDesigns {G : Type*} (rng : Rng G) : Prop := ∀ g N d j, 2 ≤ N → j < d → LatinColumn N fun i => (rng.uniform g N d).1 i j

/-- The value of variable `j` in row `i`. -/
def entry (rows : List (List (Option Val))) (i j : ℕ) : Option Val := (rows[i]?).bind fun row => (row[j]?).bind id

/-- `x` lies in part `k` of the range of `v`, which is divided into `N` parts of equal length on the scale of `v`. -/
def InPart (v : RealVar) (N k : ℕ) (x : ℝ) : Prop := (k / N : ℝ) ≤ share v.scale v.lo v.hi v.lo x ∧ share v.scale v.lo v.hi v.lo x < (k + 1) / N

end Verif.Spec
