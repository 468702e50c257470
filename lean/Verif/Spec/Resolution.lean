import Verif.Spec.Ask
import Verif.Model.Ask
import Verif.Spec.Exhaust
import Mathlib.Algebra.Order.Floor.Semiring
import Mathlib.Algebra.BigOperators.Fin

/-!
# How many points a run can evaluate in a box of real variables
-/
namespace Verif.Spec
open Verif.Model

/-- A lower bound for the absolute values in the range of a variable. -/
def FarFromZero (v : RealVar) (a : ℝ) : Prop := 0 ≤ a ∧ ∀ x, v.contains x → a ≤ |x|

/-- The number of steps of length `1e-8 + 1e-5 * a`, begun or complete, in the range of a variable. -/
noncomputable def steps (v : RealVar) (a : ℝ) : ℕ := ⌊(v.hi - v.lo) / (1 / 10 ^ 8 + 1 / 10 ^ 5 * a)⌋₊ + 1

/-- The product of these numbers over all variables. -/
noncomputable def cellCount (vs : List RealVar) (a : List ℝ) : ℕ := (List.zipWith steps vs a).prod

/-- How many values of a variable can count as different: for a real variable as above, otherwise the number of its values. -/
noncomputable def valueCount (k : Kind) (a : ℝ) : ℕ :=
  match k with
  | .real v => steps v a
  | k => distinctValues k

/-- The product of these numbers for a space with variables of all kinds. -/
noncomputable def mixedCount (ks : List Kind) (a : List ℝ) : ℕ := (List.zipWith valueCount ks a).prod

/-- The points `pts` have been evaluated one after the other: each was returned by a call of `ask` of an optimiser whose data are exactly the earlier ones, whose sampler and search deliver points of the space. -/
def OneByOne (vars : List (String × Kind)) (pts : List Row) : Prop :=
  ∀ i x, pts[i]? = some x → ∃ (s : AskState) (n? : Option ℤ) (best : ℕ → Row) (sample : ℕ → ℤ → List Row) (X : List Row),
    s.vars = vars ∧ s.data = pts.take i ∧ 1 ≤ n?.getD (if s.fitted then s.nPoint else s.doeSize) ∧ SamplerOk vars [] sample ∧ (∀ k, best k = [] ∨ PointOf (vars.map Prod.snd) (best k)) ∧
      ask s n? none best sample = .ok X ∧ x ∈ X

/-- The points `pts` come from successive calls of `ask`, one from each, of optimisers with sound samplers and searches: at every call the points taken from the earlier calls are recorded.  More points may be
recorded, such as the rest of the batches or a warm start, and each call may ask for any number of points. -/
def OnePerBatch (vars : List (String × Kind)) (pts : List Row) : Prop :=
  ∀ i x, pts[i]? = some x → ∃ (s : AskState) (n? : Option ℤ) (best : ℕ → Row) (sample : ℕ → ℤ → List Row) (X : List Row),
    s.vars = vars ∧ pts.take i ⊆ s.data ∧ 1 ≤ n?.getD (if s.fitted then s.nPoint else s.doeSize) ∧ SamplerOk vars [] sample ∧
      (∀ k, best k = [] ∨ PointOf (vars.map Prod.snd) (best k)) ∧ ask s n? none best sample = .ok X ∧ x ∈ X

end Verif.Spec
