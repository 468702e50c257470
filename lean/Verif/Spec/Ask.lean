import Verif.Model.Sampling

/-!
# What a user expects from `ask`

Only the vocabulary of variables and values (`Kind`, `Val`, membership of a value in a variable) is used.
-/
namespace Verif.Spec
open Verif.Model

/-- A row that is a point of a space with these variables: full length and every value in its variable. -/
def PointOf (ks : List Kind) (x : List Val) : Prop :=
  x.length = ks.length ∧ ∀ (j : ℕ) (k : Kind) (v : Val), ks[j]? = some k → x[j]? = some v → k.contains v

/-- The variables left free by a partial assignment. -/
def freeVars (vars : List (String × Kind)) (fixed : List (String × Val)) : List (String × Kind) :=
  vars.filter (fun v => (fixed.lookup v.1).isNone)

/-- C14: full dimension, exactly the fixed values on the fixed variables, in the space elsewhere. -/
def Honours (vars : List (String × Kind)) (fixed : List (String × Val)) (x : List Val) : Prop :=
  x.length = vars.length ∧ ∀ (j : ℕ) (name : String) (k : Kind) (v : Val),
    vars[j]? = some (name, k) → x[j]? = some v →
      (∀ w, fixed.lookup name = some w → v = w) ∧ (fixed.lookup name = none → k.contains v)

/-- C15: the two points differ in a coordinate: by more than the tolerance (absolute 1e-8, relative 1e-5 of
the new point) for a real variable, at all for the others. -/
def Differs (ks : List Kind) (new old : List Val) : Prop :=
  ∃ (j : ℕ) (k : Kind), ks[j]? = some k ∧
    (k.vtype ≠ .real → old[j]? ≠ new[j]?) ∧
    (k.vtype = .real → ∀ a b : ℝ, old[j]? = some (.real a) → new[j]? = some (.real b) →
      1 / 10 ^ 8 + 1 / 10 ^ 5 * |b| < |a - b|)

/-- The fixed values of real variables survive rounding to the declared precision (and clipping). -/
def RoundStable (vars : List (String × Kind)) (fixed : List (String × Val)) : Prop :=
  ∀ name (v : RealVar) (w : ℝ), (name, Kind.real v) ∈ vars → fixed.lookup name = some (.real w) → v.round w = w

/-- Bounds of real variables are ordered (variable.py:192). -/
def OrderedBounds (vars : List (String × Kind)) : Prop :=
  ∀ name (v : RealVar), (name, Kind.real v) ∈ vars → v.lo ≤ v.hi

/-- What is known about the sampler of the free sub-space (C17, C18): points of the sub-space, at most as many
as requested. -/
def SamplerOk (vars : List (String × Kind)) (fixed : List (String × Val))
    (sample : ℕ → ℤ → List (List Val)) : Prop :=
  ∀ k n, 0 < n → ((sample k n).length : ℤ) ≤ n ∧
    ∀ r ∈ sample k n, PointOf ((freeVars vars fixed).map Prod.snd) r

end Verif.Spec
