import Verif.Model.MiesFull

/-! # Specification for C179: the same mixed space described in other terms -/
namespace Verif.Spec
open Verif.Model

/-- How one variable is described in other terms: a real variable in another unit from another origin, an integer variable from another origin, the
levels of a categorical variable under other names. -/
inductive Recode where
  | real (unit origin : ℝ)
  | integer (origin : ℤ)
  | level (name : Lvl → Lvl)

/-- The value in the new terms. -/
noncomputable def Recode.value : Recode → Val → Val
  | .real a b, .real x => .real (a * x + b)
  | .integer d, .int z => .int (z + d)
  | .level g, .lvl l => .lvl (g l)
  | _, x => x

/-- How long the old unit is in the new one. -/
noncomputable def Recode.unit : Recode → ℝ
  | .real a _ => a
  | _ => 1

/-- `k'` is the variable `k` in the new terms.  Real variables have no precision, integer variables have whole bounds. -/
def Recode.Relates : Recode → Kind → Kind → Prop
  | .real a b, .real v, .real v' => 0 < a ∧ v.precision = none ∧ v'.precision = none ∧ v'.lo = a * v.lo + b ∧ v'.hi = a * v.hi + b
  | .integer d, .integer v, .integer v' => v'.lo = v.lo + d ∧ v'.hi = v.hi + d ∧ ∃ p q : ℤ, p < q ∧ v.lo = p ∧ v.hi = q
  | .level g, k, k' => (k.vtype ≠ .real ∧ k.vtype ≠ .integer) ∧ (k'.vtype ≠ .real ∧ k'.vtype ≠ .integer) ∧ k'.levels = k.levels.map g
  | _, _, _ => False

/-- The space `ks'` is the space `ks` in the new terms. -/
structure SpaceRecoded (cs : List Recode) (ks ks' : List Kind) : Prop where
  codes : cs.length = ks.length
  kinds : ks'.length = ks.length
  relates : ∀ (j : ℕ) (c : Recode) (k k' : Kind), cs[j]? = some c → ks[j]? = some k → ks'[j]? = some k' → c.Relates k k'

/-- A point in the new terms. -/
noncomputable def recodeRow (cs : List Recode) (r : Row) : Row := r.mapIdx fun j x => (cs.getD j (.level id)).value x

/-- An individual in the new terms: step sizes are measured in the new units. -/
noncomputable def recodeInd (cs : List Recode) (a : Individual) : Individual where
  row := recodeRow cs a.row
  sigma j := (cs.getD j (.level id)).unit * a.sigma j
  eta := a.eta
  prob := a.prob

/-- A state in the new terms: nothing but the points and the step sizes is written differently. -/
noncomputable def recodeState (cs : List Recode) (s : MiesFullState) : MiesFullState :=
  { s with
    core := { pop := s.core.pop.map fun e => (recodeInd cs e.1, e.2), iterCount := s.core.iterCount,
              evaluated := s.core.evaluated.map fun e => (recodeRow cs e.1, e.2) }
    xopt := recodeRow cs s.xopt }

end Verif.Spec
