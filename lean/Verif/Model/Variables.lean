import Mathlib.Analysis.SpecialFunctions.Log.Base
import Mathlib.Algebra.Order.Round
import Mathlib.Data.Real.Sign

/-!
# Model of the decision variables

`bayes_optim/search_space/variable.py`.  Floats are real numbers; the only infinity that matters, the logit
of 1, is modelled explicitly.
-/
namespace Verif.Model

/-! ### scales -/

/-- variable.py:39-45, the keys of `TRANS`. -/
inductive Scale where
  | linear | log | log10 | logit | bilog
deriving DecidableEq

/-- A float that is finite (`some`) or `+inf` (`none`). -/
abbrev Ext := Option ℝ

/-- variable.py:23-24 `bilog`. -/
noncomputable def bilog (x : ℝ) : ℝ := Real.sign x * Real.log (1 + |x|)

/-- variable.py:31-32 `bilog_inv`. -/
noncomputable def bilogInv (x : ℝ) : ℝ := Real.sign x * (Real.exp |x| - 1)

/-- variable.py:27-28 `logit_inv`. -/
noncomputable def logitInv (x : ℝ) : ℝ := 1 / (1 + Real.exp (-x))

/-- `sys.float_info.max` (variable.py:39). -/
noncomputable def floatMax : ℝ := (2 - 1 / 2 ^ 52) * 2 ^ 1023

/-- variable.py:40-46: the forward functions; `scipy.special.logit(1)` is `+inf`. -/
noncomputable def scaleTrans : Scale → ℝ → Ext
  | .linear, x => some x
  | .log, x => some (Real.log x)
  | .log10, x => some (Real.logb 10 x)
  | .logit, x => if x = 1 then none else some (Real.log (x / (1 - x)))
  | .bilog, x => some (bilog x)

/-- variable.py:47-53: the inverse functions; `logit_inv(inf) = 1`.  The other scales never see `inf`; the
value given there is irrelevant. -/
noncomputable def scaleInv : Scale → Ext → ℝ
  | .linear, some y => y
  | .log, some y => Real.exp y
  | .log10, some y => (10 : ℝ) ^ y
  | .logit, some y => logitInv y
  | .bilog, some y => bilogInv y
  | .logit, none => 1
  | _, none => 0

/-- The literal `1e-300` (variable.py:42-44). -/
noncomputable def tiny : ℝ := 1 / 10 ^ 300

/-- variable.py:40-46: the working range of each scale. -/
noncomputable def workingRange : Scale → ℝ × ℝ
  | .linear => (-floatMax, floatMax)
  | .log => (tiny, floatMax)
  | .log10 => (tiny, floatMax)
  | .logit => (tiny, 1)
  | .bilog => (-floatMax, floatMax)

/-! ### real variables -/

/-- The fields of `Real` that matter (variable.py:193-197). -/
structure RealVar where
  lo : ℝ
  hi : ℝ
  precision : Option ℤ := none
  scale : Scale := .linear

/-- variable.py:208-209 `Real.__contains__`. -/
def RealVar.contains (v : RealVar) (x : ℝ) : Prop := v.lo ≤ x ∧ x ≤ v.hi

/-- Why a constructor call fails. -/
inductive VarErr where
  | assertion      -- an `assert` in the constructor
  | warning        -- `warnings.warn` turned into an exception (samplers.py:26 sets the filter to "error")
deriving DecidableEq

/-- variable.py:229, 236: the bound is outside the working range. -/
def outside (r : ℝ × ℝ) (b : ℝ) : Prop := b < r.1 ∨ r.2 < b

open Classical in
/-- variable.py:216-245, the `scale` setter: bounds outside the working range are replaced by the end of the
range, with a warning.  `warnError` says whether warnings are exceptions (they are after importing
samplers.py, line 26). -/
noncomputable def setScale (warnError : Bool) (s : Scale) (lo hi : ℝ) : Except VarErr (ℝ × ℝ) :=
  if (outside (workingRange s) lo ∨ outside (workingRange s) hi) ∧ warnError = true then .error .warning
  else .ok (if outside (workingRange s) lo then (workingRange s).1 else lo,
            if outside (workingRange s) hi then (workingRange s).2 else hi)

open Classical in
/-- variable.py:168-197 `Real.__init__`: the default is tested against the bounds as given (line 108, 145-149),
then the scale setter may replace the bounds. -/
noncomputable def mkReal (warnError : Bool) (lo hi : ℝ) (default : Option ℝ) (precision : Option ℤ)
    (s : Scale) : Except VarErr (RealVar × Option ℝ) :=
  if ¬ lo < hi then .error .assertion
  else if ∃ d, default = some d ∧ ¬ (lo ≤ d ∧ d ≤ hi) then .error .assertion
  else match setScale warnError s lo hi with
    | .error e => .error e
    | .ok b => .ok ({ lo := b.1, hi := b.2, precision := precision, scale := s }, default)

/-- `np.rint`: nearest integer, ties to even. -/
noncomputable def rint (y : ℝ) : ℤ :=
  if y - ⌊y⌋ < 1 / 2 then ⌊y⌋
  else if 1 / 2 < y - ⌊y⌋ then ⌊y⌋ + 1
  else if ⌊y⌋ % 2 = 0 then ⌊y⌋ else ⌊y⌋ + 1

/-- `np.round(x, p)`: scale by a power of ten, `rint`, scale back (no floating-point error). -/
noncomputable def npRound (p : ℤ) (x : ℝ) : ℝ := (rint (x * (10 : ℝ) ^ p) : ℝ) / (10 : ℝ) ^ p

/-- `np.clip(x, lo, hi)` is `minimum(maximum(x, lo), hi)`. -/
def clip {K : Type*} [LinearOrder K] (lo hi x : K) : K := min (max x lo) hi

/-- variable.py:250-257 `Real.round` on one value (the argument is deep-copied, line 254). -/
noncomputable def RealVar.round (v : RealVar) (x : ℝ) : ℝ :=
  match v.precision with
  | none => x
  | some p => clip v.lo v.hi (npRound p x)

/-- variable.py:247-248 `Real.to_linear_scale`. -/
noncomputable def RealVar.toLinear (v : RealVar) (y : Ext) : ℝ := scaleInv v.scale y

/-- `(ub - lb) * u + lb` (search_space.py:746-753) for a draw `u`; the outer `none` is NaN (`inf * 0`), the
inner one `+inf`.  The lower transformed bound is always finite when `lo < hi`. -/
noncomputable def affine (lb ub : Ext) (u : ℝ) : Option Ext :=
  match lb, ub with
  | some l, some h => some (some ((h - l) * u + l))
  | some _, none => if u = 0 then none else some none
  | none, _ => none

/-- search_space.py:742-754 `RealSpace._sample`, one coordinate of one row, `u` the uniform draw in [0, 1]
(all three methods).  `none` is NaN. -/
noncomputable def RealVar.sample (v : RealVar) (u : ℝ) : Option ℝ :=
  (affine (scaleTrans v.scale v.lo) (scaleTrans v.scale v.hi) u).map fun y => v.round (v.toLinear y)

/-! ### integer variables -/

/-- variable.py:314-332.  Bounds and step may be floats. -/
structure IntVar where
  lo : ℝ
  hi : ℝ
  step : ℝ := 1

/-- variable.py:317-332 `Integer.__init__`: `bounds` are deduplicated, then two different ordered bounds are
asserted; a zero step is a ZeroDivisionError (modelled as an assertion). -/
noncomputable def mkInt (lo hi step : ℝ) : Except VarErr IntVar :=
  if ¬ lo < hi then .error .assertion
  else if step = 0 then .error .assertion
  else .ok { lo := lo, hi := hi, step := step }

/-- variable.py:334-335 `Integer.__contains__`: the step is not tested. -/
def IntVar.contains (v : IntVar) (x : ℝ) : Prop := v.lo ≤ x ∧ x ≤ v.hi

/-- variable.py:332. -/
noncomputable def IntVar.size (v : IntVar) : ℤ := ⌊(v.hi - v.lo) / v.step⌋ + 1

/-- Python/numpy cast of a float to an integer: truncation toward zero. -/
noncomputable def trunc (x : ℝ) : ℤ := if 0 ≤ x then ⌊x⌋ else ⌈x⌉

/-- variable.py:62-69, 277-278 and search_space.py:783-794: `bounds + i * step` stored in an integer array.
`randint(0, size)` raises (`none`) when `size <= 0`. -/
noncomputable def IntVar.sample (v : IntVar) (i : ℤ) : Option ℤ :=
  if 0 < v.size then some (trunc (v.lo + i * v.step)) else none

/-! ### categorical variables -/

/-- A Python atom used as a level. -/
inductive Base where
  | int (z : ℤ)
  | flt (q : ℚ)
  | str (s : String)
  | bool (b : Bool)
deriving DecidableEq

/-- A level: an atom, or a tuple for `Subset`. -/
inductive Lvl where
  | one (b : Base)
  | tup (l : List Base)
deriving DecidableEq

/-- variable.py:263-265: `list(dict.fromkeys(bounds))`, first occurrences in order.  Equality of Python values
is structural equality here (`True == 1` is not modelled). -/
def dedupLevels {α : Type*} [DecidableEq α] (l : List α) : List α :=
  l.foldl (fun acc x => if x ∈ acc then acc else acc ++ [x]) []

/-- `itertools.combinations(bounds, r)` in its order. -/
def combinations {α : Type*} : ℕ → List α → List (List α)
  | 0, _ => [[]]
  | _ + 1, [] => []
  | r + 1, x :: xs => (combinations r xs).map (x :: ·) ++ combinations (r + 1) xs

/-- variable.py:293-296 `Subset.__init__`: combinations of size `1, ..., len(bounds)`. -/
def subsetLevels (bounds : List Base) : List (List Base) :=
  (List.range bounds.length).flatMap (fun r => combinations (r + 1) bounds)

/-- variable.py:270-271 `_Discrete.__contains__`. -/
def levelContains (levels : List Lvl) (x : Lvl) : Prop := x ∈ levels

/-- variable.py:277-278 with `_map_func` from line 62-69: `bounds[i]` for `i = randint(0, len(bounds))`. -/
def levelSample (levels : List Lvl) (i : ℕ) : Option Lvl := levels[i]?

end Verif.Model
