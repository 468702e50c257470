import Verif.Model.SpaceEdit
import Mathlib.Data.Rat.Floor

/-!
# The configuration of the acquisition search (`base.py:192-243, 461-477`, `acquisition/optim/option.py`, `acquisition/optim/__init__.py:70-122`)
-/
namespace Verif.Model

/-- A numerical option: a text, a finite number, infinity or NaN, or something else. -/
inductive IntArg where
  | text (s : String)
  | num (q : ℚ)
  | notFinite
  | other

/-- `int(q)` -/
def pyTruncate (q : ℚ) : ℤ := if 0 ≤ q then ⌊q⌋ else ⌈q⌉

/-- utils/utils.py:249-256 `arg_to_int`; `eval` gives the number a text evaluates to, `none` is an exception. -/
def argToInt (eval : String → Option ℚ) : IntArg → Option ℤ
  | .text s => (eval s).map pyTruncate
  | .num q => some (pyTruncate q)
  | .notFinite => none
  | .other => none

/-- option.py:5-9 `default_AQ_max_FEs[optimizer](dim)`; `none` is `KeyError`. -/
def defaultMaxFEs (optimizer : String) (dim : ℕ) : Option ℤ :=
  if optimizer = "MIES" then some (1000 * dim)
  else if optimizer = "BFGS" then some (100 * dim)
  else if optimizer = "OnePlusOne_Cholesky_CMA" then some (1000 * dim)
  else none

/-- The argument `acquisition_optimization`. -/
structure InnerOptions where
  optimizer : Option String := none
  maxFEs : Option IntArg := none
  nRestart : Option IntArg := none
  waitIter : Option IntArg := none

/-- What the constructor looks at: the types of the variables, whether the model has a gradient, the number of objectives, the constraints. -/
structure InnerContext where
  types : List VType
  hasGradient : Bool
  nObj : ℕ
  hasH : Bool
  hasG : Bool

/-- `isinstance(space, RealSpace)` for a space with variables of these types. -/
def isRealSpace (types : List VType) : Bool := classFor types == some .real

/-- The attributes set. -/
structure InnerSearch where
  optimizer : String
  maxFEs : ℤ
  nRestart : ℤ
  waitIter : ℤ
deriving DecidableEq

/-- base.py:197-209: the name of the optimiser. -/
def innerOptimizer (o : InnerOptions) (c : InnerContext) : String :=
  let name := o.optimizer.getD
    (if isRealSpace c.types then (if c.hasGradient && c.nObj == 1 then "BFGS" else "OnePlusOne_Cholesky_CMA") else "MIES")
  if name == "BFGS" && (c.hasH || c.hasG) then "OnePlusOne_Cholesky_CMA" else name

/-- An option, or its default. -/
def optionInt (eval : String → Option ℚ) (default : Option ℤ) : Option IntArg → Option ℤ
  | none => default
  | some a => argToInt eval a

/-- base.py:192-222 `_set_internal_optimization`; `none` is an exception in the constructor. -/
def setInternal (eval : String → Option ℚ) (o : InnerOptions) (c : InnerContext) : Option InnerSearch := do
  let name := innerOptimizer o c
  let m ← optionInt eval (defaultMaxFEs name c.types.length) o.maxFEs
  let r ← optionInt eval (some (5 * c.types.length)) o.nRestart
  let w ← optionInt eval (some 3) o.waitIter
  return ⟨name, m, r, w⟩

/-- The algorithms of `argmax_restart`. -/
inductive Algo where
  | bfgs
  | onePlusOne
  | mies
deriving DecidableEq

/-- acquisition/optim/__init__.py:70-72, 76, 95, 112: the algorithm that runs on a space with variables of these types (those that are not fixed, base.py:236);
`none`: no branch is taken and line 124 raises. -/
def runsAlgo (optimizer : String) (freeTypes : List VType) : Option Algo :=
  let name := if !(isRealSpace freeTypes) && optimizer == "BFGS" then "MIES" else optimizer
  if name = "BFGS" then some .bfgs
  else if name = "OnePlusOne_Cholesky_CMA" then some .onePlusOne
  else if name = "MIES" then some .mies
  else none

/-- base.py:463 `return_dx`: whether the criterion returns its gradient as well. -/
def returnsGradient (s : InnerSearch) : Bool := s.optimizer == "BFGS"

end Verif.Model
