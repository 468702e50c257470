import Verif.Model.InnerSearch
import Verif.Model.Optimizer

/-!
# Numerical arguments of the constructors (`bayes_optim/_base.py:31-46, 146-155`, `bayes_optim/base.py:103-107, 131-144`)
-/
namespace Verif.Model

/-- An argument that should be a number. -/
inductive NumArg where
  | missing              -- `None`
  | num (q : ℚ)          -- a finite `int`, `bool` or `float`
  | notFinite            -- NaN or an infinity
  | text (s : String)
  | npInt (n : ℤ)        -- a numpy integer, which is not an instance of `int`
  | other                -- a non-empty list, a function, ...

/-- Python's truth value. -/
def NumArg.truthy : NumArg → Bool
  | .missing => false
  | .num q => decide (q ≠ 0)
  | .notFinite => true
  | .text s => decide (s ≠ "")
  | .npInt n => decide (n ≠ 0)
  | .other => true

/-- `int(a)`; `parse` is `int` on texts, `none` is an exception. -/
def NumArg.toInt (parse : String → Option ℤ) : NumArg → Option ℤ
  | .missing => none
  | .num q => some (pyTruncate q)
  | .notFinite => none
  | .text s => parse s
  | .npInt n => some n
  | .other => none

/-- base.py:131-144 the setter of `DoE_size`; `eval` gives the number a text evaluates to. -/
def doeSize (eval : String → Option ℚ) (dim : ℕ) (a : NumArg) : Option ℤ :=
  if a.truthy then
    match a with
    | .text s => (eval s).map pyTruncate
    | .num q => some (pyTruncate q)
    | _ => none
  else some (dim * 5)

/-- base.py:104 `n_point` and _base.py:41 `n_job`. -/
def atLeastOne (parse : String → Option ℤ) (a : NumArg) : Option ℤ := (a.toInt parse).map (fun n => max 1 n)

/-- _base.py:45 `max_FEs`; the inner `none` is infinity. -/
def budgetArg (parse : String → Option ℤ) (a : NumArg) : Option (Option ℤ) :=
  if a.truthy then (a.toInt parse).map some else some none

/-- _base.py:150-155 the setter of `random_seed`: the value of the attribute (`none`: it does not exist) and the seed given to the generator (`none`: it is not
seeded).  `np.random.seed` accepts 0 to 2^32 - 1. -/
def seedArg (parse : String → Option ℤ) (a : NumArg) : Option (Option ℤ × Option ℤ) :=
  if a.truthy then
    (a.toInt parse).bind (fun n => if n = 0 then some (some 0, none) else if 0 ≤ n ∧ n < 2 ^ 32 then some (some n, some n) else none)
  else some (none, none)

/-- base.py:289-296: the number of points of the first `ask()`; `sample` is `create_DoE`, whose loop (base.py:380) does not start if the number is zero. -/
def firstAsk {P : Type*} (sample : ℤ → List P) (size : ℤ) : Option (List P) :=
  let X := if size = 0 then [] else sample size
  if X.isEmpty then none else some X

end Verif.Model
