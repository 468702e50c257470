import Verif.Model.Ask

/-!
# Model of `ask` of the noisy optimiser

`NoisyBO` (bayes_optim/bayes_opt.py:177-194) inherits `ask`, `create_DoE` and `arg_max_acquisition` from `BaseBO`
(bayes_optim/base.py) and `_batch_arg_max_acquisition` from `ParallelBO`, but its `pre_eval_check` returns a `Solution`
(an array) where that of `BO` returns a list.
-/
namespace Verif.Model

/-- Exceptions leaving `ask` of the noisy optimiser. -/
inductive NoisyErr where
  | ask (e : AskErr)  -- as for the other optimisers
  | index             -- solution.py:77 `x[0]` of an empty list
  | broadcast         -- `ValueError` of numpy: shapes `(0,)` and `(N, d)`
  | assertion         -- solution.py:112-113 or 139
deriving DecidableEq

/-- bayes_opt.py:180-183 `NoisyBO.pre_eval_check` with solution.py:77: the points as they are; an empty list raises. -/
def noisyCheck (X : List Row) : Except NoisyErr (List Row) := if X.isEmpty then .error .index else .ok X

/-- base.py:393 `DoE += X` with `DoE` still the empty list and `X` a `Solution` of `N` points in `dim` variables.  A list has
no numeric `+=`, so Python asks the array for the sum, and numpy adds the shapes `(0,)` and `(N, dim)`: a ValueError for
`dim ≥ 2`.  For one variable the sum has the shape `(N, 0)`; that array fails the assertion on the number of names at
solution.py:112-113, reached from base.py:300 (or an assertion of line 139 onwards if a second sample is added before);
the two places are not told apart here. -/
def emptyPlusArray (dim : ℕ) : NoisyErr := if 2 ≤ dim then .broadcast else .assertion

/-- base.py:378-399, the loop of `create_DoE` until the first sample with points; a sample without points is skipped. -/
noncomputable def noisyDoeLoop (vars : Vars) (fixed : List (String × Val)) (sample : ℕ → ℤ → List Row) :
    ℕ → ℤ → Except NoisyErr (List Row)
  | 0, _ => .ok []
  | k + 1, n =>
    if n = 0 then .ok []
    else
      match fillin (vars.map Prod.fst) (some fixed) (sample k n) with
      | none => .error (.ask .shape)
      | some X =>
        if X.isEmpty then noisyDoeLoop vars fixed sample k n
        else match noisyCheck (X.map (roundRow (vars.map Prod.snd))) with
          | .error e => .error e
          | .ok _ => .error (emptyPlusArray vars.length)

/-- base.py:362-400 `create_DoE`. -/
noncomputable def noisyDoE (vars : Vars) (fixed : Option (List (String × Val))) (sample : ℕ → ℤ → List Row) (n : ℤ) :
    Except NoisyErr (List Row) :=
  noisyDoeLoop vars (fixed.getD []) sample 4 n

/-- base.py:272-290: the candidates collected by `ask`.  Line 288 adds a list to a `Solution`: solution.py:133-138 asserts
that the other operand is a `Solution`. -/
noncomputable def noisyPoints (s : AskState) (n? : Option ℤ) (fixed : Option (List (String × Val)))
    (best : ℕ → Row) (sample : ℕ → ℤ → List Row) : Except NoisyErr (List Row) :=
  if s.fitted then
    let n := n?.getD s.nPoint
    match argMaxAcquisition { s with parallel := true } n fixed best with
    | .error e => .error (.ask e)
    | .ok C =>
      match noisyCheck C with
      | .error e => .error e
      | .ok X =>
        if (X.length : ℤ) < n then
          match noisyDoE s.vars fixed sample (n - X.length) with
          | .error e => .error e
          | .ok _ => .error .assertion
        else .ok X
  else noisyDoE s.vars fixed sample (n?.getD s.doeSize)

/-- base.py:258-307 `ask`. -/
noncomputable def askNoisy (s : AskState) (n? : Option ℤ) (fixed : Option (List (String × Val)))
    (best : ℕ → Row) (sample : ℕ → ℤ → List Row) : Except NoisyErr (List Row) :=
  match noisyPoints s n? fixed best sample with
  | .error e => .error e
  | .ok X => if X.isEmpty then .error (.ask .empty) else .ok X

end Verif.Model
