import Verif.Model.Optimizer

/-!
# Model of the functional interface `fmin` (bayes_optim/__init__.py)
-/
namespace Verif.Model

variable {P K : Type*} [Field K] [LinearOrder K] [IsStrictOrderedRing K]

/-- `rows[a:b, :]` -/
def rowSlice {α : Type*} (rows : List α) (a b : ℕ) : List α := (rows.take b).drop a

/-- __init__.py:191-195: the last component of the result, for `N = opt.DoE_size` and `n = opt.n_point`.
`_data` of line 192 is never used: the first group is cut from the rows after the first `N`. -/
def fminGroups {α : Type*} (rows : List α) (N n iterCount : ℕ) : List (List α) :=
  let data := rows.drop N
  rowSlice data 0 N :: (List.range (iterCount - 1)).map (fun i => rowSlice data (i * n) ((i + 1) * n))

/-- __init__.py:203: the five results of `fmin`. -/
structure FminResult (P K : Type*) where
  xopt : P
  fopt : K
  iterations : ℕ
  evaluations : ℕ
  groups : List (List P)

/-- __init__.py:173-203: run the optimiser and collect the results; `s0` is the state after the constructor (with
the warm-start data, if any), `none` when `run` does not return. -/
def fmin (cfg : Cfg K) (inp : ℕ → StepIn P K) (N n fuel : ℕ) (s0 : OptState P K) : Option (FminResult P K) :=
  match run cfg inp fuel 0 s0 with
  | .returned _ s r =>
    some { xopt := r.x, fopt := r.f, iterations := s.iterCount, evaluations := s.evalCount,
           groups := fminGroups ((s.data.getD []).map Rec.x) N n s.iterCount }
  | _ => none

/-- The argument `x0` of `fmin` (__init__.py:157-171). -/
inductive X0 (P K : Type*) where
  | none
  | size (n : ℤ)
  | points (X : List P) (y : Option (List K))

/-- base.py:139-149 for the values `fmin` passes: a missing or zero size becomes `5 * dim`. -/
def doeSizeOf (dim : ℕ) : Option ℤ → ℤ
  | .none => 5 * dim
  | some n => if n = 0 then 5 * dim else n

/-- __init__.py:157-171: size of the initial design, warm-start data, and how often `func` was called for it. -/
def fminStart (func : P → K) (dim : ℕ) : X0 P K → ℤ × List (P × K) × ℕ
  | .none => (doeSizeOf dim .none, [], 0)
  | .size n => (doeSizeOf dim (some n), [], 0)
  | .points X (some y) => (doeSizeOf dim .none, X.zip y, 0)
  | .points X .none => (doeSizeOf dim .none, X.zip (X.map func), X.length)

end Verif.Model
