import Mathlib.Algebra.Field.Defs
import Mathlib.Algebra.BigOperators.Group.List.Basic

/-!
# Model of the trend functions (`bayes_optim/surrogate/gaussian_process/trend.py:10-142`)

Samples are two-dimensional arrays given as lists of rows; one-dimensional input is a single row (line 53).
-/
namespace Verif.Model

variable {K : Type*} [Field K]

/-- The three classes (lines 69, 94, 119). -/
inductive TrendKind where
  | constant
  | linear
  | quadratic
  deriving DecidableEq

/-- An array as numpy sees it: its numbers of rows and columns and its entries. -/
structure Arr2 (K : Type*) where
  nrow : ℕ
  ncol : ℕ
  rows : List (List K)

/-- `X.T`. -/
def Arr2.T (X : Arr2 K) : Arr2 K :=
  ⟨X.ncol, X.nrow, (List.range X.ncol).map (fun j => X.rows.map (fun r => r.getD j 0))⟩

/-- Lines 51-58 `check_input`; `none` is the exception. -/
def checkInput (n : ℕ) (X : Arr2 K) : Option (Arr2 K) :=
  if X.ncol = n then some X else if X.T.ncol = n then some X.T else none

/-- `n_dim` as passed to the base class (lines 77, 101, 128) and converted to int (line 14). -/
def trendDim (k : TrendKind) (n : ℕ) : ℕ :=
  match k with
  | .constant => 1
  | .linear => n + 1
  | .quadratic => (n + 1) * (n + 2) / 2

/-- Lines 134-135: the products appended by the loop, for one row. -/
def quadProducts (n : ℕ) (x : List K) : List K :=
  (List.range n).flatMap (fun k => (x.drop k).map (fun v => x.getD k 0 * v))

/-- Lines 82, 106, 133-136: the basis functions at one row. -/
def trendRow (k : TrendKind) (n : ℕ) (x : List K) : List K :=
  match k with
  | .constant => [1]
  | .linear => 1 :: x
  | .quadratic => (1 :: x) ++ quadProducts n x

/-- Lines 79-82, 103-106, 130-136 `F`. -/
def trendF (k : TrendKind) (n : ℕ) (X : Arr2 K) : Option (List (List K)) :=
  (checkInput n X).map (fun Y => Y.rows.map (trendRow k n))

/-- The argument `beta` (lines 22-29); `unset` is None. -/
inductive BetaArg (K : Type*) where
  | unset
  | scalar (b : K)
  | vector (b : List K)

/-- Lines 22-29: a scalar is repeated, a vector must have length `n_dim`; `none` is the exception, for `unset`
that of the later call (lines 35-36). -/
def setBeta (dim : ℕ) : BetaArg K → Option (List K)
  | .unset => none
  | .scalar b => some (List.replicate dim b)
  | .vector b => if b.length = dim then some b else none

/-- Lines 34-37 `__call__`. -/
def trendCall (k : TrendKind) (n : ℕ) (beta : BetaArg K) (X : Arr2 K) : Option (List K) :=
  (setBeta (trendDim k n) beta).bind (fun b =>
    (trendF k n X).map (fun F => F.map (fun r => (List.zipWith (· * ·) r b).sum)))

/-- Lines 84-86, 108-111, 138-139 `Jacobian`, in numerator layout (one row for each basis function); `none` is an exception: the
input check, the assertion of a single point (linear trend only) or NotImplementedError. -/
def trendJacobian (k : TrendKind) (n : ℕ) (X : Arr2 K) : Option (List (List K)) :=
  match k with
  | .constant => (checkInput n X).map (fun _ => [List.replicate n 0])
  | .linear => (checkInput n X).bind (fun Y => if Y.nrow = 1 then
      some (List.replicate n 0 :: (List.range n).map (fun i => (List.range n).map (fun j => if i = j then 1 else 0)))
      else none)
  | .quadratic => none

end Verif.Model
