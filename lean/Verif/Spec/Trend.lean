import Verif.Model.Trend

/-! # Specification for C41 -/
namespace Verif.Spec
open Verif.Model

variable {K : Type*} [Field K]

/-- Monomials of degree at most two. -/
inductive Monomial where
  | one
  | lin (i : ℕ)
  | quad (i j : ℕ)
  deriving DecidableEq

/-- Their values. -/
def Monomial.eval (x : ℕ → K) : Monomial → K
  | .one => 1
  | .lin i => x i
  | .quad i j => x i * x j

/-- The monomials in `n` variables that belong to each trend; for the quadratic trend each product once. -/
def Monomial.belongs (k : TrendKind) (n : ℕ) : Monomial → Prop
  | .one => True
  | .lin i => k ≠ .constant ∧ i < n
  | .quad i j => k = .quadratic ∧ i ≤ j ∧ j < n

/-- A well-formed sample with `n` features. -/
def IsSample (n : ℕ) (X : Arr2 K) : Prop := X.ncol = n ∧ X.rows.length = X.nrow ∧ ∀ r ∈ X.rows, r.length = n

end Verif.Spec
