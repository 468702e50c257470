import Mathlib.Order.Basic
import Mathlib.Data.Fintype.Basic
import Mathlib.Data.Fin.Basic

/-!
# Specification vocabulary: Pareto dominance

Stated for objective vectors with `m` coordinates over any linear order, without reference to the
algorithms that compute fronts.
-/
namespace Verif.Spec

variable {m : ℕ} {K : Type*} [LinearOrder K]

/-- `a` dominates `b` when objectives are minimised: no worse everywhere, better somewhere. -/
def DominatesMin (a b : Fin m → K) : Prop := (∀ k, a k ≤ b k) ∧ ∃ k, a k < b k

/-- `a` dominates `b` when objectives are maximised. -/
def DominatesMax (a b : Fin m → K) : Prop := (∀ k, b k ≤ a k) ∧ ∃ k, b k < a k

/-- Position `i` of the list `F` holds a vector that no vector of `F` dominates (minimisation). -/
def NonDominatedAt (F : List (Fin m → K)) (i : ℕ) : Prop :=
  ∃ p, F[i]? = some p ∧ ∀ q ∈ F, ¬ DominatesMin q p

/-- Position `i` of the list `F` holds a vector that no vector of `F` dominates (maximisation). -/
def NonDominatedMaxAt (F : List (Fin m → K)) (i : ℕ) : Prop :=
  ∃ p, F[i]? = some p ∧ ∀ q ∈ F, ¬ DominatesMax q p

/-- Position `i` is the first position holding its value. -/
def FirstOccurrence {α : Type*} (F : List α) (i : ℕ) : Prop :=
  i < F.length ∧ ∀ j, j < i → F[j]? ≠ F[i]?

/-- Dominance of pairs when both objectives are maximised. -/
def DominatesMax2 (a b : K × K) : Prop := b.1 ≤ a.1 ∧ b.2 ≤ a.2 ∧ (b.1 < a.1 ∨ b.2 < a.2)

/-- Dominance of pairs when both objectives are minimised. -/
def DominatesMin2 (a b : K × K) : Prop := a.1 ≤ b.1 ∧ a.2 ≤ b.2 ∧ (a.1 < b.1 ∨ a.2 < b.2)

/-- `order` lists all positions of `xs` once, with values in non-increasing order. -/
def IsDescendingOrder (xs : List K) (order : List ℕ) : Prop :=
  order.Perm (List.range xs.length) ∧
    ∀ i j : ℕ, i < j → ∀ (a b : ℕ) (x y : K), order[i]? = some a → order[j]? = some b →
      xs[a]? = some x → xs[b]? = some y → y ≤ x

/-- There is a chain of `k` strict dominations ending at position `i` of `F`:
`F[i₀]` dominates `F[i₁]` dominates … dominates `F[i]`. -/
inductive DomChain (F : List (Fin m → K)) : ℕ → ℕ → Prop
  | start {i : ℕ} : i < F.length → DomChain F 0 i
  | step {k j i : ℕ} {p q : Fin m → K} : DomChain F k j → F[j]? = some p → F[i]? = some q →
      DominatesMin p q → DomChain F (k + 1) i

/-- The non-domination rank of position `i` is `k`: the longest domination chain ending there has `k`
steps. -/
def HasRank (F : List (Fin m → K)) (i k : ℕ) : Prop :=
  DomChain F k i ∧ ∀ k', DomChain F k' i → k' ≤ k

end Verif.Spec
