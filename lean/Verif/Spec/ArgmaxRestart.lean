import Verif.Model.ArgmaxRestart

/-! # Specification for C30 -/
namespace Verif.Spec
open Verif.Model

variable {X K : Type*} [Field K] [LinearOrder K] [IsStrictOrderedRing K]

/-- The order in which numpy sorts: numbers by size, NaN last. -/
def nanLe : Option K → Option K → Prop
  | _, none => True
  | none, some _ => False
  | some a, some b => a ≤ b

/-- `idx` is a permutation of the positions of `l` that lists the values in non-decreasing order. -/
def IsArgsort (l : List (Option K)) (idx : List ℕ) : Prop :=
  idx.Perm (List.range l.length) ∧ idx.Pairwise (fun i j => ∀ a b, l[i]? = some a → l[j]? = some b → nanLe a b)

/-- The point satisfies the constraints up to the tolerance of the search. -/
def FeasibleUpTo (h g : Option (X → List K)) (x : X) : Prop :=
  (∀ f, h = some f → ∀ v ∈ f x, |v| ≤ 1 / 10) ∧ (∀ f, g = some f → ∀ v ∈ f x, v ≤ 0)

open Classical in
/-- The feasible ones among some runs. -/
noncomputable def feasibleRuns (h g : Option (X → List K)) (runs : List (Outcome X K)) : List (Outcome X K) :=
  runs.filter (fun o => decide (FeasibleUpTo h g o.x))

/-- The last `w` feasible runs (or more) brought no improvement over the ones before them. -/
def Stale (w : ℕ) (fr : List (Outcome X K)) : Prop :=
  ∃ pre post, fr = pre ++ post ∧ w ≤ post.length ∧
    ∀ o ∈ post, ∀ v, o.f = some v → ∃ o' ∈ pre, ∃ v', o'.f = some v' ∧ v ≤ v'

/-- The function calls of the feasible runs have used up the budget. -/
def Exhausted (budget : ℤ) (fr : List (Outcome X K)) : Prop :=
  budget ≤ ((fr.map (fun o => (o.funcalls : ℤ))).sum)

end Verif.Spec
