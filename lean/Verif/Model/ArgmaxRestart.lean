import Mathlib.Algebra.Order.Field.Basic
import Mathlib.Order.WithBot
import Mathlib.Data.List.Sort
import Mathlib.Algebra.BigOperators.Group.List.Basic

/-!
# Model of the restarted acquisition search (`bayes_optim/acquisition/optim/__init__.py:55-153`)

The inner optimisers (L-BFGS-B, the (1+1)-CMA-ES, MIES) are one oracle that maps the number of the restart and the
remaining budget to a result.  Values are finite numbers or NaN (`none`).
-/
namespace Verif.Model

variable {X K : Type*} [Field K] [LinearOrder K] [IsStrictOrderedRing K]

/-- `xopt_, fopt_, stop_dict["funcalls"]` of one restart (lines 79-124). -/
structure Outcome (X K : Type*) where
  x : X
  f : Option K
  funcalls : ℕ

/-- The local variables of the loop (lines 67-69, 137-139); `runs` is a ghost variable that records every restart. -/
structure RState (X K : Type*) where
  found : List (X × Option K)
  best : WithBot K
  wait : ℕ
  budget : ℤ
  runs : List (Outcome X K)

/-- Lines 126-127: `np.isclose(|h|, 0, atol=0.1)` is `|h| ≤ 0.1`; `h`, `g` are `none` if not given. -/
def restartFeasible (h g : Option (X → List K)) (x : X) : Bool :=
  (match h with | none => true | some h => (h x).all (fun v => decide (|v| ≤ 1 / 10))) &&
  (match g with | none => true | some g => (g x).all (fun v => decide (v ≤ 0)))

/-- Line 132: `fopt_ > best`, false for NaN. -/
def improves (f : Option K) (best : WithBot K) : Bool :=
  match f with
  | none => false
  | some v => decide (best < (v : WithBot K))

/-- Lines 126-147: the body of the loop after the inner optimiser has returned `o`. -/
def restartStep (h g : Option (X → List K)) (s : RState X K) (o : Outcome X K) : RState X K :=
  if restartFeasible h g o.x then
    { found := s.found ++ [(o.x, o.f)],
      best := if improves o.f s.best then (match o.f with | none => s.best | some v => (v : WithBot K)) else s.best,
      wait := if improves o.f s.best then 0 else s.wait + 1,
      budget := s.budget - o.funcalls,
      runs := s.runs ++ [o] }
  else { s with runs := s.runs ++ [o] }

/-- Lines 75-150: the loop, with `n` restarts left. -/
def restartLoop (restart : ℕ → ℤ → Outcome X K) (h g : Option (X → List K)) (waitIter : ℕ) :
    ℕ → ℕ → RState X K → RState X K
  | 0, _, s => s
  | n + 1, i, s =>
    let s' := restartStep h g s (restart i s.budget)
    if s'.budget ≤ 0 ∨ waitIter ≤ s'.wait then s' else restartLoop restart h g waitIter n (i + 1) s'

/-- Lines 67-150. -/
def restartRun (restart : ℕ → ℤ → Outcome X K) (h g : Option (X → List K)) (waitIter n : ℕ) (budget : ℤ) :
    RState X K :=
  restartLoop restart h g waitIter n 0 ⟨[], ⊥, 0, budget, []⟩

/-- Lines 67-153.  `argsort` is numpy's; the last position of its result is used (`[::-1]`, `idx[0]`).  `none` is
`([], [])`. -/
def argmaxRestart (argsort : List (Option K) → List ℕ) (restart : ℕ → ℤ → Outcome X K) (h g : Option (X → List K))
    (waitIter n : ℕ) (budget : ℤ) : Option (X × Option K) :=
  let s := restartRun restart h g waitIter n budget
  if s.found.length = 0 then none
  else (((argsort (s.found.map Prod.snd)).reverse.head?).bind (fun i => s.found[i]?))

end Verif.Model
