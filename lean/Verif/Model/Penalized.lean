import Verif.Model.Penalty

/-!
# The penalised objective of the gradient-based acquisition search (`acquisition/optim/__init__.py:25-52`)

Points are non-empty lists of reals.  The objective returns its value and gradient; constraint functions return the list of their values (or `none`).
The shapes of the arrays (columns against vectors) are not modelled.
-/
namespace Verif.Model

/-- A constraint function on points as `dynamic_penalty` calls it. -/
def onPoints (f : List ℝ → Option (List ℝ)) : Cand ℝ → Option (List ℝ)
  | .point x => f x
  | .coord _ => none

/-- `dynamic_penalty(x, t, equality, inequality)` for one point (utils.py:272-344): the array has one entry. -/
noncomputable def pointPenalty (h g : Option (List ℝ → Option (List ℝ))) (t : ℝ) (x : List ℝ) : Except PenErr ℝ :=
  (dynamicPenalty (fun _ => false) (h.map onPoints) (g.map onPoints) (.default t true) (.point x)).map fun p => p.headD 0

/-- Lines 25-30 `finite_difference` -/
noncomputable def finiteDifference (f : List ℝ → Except PenErr ℝ) (delta : ℝ) (x : List ℝ) : Except PenErr (List ℝ) :=
  (List.range x.length).mapM fun i => (f (x.modify i (· + delta))).bind fun a => (f (x.modify i (· - delta))).map fun b => (a - b) / (2 * delta)

/-- Lines 39-52 `Penalized.__call__`: the result and the counter after the call.  An exception leaves the counter. -/
noncomputable def penalizedCall (func : List ℝ → ℝ × List ℝ) (h g : Option (List ℝ → Option (List ℝ))) (t : ℕ) (x : List ℝ) :
    Except PenErr (ℝ × List ℝ) × ℕ :=
  let f := -1 * (func x).1
  let fg := (func x).2.map (-1 * ·)
  if h.isSome || g.isSome then
    match pointPenalty h g t x with
    | .error e => (.error e, t)
    | .ok p =>
      match finiteDifference (pointPenalty h g t) (1 / 100000) x with
      | .error e => (.error e, t)
      | .ok pg => (.ok (f + p, List.zipWith (· + ·) fg pg), t + 1)
  else (.ok (f, fg), t)

/-- The calls of one run, starting with the counter at 10 (line 42). -/
noncomputable def penalizedCalls (func : List ℝ → ℝ × List ℝ) (h g : Option (List ℝ → Option (List ℝ))) :
    ℕ → List (List ℝ) → List (Except PenErr (ℝ × List ℝ))
  | _, [] => []
  | t, x :: xs => (penalizedCall func h g t x).1 :: penalizedCalls func h g (penalizedCall func h g t x).2 xs

end Verif.Model
