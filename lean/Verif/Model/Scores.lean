import Mathlib.Analysis.SpecialFunctions.Log.Basic
import Mathlib.Analysis.Real.Pi.Bounds

/-!
# Model of the accuracy scores `SMSE` and `MSLL` (`bayes_optim/surrogate/gaussian_process/utils.py:12-42`)

Numbers are reals, arrays are lists.  A quotient by zero and the mean of an empty list, which numpy answers with infinities or
"not a number" and a warning, are `none`, as is an IndexError.
-/
namespace Verif.Model

noncomputable section

/-- `np.mean` -/
def scoreMean (l : List ℝ) : Option ℝ := if l = [] then none else some (l.sum / l.length)

/-- `np.var`: the mean of the squared distances from the mean. -/
def scoreVar (l : List ℝ) : Option ℝ := (scoreMean l).bind fun m => scoreMean (l.map fun y => (y - m) ^ 2)

/-- `a / b` for floating-point numbers of numpy. -/
def scoreDiv (a b : ℝ) : Option ℝ := if b = 0 then none else some (a / b)

/-- Lines 17-19: the loop over the targets; `pred_y[i]` raises IndexError when there are fewer predictions. -/
def squaredErrors : List ℝ → List ℝ → Option (List ℝ)
  | [], _ => some []
  | _ :: _, [] => none
  | t :: ts, p :: ps => (squaredErrors ts ps).map fun l => (p - t) ^ 2 :: l

/-- utils.py:14-22 `SMSE`. -/
def smse (test pred : List ℝ) : Option ℝ :=
  (scoreVar test).bind fun v => (squaredErrors test pred).bind fun se => (scoreMean se).bind fun m => scoreDiv m v

/-- Lines 33-34: the variance used. -/
def hackedVariance (v : ℝ) : ℝ := if v = 0 then v + 1 / 10000000 else v

/-- Lines 35-38 for one target: the log loss of the prediction, less that of the trivial prediction. -/
def lossDifference (meanY varY t p v : ℝ) : ℝ :=
  (1 / 2 * Real.log (2 * Real.pi * v) + (t - p) ^ 2 / (2 * v)) - (1 / 2 * Real.log (2 * Real.pi * varY) + (t - meanY) ^ 2 / (2 * varY))

/-- Lines 32-39: the loop over the variances.  The second component is the caller's array after the call (line 34 writes into it). -/
def msllLoop (meanY varY : ℝ) : List ℝ → List ℝ → List ℝ → Option (List ℝ) × List ℝ
  | _, _, [] => (some [], [])
  | t :: ts, p :: ps, v :: vs =>
    let rest := msllLoop meanY varY ts ps vs
    (rest.1.map fun l => lossDifference meanY varY t p (hackedVariance v) :: l, hackedVariance v :: rest.2)
  | _, _, v :: vs => (none, hackedVariance v :: vs)

/-- utils.py:28-42 `MSLL`: the score, and the caller's array of variances after the call. -/
def msll (train test pred variances : List ℝ) : Option ℝ × List ℝ :=
  match scoreMean train, scoreVar train with
  | some m, some v =>
    let r := msllLoop m v test pred variances
    (if v = 0 then none else r.1.bind scoreMean, r.2)
  | _, _ => (none, (msllLoop 0 0 test pred variances).2)

end

end Verif.Model
