import Mathlib.Analysis.SpecialFunctions.Exp
import Mathlib.Analysis.SpecialFunctions.Sqrt
import Mathlib.Analysis.SpecialFunctions.Pow.Real
import Mathlib.Data.Sign.Basic

/-!
# Model of the correlation functions: `bayes_optim/surrogate/gaussian_process/kernel.py:160-466` and the functions of
`bayes_optim/surrogate/gaussian_process/gpr.py` that use them (`l1_cross_distances` 23-62, `corr_dx` 598-662,
`corr_Hessian` 664-734, `corr_grad_theta` 736-771, `correlation_matrix` 773-783)

Numbers are reals.  A call that raises is `none`.  `matern` is modelled for `nu` = 0.5, 1.5 and 2.5; other values need
Bessel functions and are never passed by the library.
-/
namespace Verif.Model

noncomputable section

variable {n N : ℕ}

/-- The three values of `nu` with a closed form (kernel.py:190-201). -/
inductive MaternNu where
  | half
  | threeHalves
  | fiveHalves
  deriving DecidableEq

/-- The names in `GaussianProcess._correlation_types` (gpr.py:204-210). -/
inductive CorrName where
  | absoluteExponential
  | squaredExponential
  | generalizedExponential
  | cubic
  | matern (nu : MaternNu)
  deriving DecidableEq

/-- `theta[0] * np.sum(g, axis=1)` for one parameter, `np.sum(theta.reshape(1, n_features) * g, axis=1)` for `n`
parameters; any other number of parameters raises (kernel.py:183-186, 272-277, 312-317). -/
def weightedSum (theta : List ℝ) (g : Fin n → ℝ) : Option ℝ :=
  if theta.length = 1 then some (theta.getD 0 0 * ∑ k, g k)
  else if theta.length = n then some (∑ k : Fin n, theta.getD k.val 0 * g k)
  else none

/-- kernel.py:190-201, for the scaled distance `dists`. -/
def maternValue (nu : MaternNu) (dists : ℝ) : ℝ :=
  match nu with
  | .half => Real.exp (-dists)
  | .threeHalves => let K := dists * Real.sqrt 3; (1 + K) * Real.exp (-K)
  | .fiveHalves => let K := dists * Real.sqrt 5; (1 + K + K ^ 2 / 3) * Real.exp (-K)

/-- kernel.py:320-365 `generalized_exponential`, one row.  With two parameters and more than one feature (lines 356-357) the
parameters are a one-dimensional array, which line 363 indexes with two indices: IndexError. -/
def generalizedExponential (theta : List ℝ) (d : Fin n → ℝ) : Option ℝ :=
  if 1 < n ∧ theta.length = 2 then none
  else if theta.length ≠ n + 1 then none
  else some (Real.exp (-∑ k : Fin n, theta.getD k.val 0 * |d k| ^ (theta.getD n 0)))

/-- kernel.py:461-463: one factor of the cubic correlation; `td` is the scaled distance, cut at one. -/
def cubicFactor (td : ℝ) : ℝ :=
  let t := if td > 1 then 1 else td
  1 - t ^ 2 * (3 - 2 * t)

/-- kernel.py:404-466 `cubic`, one row. -/
def cubicValue (theta : List ℝ) (d : Fin n → ℝ) : Option ℝ :=
  if theta.length = 1 then some (∏ k, cubicFactor (|d k| * theta.getD 0 0))
  else if theta.length ≠ n then none
  else some (∏ k : Fin n, cubicFactor (|d k| * theta.getD k.val 0))

/-- The correlation of two points whose coordinates differ by `d` (kernel.py:160, 240, 280, 320, 404). -/
def corr (name : CorrName) (theta : List ℝ) (d : Fin n → ℝ) : Option ℝ :=
  match name with
  | .absoluteExponential => (weightedSum theta (fun k => |d k|)).map (fun s => Real.exp (-s))
  | .squaredExponential => (weightedSum theta (fun k => d k ^ 2)).map (fun s => Real.exp (-s))
  | .generalizedExponential => generalizedExponential theta d
  | .cubic => cubicValue theta d
  | .matern nu => (weightedSum theta (fun k => d k ^ 2)).map (fun s => maternValue nu (Real.sqrt s))

/-- kernel.py:368-401 `pure_nugget`, one row. -/
def pureNugget (d : Fin n → ℝ) : ℝ := open Classical in if ∀ k, d k = 0 then 1 else 0

/-- `np.abs(x - y)`. -/
def absDiff (x y : Fin n → ℝ) : Fin n → ℝ := fun k => |x k - y k|

/-- gpr.py:54-61: the index pairs `ij`, in the order of the loop. -/
def crossPairs (N : ℕ) : List (Fin N × Fin N) :=
  (List.finRange N).flatMap (fun k => ((List.finRange N).filter (fun l => decide (k < l))).map (fun l => (k, l)))

/-- `R[i, j] = v`. -/
def setEntry (R : Fin N → Fin N → ℝ) (i j : Fin N) (v : ℝ) : Fin N → Fin N → ℝ :=
  fun a b => if a = i ∧ b = j then v else R a b

/-- gpr.py:49-62 and 773-783 `correlation_matrix`: the identity, then the entries above, then those below the diagonal.
`c` is the correlation function with its parameters. -/
def correlationMatrix (c : (Fin n → ℝ) → ℝ) (X : Fin N → Fin n → ℝ) : Fin N → Fin N → ℝ :=
  let r := (crossPairs N).map (fun p => (p, c (absDiff (X p.1) (X p.2))))
  let R0 : Fin N → Fin N → ℝ := fun i j => if i = j then 1 else 0
  let R1 := r.foldl (fun R q => setEntry R q.1.1 q.1.2 q.2) R0
  r.foldl (fun R q => setEntry R q.1.2 q.1.1 q.2) R1

/-- gpr.py:43-48 and 478-480: the correlations of a point with the samples. -/
def corrVector (c : (Fin n → ℝ) → ℝ) (X : Fin N → Fin n → ℝ) (x : Fin n → ℝ) : Fin N → ℝ :=
  fun i => c (absDiff x (X i))

/-- Parameter of coordinate `k` after `theta.reshape(-1, 1)` is broadcast against the coordinates (gpr.py:629, 635, 639). -/
def thetaAt (theta : List ℝ) (k : ℕ) : ℝ := if theta.length = 1 then theta.getD 0 0 else theta.getD k 0

/-- gpr.py:639-640: the scaled distance `D` to one sample. -/
def scaledDist (theta : List ℝ) (diff : Fin n → ℝ) : ℝ := Real.sqrt (∑ k : Fin n, thetaAt theta k.val * diff k ^ 2)

open Classical in
/-- gpr.py:598-662 `corr_dx` as called by `gradient` (`nu` = 1.5): entry `[k, i]`, the derivative of the correlation with
sample `i` in coordinate `k`.  `none` is the UnboundLocalError of line 662 for the names without a formula.  A quotient by a
zero distance is a RuntimeWarning, turned into an exception (line 632), after which the whole array is zero (lines 659-660).
`r` are the correlations with the samples. -/
def corrDx (name : CorrName) (theta : List ℝ) (X : Fin N → Fin n → ℝ) (x : Fin n → ℝ) (r : Fin N → ℝ) :
    Option (Fin n → Fin N → ℝ) :=
  match name with
  | .squaredExponential => some (fun k i => -2 * r i * (thetaAt theta k.val * (x k - X i k)))
  | .matern _ =>
    if ∃ i, scaledDist theta (fun k => x k - X i k) = 0 then some (fun _ _ => 0)
    else some (fun k i =>
      let D := scaledDist theta (fun l => x l - X i l)
      ((x k - X i k) * thetaAt theta k.val / D) * (-3 * D * Real.exp (-(Real.sqrt 3 * D))))
  | .absoluteExponential => some (fun k i => -1 * r i * thetaAt theta k.val * (SignType.sign (x k - X i k) : ℝ))
  | .generalizedExponential | .cubic => none

/-- gpr.py:664-734 `corr_Hessian`: entry `[k, l, i]`.  Only the squared exponential assigns a result that is returned without
error (the Matérn correlation returns a two-dimensional array of zeros at a sample, and the absolute exponential
an array of another shape for one sample; both are `none` here); `theta[k]` (line 704) raises IndexError for a single
parameter and more than one coordinate. -/
def corrHessian (name : CorrName) (theta : List ℝ) (X : Fin N → Fin n → ℝ) (x : Fin n → ℝ) (r : Fin N → ℝ) :
    Option (Fin n → Fin n → Fin N → ℝ) :=
  match name with
  | .squaredExponential =>
    if theta.length < n then none
    else some (fun k l i =>
      let g := -2 * r i * (thetaAt theta k.val * (x k - X i k));
      -2 * (g * (thetaAt theta l.val * (x l - X i l)) + r i * (if l = k then theta.getD k.val 0 else 0)))
  | _ => none

/-- gpr.py:736-771 `corr_grad_theta` (`nu` = 1.5): entry `[i, j, k]`; `R` is the correlation matrix. -/
def corrGradTheta (name : CorrName) (theta : List ℝ) (X : Fin N → Fin n → ℝ) (R : Fin N → Fin N → ℝ) :
    Option (Fin N → Fin N → Fin n → ℝ) :=
  match name with
  | .squaredExponential => some (fun i j k => -((X i k - X j k) ^ 2) * R i j)
  | .matern _ => some (fun i j k =>
      let D := scaledDist theta (fun l => X i l - X j l);
      -3 * Real.exp (-(Real.sqrt 3 * D)) * (X i k - X j k) ^ 2 / 2)
  | .absoluteExponential => some (fun i j k => -Real.sqrt ((X i k - X j k) ^ 2) * R i j)
  | .generalizedExponential | .cubic => none

end

end Verif.Model
