import Mathlib.Analysis.SpecialFunctions.Exp
import Mathlib.Analysis.SpecialFunctions.Log.Basic
import Mathlib.Analysis.SpecialFunctions.Sqrt
import Mathlib.Analysis.Real.Pi.Bounds
import Mathlib.MeasureTheory.Integral.Bochner.Set
import Mathlib.MeasureTheory.Measure.Lebesgue.Basic

/-!
# Model of the acquisition functions (`bayes_optim/acquisition/acquisition_fun.py`) and of the code that builds them
(`bayes_optim/base.py:433-438, 449-494`, `bayes_optim/bayes_opt.py:18-25, 58-115, 177-194`)

Numbers are reals; a quotient by zero, which numpy turns into `inf` or `nan`, is made explicit.  The surrogate is an oracle: at a point it
gives a mean, a variance (not negative) and the two gradients.  A gradient is given coordinate by coordinate.
-/
namespace Verif.Model

/-- `scipy.stats.norm.pdf`. -/
noncomputable def normPdf (x : ℝ) : ℝ := Real.exp (-x ^ 2 / 2) / Real.sqrt (2 * Real.pi)

/-- `scipy.stats.norm.cdf`. -/
noncomputable def normCdf (x : ℝ) : ℝ := ∫ t in Set.Iic x, normPdf t

/-- The classes of the module (lines 107, 150, 192, 231, 238). -/
inductive AcqName where
  | UCB
  | EI
  | EpsilonPI
  | PI
  | MGFI
  deriving DecidableEq

/-- A dictionary of keyword arguments, without `model` and `minimize`.  Keys other than these four are not modelled. -/
structure AcqPar where
  plugin : Option ℝ := none
  t : Option ℝ := none
  alpha : Option ℝ := none
  epsilon : Option ℝ := none

/-- `{}`. -/
def emptyPar : AcqPar := {}

/-- AssertionError (lines 124, 205, 261), TypeError (unexpected keyword; calling `None`), NotImplementedError, KeyError, ValueError (truth
value of an array with several entries). -/
inductive AcqErr where
  | assertion
  | typeError
  | notImplemented
  | keyError
  | valueError
  deriving DecidableEq

/-- What the surrogate says of itself: its attributes `y` (the training targets, line 99) and `sigma2` (line 162), if it has them. -/
structure AcqModel where
  y : Option (List ℝ) := none
  sigma2 : Option ℝ := none

/-- What the surrogate says at one point: the two results of `predict(X, eval_MSE=True)` and one coordinate of each of the two results of
`gradient(X)`. -/
structure AcqPred where
  mean : ℝ
  mse : ℝ
  meanDx : ℝ := 0
  mseDx : ℝ := 0

/-- `np.min`, for an array that is not empty. -/
noncomputable def npMin : List ℝ → ℝ
  | [] => 0
  | a :: l => l.foldl min a

/-- `np.max`, for an array that is not empty. -/
noncomputable def npMax : List ℝ → ℝ
  | [] => 0
  | a :: l => l.foldl max a

/-- An acquisition function: its class, its free parameter (`alpha`, `epsilon` or `t`; zero for `EI`), its plugin and the direction. -/
structure Acq where
  name : AcqName
  par : ℝ
  plugin : Option ℝ
  minimize : Bool

/-- Lines 96-104: the setter of `plugin`. -/
noncomputable def setPlugin (mdl : AcqModel) (minimize : Bool) (plugin : Option ℝ) : Option ℝ :=
  match plugin with
  | none => mdl.y.map (fun y => if minimize then npMin y else -1 * npMax y)
  | some p => some (if minimize then p else -1 * p)

/-- The constructors (lines 88-90, 108-125, 195-206, 232-235, 250-263). `UCB` has no plugin, the others have one.  A keyword that no
constructor in the chain takes ends in `AcquisitionFunction.__init__`, which raises TypeError. -/
noncomputable def acqInit (name : AcqName) (par : AcqPar) (mdl : AcqModel) (minimize : Bool) : Except AcqErr Acq :=
  match name with
  | .UCB =>
    if par.plugin.isSome || par.t.isSome || par.epsilon.isSome then .error .typeError
    else
      let alpha := par.alpha.getD (1 / 2)
      if 0 < alpha then .ok { name := .UCB, par := alpha, plugin := none, minimize } else .error .assertion
  | .EI =>
    if par.t.isSome || par.alpha.isSome || par.epsilon.isSome then .error .typeError
    else .ok { name := .EI, par := 0, plugin := setPlugin mdl minimize par.plugin, minimize }
  | .EpsilonPI =>
    if par.t.isSome || par.alpha.isSome then .error .typeError
    else
      let eps := par.epsilon.getD (1 / 10 ^ 10)
      if 0 < eps then .ok { name := .EpsilonPI, par := eps, plugin := setPlugin mdl minimize par.plugin, minimize }
      else .error .assertion
  | .PI =>
    if par.t.isSome || par.alpha.isSome then .error .typeError
    else
      -- line 234 overwrites `epsilon`, line 205 is in the setter of the parent class
      let eps : ℝ := 0
      if 0 < eps then .ok { name := .PI, par := eps, plugin := setPlugin mdl minimize par.plugin, minimize }
      else .error .assertion
  | .MGFI =>
    if par.alpha.isSome || par.epsilon.isSome then .error .typeError
    else
      let t := par.t.getD 1
      if 0 < t then .ok { name := .MGFI, par := min t (2236 / 100), plugin := setPlugin mdl minimize par.plugin, minimize }
      else .error .assertion

/-- Lines 61-64: the predicted value (turned round for maximisation) and the standard deviation. -/
noncomputable def acqPredict (minimize : Bool) (p : AcqPred) : ℝ × ℝ :=
  (if minimize then p.mean else -1 * p.mean, Real.sqrt p.mse)

/-- Lines 77-80: one coordinate of the gradients, turned round for maximisation. -/
noncomputable def acqGradient (minimize : Bool) (p : AcqPred) : ℝ × ℝ :=
  (if minimize then p.meanDx else -1 * p.meanDx, p.mseDx)

/-- Line 133. -/
noncomputable def ucbValue (alpha yHat sd : ℝ) : ℝ := yHat + alpha * sd

/-- Lines 162-169: whether the prediction counts as certain.  `sigma2` is positive. -/
noncomputable def eiCertain (mdl : AcqModel) (sd : ℝ) : Prop :=
  match mdl.sigma2 with
  | some s2 => sd / Real.sqrt s2 < 1 / 10 ^ 6
  | none => sd < 1 / 10 ^ 10

/-- Lines 171-174. -/
noncomputable def eiFormula (plugin yHat sd : ℝ) : ℝ :=
  (plugin - yHat) * normCdf ((plugin - yHat) / sd) + sd * normPdf ((plugin - yHat) / sd)

/-- Line 212. -/
noncomputable def epsCoef (eps yHat : ℝ) : ℝ := if 0 < yHat then 1 - eps else 1 + eps

/-- Lines 214-216.  With `sd = 0` numpy divides by zero: the quotient is infinite with the sign of the numerator, or `nan` (`none`). -/
noncomputable def piFormula (eps plugin yHat sd : ℝ) : Option ℝ :=
  let xcr := plugin - epsCoef eps yHat * yHat
  if sd = 0 then (if 0 < xcr then some 1 else if xcr < 0 then some 0 else none) else some (normCdf (xcr / sd))

/-- Line 274: `np.isclose(sd, 0)`. -/
noncomputable def mgfiCertain (sd : ℝ) : Prop := |sd| ≤ 1 / 10 ^ 8

/-- Lines 280-283.  Overflow, which gives zero (lines 286-290), does not happen with real numbers. -/
noncomputable def mgfiFormula (t plugin yHat sd : ℝ) : ℝ :=
  normCdf ((plugin - (yHat - t * sd ^ 2)) / sd) * Real.exp (t * (plugin - yHat - 1) + t ^ 2 * sd ^ 2 / 2)

open Classical in
/-- The value of `__call__` for the predicted value `yHat` and standard deviation `sd`; `none` is `nan`.  Without a plugin the subtraction
raises TypeError, which is caught, and the value is zero (lines 177-179, 217-218, 286-287). -/
noncomputable def acqValueAt (a : Acq) (mdl : AcqModel) (yHat sd : ℝ) : Option ℝ :=
  match a.name with
  | .UCB => some (ucbValue a.par yHat sd)
  | .EI => if eiCertain mdl sd then some 0 else some ((a.plugin.map (fun pl => eiFormula pl yHat sd)).getD 0)
  | .EpsilonPI | .PI => (a.plugin.map (fun pl => piFormula a.par pl yHat sd)).getD (some 0)
  | .MGFI => if mgfiCertain sd then some 0 else some ((a.plugin.map (fun pl => mgfiFormula a.par pl yHat sd)).getD 0)

/-- The value of `__call__` at one point (lines 130, 158, 210, 269). -/
noncomputable def acqValue (a : Acq) (mdl : AcqModel) (p : AcqPred) : Option ℝ :=
  acqValueAt a mdl (acqPredict a.minimize p).1 (acqPredict a.minimize p).2

/-- Lines 141-143. -/
noncomputable def ucbDx (alpha yDx sdDx : ℝ) : ℝ := yDx + alpha * sdDx

/-- Lines 183-185. -/
noncomputable def eiDx (plugin yHat sd yDx sdDx : ℝ) : ℝ :=
  -yDx * normCdf ((plugin - yHat) / sd) + sdDx * normPdf ((plugin - yHat) / sd)

/-- Lines 222-224. -/
noncomputable def piDx (eps plugin yHat sd yDx sdDx : ℝ) : ℝ :=
  let coef := epsCoef eps yHat
  let xcr := (plugin - coef * yHat) / sd
  (-(coef * yDx + xcr * sdDx)) * normPdf xcr / sd

/-- Lines 294-306. -/
noncomputable def mgfiDx (t plugin yHat sd yDx sdDx : ℝ) : ℝ :=
  let betaP := (plugin - (yHat - t * sd ^ 2)) / sd
  let term := Real.exp (t * (plugin + t * sd ^ 2 / 2 - yHat - 1))
  let mPrimeDx := yDx - 2 * t * sd * sdDx
  let betaPDx := -(mPrimeDx + betaP * sdDx) / sd
  term * (normPdf betaP * betaPDx + normCdf betaP * (t ^ 2 * sd * sdDx - t * yDx))

open Classical in
/-- The second result of `__call__` with `return_dx=True`, one coordinate; `none` is `inf` or `nan` from the division by `2.0 * sd`. -/
noncomputable def acqDxAt (a : Acq) (mdl : AcqModel) (yHat sd yDx sdDx : ℝ) : Option ℝ :=
  match a.name with
  | .UCB => if sd = 0 then none else some (ucbDx a.par yDx sdDx)
  | .EI =>
    if eiCertain mdl sd then some 0
    else if sd = 0 then none
    else some ((a.plugin.map (fun pl => eiDx pl yHat sd yDx sdDx)).getD 0)
  | .EpsilonPI | .PI =>
    if sd = 0 then none else some ((a.plugin.map (fun pl => piDx a.par pl yHat sd yDx sdDx)).getD 0)
  | .MGFI =>
    if mgfiCertain sd then some 0 else some ((a.plugin.map (fun pl => mgfiDx a.par pl yHat sd yDx sdDx)).getD 0)

/-- The gradient at one point (lines 140-141, 182-183, 221-222, 293-294). -/
noncomputable def acqDx (a : Acq) (mdl : AcqModel) (p : AcqPred) : Option ℝ :=
  acqDxAt a mdl (acqPredict a.minimize p).1 (acqPredict a.minimize p).2 (acqGradient a.minimize p).1
    ((acqGradient a.minimize p).2 / (2 * (acqPredict a.minimize p).2))

/-- `__call__` on an array of points: only `UCB` takes more than one (line 133); the others ask for the truth value of an array
(lines 163, 168, 212, 274). -/
noncomputable def acqCall (a : Acq) (mdl : AcqModel) (ps : List AcqPred) : Except AcqErr (List (Option ℝ)) :=
  match a.name with
  | .UCB => .ok (ps.map (acqValue a mdl))
  | _ => if 1 < ps.length then .error .valueError else .ok (ps.map (acqValue a mdl))

/-! ### Building the acquisition function inside the optimiser -/

/-- `hasattr(getattr(AcquisitionFunction, fun), "plugin")` (bayes_opt.py:21). -/
def hasPlugin : AcqName → Bool
  | .UCB => false
  | _ => true

/-- What the optimisers know when they build an acquisition function: the class, the user's `acquisition_par`, the direction, the smallest
and the largest standardised fitness (base.py:438) and the model. -/
structure AcqOpt where
  fn : AcqName
  acqPar : AcqPar
  minimize : Bool
  fmin : ℝ
  fmax : ℝ
  mdl : AcqModel

/-- base.py:482-488. -/
noncomputable def baseCreate (o : AcqOpt) (fn : Option AcqName) (par : Option AcqPar) : Except AcqErr Acq :=
  acqInit (fn.getD o.fn) (par.getD o.acqPar) o.mdl o.minimize

/-- bayes_opt.py:21-23. -/
noncomputable def boPar (o : AcqOpt) (f : AcqName) (p : AcqPar) : AcqPar :=
  if hasPlugin f && p.plugin.isNone then { p with plugin := some (if o.minimize then o.fmin else o.fmax) } else p

/-- bayes_opt.py:18-25. -/
noncomputable def boCreate (o : AcqOpt) (fn : Option AcqName) (par : Option AcqPar) : Except AcqErr Acq :=
  baseCreate o (some (fn.getD o.fn)) (some (boPar o (fn.getD o.fn) (par.getD emptyPar)))

/-- bayes_opt.py:187-192; `yhat` are the predictions at the recorded points. The class asked is that of the optimiser, not `fun`. -/
noncomputable def noisyPar (o : AcqOpt) (yhat : List ℝ) (p : AcqPar) : AcqPar :=
  if hasPlugin o.fn then { p with plugin := some (if o.minimize then npMin yhat else npMax yhat) } else p

/-- bayes_opt.py:185-194. -/
noncomputable def noisyCreate (o : AcqOpt) (yhat : List ℝ) (fn : Option AcqName) (par : Option AcqPar) : Except AcqErr Acq :=
  boCreate o fn (some (noisyPar o yhat (par.getD emptyPar)))

/-- base.py:471: the acquisition function of the single-point strategy. -/
noncomputable def singleCreate (o : AcqOpt) : Except AcqErr Acq := boCreate o none (some emptyPar)

/-- bayes_opt.py:82-94: the sampler of the free parameter; `z` is `np.random.randn()`.  Calling the sampler of `EpsilonPI`, which is
`None`, raises TypeError. -/
noncomputable def sampler (fn : AcqName) (par : AcqPar) (z : ℝ) : Except AcqErr AcqPar :=
  match fn with
  | .MGFI =>
    match par.t with
    | some t => .ok { par with t := some (Real.exp (Real.log t + 1 / 2 * z)) }
    | none => .error .keyError
  | .UCB =>
    match par.alpha with
    | some a => .ok { par with alpha := some (1 / (1 + Real.exp ((a * 4 - 2) + 6 / 10 * z))) }
    | none => .error .keyError
  | .EpsilonPI => .error .typeError
  | _ => .error .notImplemented

/-- bayes_opt.py:66-98: the constructor of `ParallelBO`, as far as the acquisition function goes; `par = none` is the default argument
`{"t": 2}`; `hasModel` says whether the keyword `model` was given (line 96 reads it without a default).  Returns the dictionary kept. -/
noncomputable def parallelInit (fn : AcqName) (par : Option AcqPar) (hasModel : Bool) (mdl : AcqModel) : Except AcqErr AcqPar :=
  let p := par.getD { t := some 2 }
  match fn with
  | .EI | .PI => .error .notImplemented
  | _ =>
    if hasModel then
      match acqInit fn emptyPar mdl true with
      | .error e => .error e
      | .ok a =>
        match fn with
        | .MGFI => .ok { p with t := some (p.t.getD a.par) }
        | .UCB => .ok { p with alpha := some (p.alpha.getD a.par) }
        | _ => .ok { p with epsilon := some (p.epsilon.getD a.par) }
    else .error .keyError

/-- bayes_opt.py:100-106: the acquisition functions of a batch, one for each number drawn. -/
noncomputable def batchCreate (o : AcqOpt) (zs : List ℝ) : Except AcqErr (List Acq) :=
  zs.mapM (fun z => do
    let par ← sampler o.fn o.acqPar z
    boCreate o none (some par))

/-- `np.mean`. -/
noncomputable def npMean (y : List ℝ) : ℝ := y.sum / y.length

/-- `np.std`. -/
noncomputable def npStd (y : List ℝ) : ℝ := Real.sqrt (npMean (y.map (fun v => (v - npMean y) ^ 2)))

/-- base.py:437. -/
noncomputable def standardised (y : List ℝ) : List ℝ :=
  open Classical in
  if |npStd y| ≤ 1 / 10 ^ 8 then y else y.map (fun v => (v - npMean y) / npStd y)

/-- base.py:437-438 and the attributes used later. -/
noncomputable def optOf (fn : AcqName) (par : AcqPar) (minimize : Bool) (y : List ℝ) (mdl : AcqModel) : AcqOpt :=
  { fn, acqPar := par, minimize, fmin := npMin (standardised y), fmax := npMax (standardised y), mdl }

end Verif.Model
