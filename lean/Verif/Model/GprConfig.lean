import Verif.Model.GprFit
import Verif.Model.Trend
import Mathlib.Analysis.SpecialFunctions.Log.Base

/-!
# Model of the settings of a Gaussian process: `bayes_optim/surrogate/gaussian_process/gpr.py` 211-277 (`__init__`), 279-310
(`_check_data`), 355-413 (`fit`, what depends on the settings), 1042-1056 (`_hyperparameter_bound`), 1057-1112 and 1183-1197
(`_optimize_hyperparameter`, the parts around the search), 1199-1248 (`_check_params`)

The data are finite numbers of the right shapes (`check_X_y` accepts them), with one target column.  A correlation given as a function,
`random_state`, `verbose` and an array as `nugget` are left out.
-/
namespace Verif.Model

noncomputable section

/-- The argument `mean`. -/
inductive TrendArg where
  | unset
  /-- A `BasisExpansionTrend` for `nFeature` features; `given` says whether its coefficients are given. -/
  | basis (kind : TrendKind) (nFeature : ℕ) (given : Bool)
  | nonparametric
  /-- anything else, for example one of the names in the documentation (lines 81-88) -/
  | other
  deriving DecidableEq

/-- The arguments of the constructor.  `none` among the bounds is a number that is not finite, `none` as a bound is None. -/
structure GpArgs where
  mean : TrendArg := .unset
  corr : String := "squared_exponential"
  theta0 : Option (List ℝ) := none
  thetaL : Option (List (Option ℝ)) := none
  thetaU : Option (List (Option ℝ)) := none
  nugget : ℝ := 1e-6
  noiseEstim : Bool := false
  optimizer : String := "BFGS"
  likelihood : String := "concentrated"

/-- The attributes set by the constructor. -/
structure GpObject where
  trend : TrendArg
  corr : String
  theta0 : Option (List ℝ)
  thetaL : List ℝ
  thetaU : List ℝ
  mode : FitMode
  optimizer : String
  likelihood : String

/-- Lines 238-242: `np.array(None)` holds an object, for which `np.isfinite` raises TypeError; infinite bounds raise ValueError. -/
def finiteBound (b : Option (List (Option ℝ))) : Option (List ℝ) :=
  b.bind fun l => if l.all Option.isSome then some (l.filterMap id) else none

/-- Lines 267-268: the default trend, with coefficient zero, for as many features as there are upper bounds. -/
def defaultTrend (t : TrendArg) (dim : ℕ) : TrendArg := if t = .unset then .basis .constant dim true else t

/-- Lines 211-277 `__init__`; `none` is an exception. -/
def gpConstruct (a : GpArgs) : Option GpObject :=
  (finiteBound a.thetaL).bind fun l => (finiteBound a.thetaU).bind fun u =>
    if a.likelihood ∈ ["concentrated", "restricted"] then
      some { trend := defaultTrend a.mean u.length
             corr := a.corr, theta0 := a.theta0, thetaL := l, thetaU := u
             mode := (fitInit a.nugget a.noiseEstim).mode
             optimizer := a.optimizer, likelihood := a.likelihood }
    else none

/-- `_correlation_types` (lines 200-207); `corr_type` keeps the name. -/
def corrLookup (s : String) : Option CorrName :=
  if s = "absolute_exponential" then some .absoluteExponential
  else if s = "squared_exponential" then some .squaredExponential
  else if s = "generalized_exponential" then some .generalizedExponential
  else if s = "cubic" then some .cubic
  else if s = "matern" then some (.matern .threeHalves)
  else none

open Classical in
/-- Lines 1199-1248 `_check_params`; `none` is ValueError.  The bounds are arrays at this point, so lines 1223-1230 are not reached. -/
def checkParams (o : GpObject) : Option CorrName :=
  (corrLookup o.corr).bind fun c =>
    if o.thetaL.length ≠ o.thetaU.length then none
    else if ∃ t ∈ o.theta0, t.length ≠ o.thetaL.length then none
    else if (∃ l ∈ o.thetaL, l ≤ 0) ∨ (∃ q ∈ o.thetaL.zip o.thetaU, q.2 < q.1) then none
    else if o.optimizer ∉ ["BFGS", "CMA"] then none
    else some c

/-- The number of rows of `mean.F(X)` and `mean(X)` for `N` samples with `n` features: `check_input` (trend.py:51-58) transposes an array
with the wrong number of columns. -/
def trendRows (nFeature N n : ℕ) : Option ℕ := if n = nFeature then some N else if N = nFeature then some n else none

/-- The trend can be used with the data: lines 294-310 of `_check_data` and 798-808 of `_compute_aux_var`, where `solve_triangular` raises
ValueError for a wrong number of rows.  A nonparametric trend has no attribute `estimate_trend` (lines 274-277, 799), any other object
no attribute `mean_type` (line 296): AttributeError. -/
def trendUsable (t : TrendArg) (N n : ℕ) : Bool :=
  match t with
  | .basis kind nf given =>
    match trendRows nf N n with
    | none => false
    | some rows => (given || decide (trendDim kind nf ≤ N)) && decide (rows = N)
  | _ => false

/-- `fit` reaches the search, and the likelihood of parameters for which the matrix can be factorised is computed without an exception:
the correlation accepts the number of parameters, and for the gradient that BFGS asks for (line 1129) it has a formula (line 771). -/
def searchRuns (o : GpObject) (N n : ℕ) : Bool :=
  match checkParams o with
  | none => false
  | some c => trendUsable o.trend N n &&
      (corr (n := n) c o.thetaL (fun _ => 0)).isSome &&
      (o.optimizer != "BFGS" || (corrGradTheta (N := N) (n := n) c o.thetaL (fun _ _ => 0) (fun _ _ => 0)).isSome)

/-- `fit` returns once the search does: line 405 takes the length of `sigma2`, which for the restricted likelihood is a number
(lines 826-833, 905), so that TypeError is raised. -/
def fitReturns (o : GpObject) (N n : ℕ) : Bool := searchRuns o N n && o.likelihood != "restricted"

/-- The constructor and a fit on `N` samples with `n` features, for a search that ends. -/
def settingsWork (a : GpArgs) (N n : ℕ) : Bool :=
  match gpConstruct a with
  | none => false
  | some o => fitReturns o N n

/-- The names in `par_list` (lines 1071-1086). -/
inductive ParName where
  | theta | sigma2 | alpha | noiseVar
  deriving DecidableEq

/-- Lines 1071-1086: `par_list` and `par_len`. -/
def parGroups (o : GpObject) : List (ParName × ℕ) :=
  [(.theta, o.thetaL.length)] ++
    (if o.likelihood = "restricted" ∨ o.mode = .noisy then [(.sigma2, 1)] else []) ++
    (if o.mode = .noiseEstim then
      (if o.likelihood = "concentrated" then [(.alpha, 1)] else if o.likelihood = "restricted" then [(.noiseVar, 1)] else [])
     else [])

/-- Lines 1042-1056 `_hyperparameter_bound` for one name; `stdY` is `self.y.std()`. -/
def groupBounds (o : GpObject) (stdY : ℝ) (name : ParName) : List (ℝ × ℝ) :=
  match name with
  | .theta => o.thetaL.zip o.thetaU
  | .sigma2 => [(1e-5, max 1e-3 (stdY ^ 2))]
  | .alpha => [(1e-10, 1 - 1e-10)]
  | .noiseVar => [(1e-10, 1 - 1e-10)]

/-- Lines 1042-1056 and 1089. -/
def hyperBounds (o : GpObject) (stdY : ℝ) : List (ℝ × ℝ) := (parGroups o).flatMap fun g => groupBounds o stdY g.1

/-- Lines 1095-1103: the first correlation parameters, on the logarithmic scale: those of an earlier fit (`theta_`), those given, or random numbers. -/
def startTheta (previous given : Option (List ℝ)) (draws : List ℝ) : List ℝ :=
  match previous with
  | some t => t.map (Real.logb 10)
  | none =>
    match given with
    | some t => t.map (Real.logb 10)
    | none => draws

/-- Lines 1089-1108: the starting point of the first search; `draws` are the random numbers drawn for the correlation parameters, `rest` those for the
others. -/
def startPoint (o : GpObject) (previous : Option (List ℝ)) (draws rest : List ℝ) : List ℝ :=
  if o.mode = .noiseless ∧ o.likelihood = "concentrated" then startTheta previous o.theta0 draws else startTheta previous o.theta0 draws ++ rest

/-- Lines 1190-1195: the optimum is cut into the groups. -/
def splitGroups : List (ParName × ℕ) → List ℝ → List (ParName × List ℝ)
  | [], _ => []
  | g :: gs, x => (g.1, x.take g.2) :: splitGroups gs (x.drop g.2)

/-- Lines 1183, 1189-1197: the hyper-parameters set after a search that returned `x`. -/
def foundParams (o : GpObject) (x : List ℝ) : List (ParName × List ℝ) := splitGroups (parGroups o) (x.map fun t => (10 : ℝ) ^ t)

end

end Verif.Model
