import Verif.Model.Kernels
import Mathlib.LinearAlgebra.Matrix.NonsingularInverse
import Mathlib.Data.Matrix.Mul

/-!
# Model of the wrapper of scikit-learn's Gaussian processes: `bayes_optim/surrogate/gaussian_process/__init__.py:28-230`

Numbers are reals.  A fitted `GaussianProcessRegressor` is given by its attributes; what its `predict` returns is modelled from its documentation
(mean `y_std * k(x)ᵀ alpha_ + y_mean`, variance `y_std² (k(x, x) - k(x)ᵀ (L Lᵀ)⁻¹ k(x))` with negative values set to zero), and its kernel is
`constant * (Matern or RBF) + white noise` (lines 70-89).  `L_` is a Cholesky factor, so `solve_triangular` does not raise.
-/
namespace Verif.Model

open Matrix

noncomputable section

variable {n N : ℕ}

/-- The kernels of lines 70-86 and the further branch `nu == 0.5` of line 222. -/
inductive SkKernel where
  | matern (nu : MaternNu)
  | rbf

/-- A fitted regressor: `X_train_`, `alpha_`, `L_`, `_y_train_mean`, `_y_train_std` and the parameters of `kernel_`. -/
structure SkGp (n N : ℕ) where
  kernel : SkKernel
  sigma2 : ℝ
  lengthScale : Fin n → ℝ
  noise : ℝ
  xTrain : Fin N → Fin n → ℝ
  alpha : Fin N → ℝ
  L : Matrix (Fin N) (Fin N) ℝ
  yMean : ℝ
  yStd : ℝ

/-- `cdist(X / length_scale, X_train / length_scale)` (lines 212-214), one entry. -/
def skDist (g : SkGp n N) (x y : Fin n → ℝ) : ℝ := Real.sqrt (∑ k, (x k / g.lengthScale k - y k / g.lengthScale k) ^ 2)

/-- scikit-learn's `kernel_(X, X_train_)`, one entry (the noise is added only to a matrix of a set with itself). -/
def skCov (g : SkGp n N) (x y : Fin n → ℝ) : ℝ :=
  match g.kernel with
  | .matern nu => g.sigma2 * maternValue nu (skDist g x y)
  | .rbf => g.sigma2 * Real.exp (-0.5 * skDist g x y ^ 2)

/-- `kernel_(X, X_train_)` for one point. -/
def skCovVec (g : SkGp n N) (x : Fin n → ℝ) : Fin N → ℝ := fun i => skCov g x (g.xTrain i)

/-- `GaussianProcessRegressor.predict`: the mean. -/
def skMean (g : SkGp n N) (x : Fin n → ℝ) : ℝ := g.yStd * (skCovVec g x ⬝ᵥ g.alpha) + g.yMean

/-- `GaussianProcessRegressor.predict`: the variance before negative values are set to zero, on the normalised scale. -/
def skVarRaw (g : SkGp n N) (x : Fin n → ℝ) : ℝ := g.sigma2 + g.noise - skCovVec g x ⬝ᵥ ((g.L * g.Lᵀ)⁻¹ *ᵥ skCovVec g x)

/-- Lines 148-161 `predict(X, eval_MSE=True)` for one point and one objective: the mean and the square of the standard deviation. -/
def skPredict (g : SkGp n N) (x : Fin n → ℝ) : ℝ × ℝ :=
  (skMean g x, (Real.sqrt (g.yStd ^ 2 * (if skVarRaw g x < 0 then 0 else skVarRaw g x))) ^ 2)

/-- Line 218 `safe_divide(X_ - X_train_, d * length_scale**2)`, one entry; as in `utils.py:61-63`, and as in Lean, a quotient by zero is zero. -/
def skRatio (g : SkGp n N) (x y : Fin n → ℝ) (k : Fin n) : ℝ := (x k - y k) / (skDist g x y * g.lengthScale k ^ 2)

/-- Lines 193-230 `kernel_dx`, one entry. -/
def skKernelDx (g : SkGp n N) (x y : Fin n → ℝ) (k : Fin n) : ℝ :=
  let d := skDist g x y
  match g.kernel with
  | .matern .half => -g.sigma2 * Real.exp (-d) * skRatio g x y k
  | .matern .threeHalves => -3 * g.sigma2 * Real.exp (-Real.sqrt 3 * d) * d * skRatio g x y k
  | .matern .fiveHalves => -5 / 3 * g.sigma2 * Real.exp (-Real.sqrt 5 * d) * (1 + Real.sqrt 5 * d) * d * skRatio g x y k
  | .rbf => -g.sigma2 * Real.exp (-0.5 * d ^ 2) * skRatio g x y k

/-- The matrix `k_dx` of line 183 for one point. -/
def skKernelDxMat (g : SkGp n N) (x : Fin n → ℝ) : Matrix (Fin n) (Fin N) ℝ := of fun k i => skKernelDx g x (g.xTrain i) k

/-- Lines 186-187: `L_inv = solve_triangular(L_.T, eye)` and `L_inv.dot(L_inv.T)`. -/
def skKInv (g : SkGp n N) : Matrix (Fin N) (Fin N) ℝ := g.Lᵀ⁻¹ * (g.Lᵀ⁻¹)ᵀ

/-- Lines 189-190 of `gradient`, one point and one objective, with the stored inverse: the gradients of mean and variance. -/
def skGradient (g : SkGp n N) (kInv : Matrix (Fin N) (Fin N) ℝ) (x : Fin n → ℝ) : (Fin n → ℝ) × (Fin n → ℝ) :=
  (g.yStd • (skKernelDxMat g x *ᵥ g.alpha), (-2 * g.yStd ^ 2) • ((skKernelDxMat g x * kInv) *ᵥ skCovVec g x))

/-- `np.squeeze`, on shapes. -/
def npSqueeze (shape : List ℕ) : List ℕ := shape.filter (fun a => decide (a ≠ 1))

/-- Whether NumPy broadcasts an array of the first shape to the second one (both from the last axis on). -/
def npBroadcasts : List ℕ → List ℕ → Bool
  | [], _ => true
  | _ :: _, [] => false
  | a :: s, b :: t => (a == 1 || a == b) && npBroadcasts s t

/-- Line 190 `var_dx[i, ...] = ... np.squeeze(...)` for `m` points and `dim` variables: the assignment succeeds. -/
def skAssignOk (m dim : ℕ) : Bool := npBroadcasts (npSqueeze [m, dim, 1]).reverse [m, dim].reverse

/-- A regressor in the list `_gprs`, with the attribute `_K_inv` that line 142 sets to `None`. -/
structure SkObj (n : ℕ) where
  {N : ℕ}
  gp : SkGp n N
  kInv : Option (Matrix (Fin N) (Fin N) ℝ)

/-- The regressor that `sk_gpr.fit` returns. -/
structure SkTrained (n : ℕ) where
  {N : ℕ}
  gp : SkGp n N

/-- The attributes of the wrapper that its methods change: `_gprs` (missing before the first call of `fit`) and `is_fitted`. -/
structure SkWrapper (n : ℕ) where
  nObj : ℕ
  gprs : Option (List (SkObj n))
  isFitted : Bool

/-- Lines 31-62, the state after construction. -/
def skInit (n nObj : ℕ) : SkWrapper n := ⟨nObj, none, false⟩

/-- The second argument of `fit`: a vector or a matrix with `q` columns. -/
inductive SkTargets where
  | vector (y : List ℝ)
  | table (q : ℕ) (y : List (List ℝ))

/-- `y if y.ndim == 1 else y[:, i]` (line 141). -/
def SkTargets.column : SkTargets → ℕ → List ℝ
  | .vector y, _ => y
  | .table _ y, i => y.map fun r => r.getD i 0

/-- Lines 91-108 `_check_dims`, for an `X` with `width` columns: the check passes. -/
def skCheckDims (n : ℕ) (s : SkWrapper n) (width : ℕ) (y : SkTargets) : Bool :=
  if n ≠ width then false
  else match y with
    | .vector _ => !decide (s.nObj ≠ 1)
    | .table q _ => !decide (s.nObj ≠ q)

/-- Lines 70-89: the kernels that `_set_kernels` stores. -/
def skKernels : List SkKernel := [.matern .threeHalves, .matern .fiveHalves, .rbf]

/-- Lines 129-143: the loop of `fit`.  `train` is the constructor and the method `fit` of scikit-learn's regressor, which may raise. -/
def skFitLoop (train : SkKernel → List (List ℝ) → List ℝ → Option (SkTrained n)) (X : List (List ℝ)) (y : SkTargets) :
    List ℕ → List (SkObj n) → List (SkObj n) × Bool
  | [], acc => (acc, true)
  | i :: rest, acc =>
    match train (skKernels.getD 0 .rbf) X (y.column i) with
    | none => (acc, false)
    | some t => skFitLoop train X y rest (acc ++ [⟨t.gp, none⟩])

/-- Lines 110-146 `fit`: the new state and whether the call returned. -/
def skFit (train : SkKernel → List (List ℝ) → List ℝ → Option (SkTrained n)) (s : SkWrapper n) (width : ℕ) (X : List (List ℝ))
    (y : SkTargets) : SkWrapper n × Bool :=
  if skCheckDims n s width y then
    let r := skFitLoop train X y (List.range s.nObj) []
    (⟨s.nObj, some r.1, if r.2 then true else s.isFitted⟩, r.2)
  else (s, false)

/-- Lines 148-161 `predict(X, eval_MSE=True)` at one row of `X`: the arrays start as zeros, and column `i` is assigned from the `i`-th regressor. -/
def skPredictAt (s : SkWrapper n) (x : Fin n → ℝ) : Option (ℕ → ℝ × ℝ) :=
  s.gprs.map fun gs i => (gs[i]?.map fun o => skPredict o.gp x).getD (0, 0)

/-- Lines 185-187: the inverse is computed once and stored. -/
def SkObj.cache (o : SkObj n) : SkObj n :=
  match o.kInv with
  | none => ⟨o.gp, some (skKInv o.gp)⟩
  | some _ => o

/-- Lines 180-190 for one regressor. -/
def SkObj.grad (o : SkObj n) (x : Fin n → ℝ) : (Fin n → ℝ) × (Fin n → ℝ) := skGradient o.gp (o.kInv.getD 0) x

/-- Lines 180-190: the loop of `gradient`; the entries are indexed by objective and by row. -/
def skGradientLoop (X : List (Fin n → ℝ)) : List (SkObj n) → List (SkObj n) × Option (List (List ((Fin n → ℝ) × (Fin n → ℝ))))
  | [] => ([], some [])
  | o :: rest =>
    if skAssignOk X.length n then
      let r := skGradientLoop X rest
      (o.cache :: r.1, r.2.map fun l => (X.map o.cache.grad) :: l)
    else (o.cache :: rest, none)

/-- Lines 163-191 `gradient`: the new state and the arrays, which start as zeros. -/
def skGradientCall (s : SkWrapper n) (X : List (Fin n → ℝ)) :
    SkWrapper n × Option (ℕ → ℕ → (Fin n → ℝ) × (Fin n → ℝ)) :=
  match s.gprs with
  | none => (s, none)
  | some gs =>
    let r := skGradientLoop X gs
    (⟨s.nObj, some r.1, s.isFitted⟩, r.2.map fun l i j => (l.getD i []).getD j (0, 0))

/-- The calls that change the state. -/
inductive SkCall (n : ℕ) where
  | fit (width : ℕ) (X : List (List ℝ)) (y : SkTargets)
  | gradient (X : List (Fin n → ℝ))

/-- One call. -/
def skStep (train : SkKernel → List (List ℝ) → List ℝ → Option (SkTrained n)) (s : SkWrapper n) : SkCall n → SkWrapper n
  | .fit width X y => (skFit train s width X y).1
  | .gradient X => (skGradientCall s X).1

/-- A history of calls. -/
def skRun (train : SkKernel → List (List ℝ) → List ℝ → Option (SkTrained n)) (s : SkWrapper n) (calls : List (SkCall n)) : SkWrapper n :=
  calls.foldl (skStep train) s

end

end Verif.Model
