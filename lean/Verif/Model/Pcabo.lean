import Mathlib.Analysis.SpecialFunctions.Log.Basic
import Mathlib.Analysis.SpecialFunctions.Sqrt
import Mathlib.Algebra.BigOperators.Fin

/-!
# Model of PCA-BO: `bayes_optim/extension.py:21-59` (`LinearTransform`), `62-86` (`penalized_acquisition`) and
`113-152` (`PCABO`)

Points have `d` coordinates, the reduced space has `r`.  The singular value decomposition inside sklearn's `PCA.fit` is
an oracle that gives the matrix `components_`; the theorems assume that its rows are orthonormal.  sklearn's `transform`
is `(X - mean_) @ components_.T` and its `inverse_transform` is `X @ components_ + mean_` (no whitening).
-/
namespace Verif.Model

noncomputable section

variable {d r : ℕ}

/-- The attributes of a fitted `LinearTransform`. -/
structure PcaMap (r d : ℕ) where
  components : Fin r → Fin d → ℝ
  mean : Fin d → ℝ
  center : Fin d → ℝ

/-- Mean of the rows, one column (`X.mean(axis=0)`). -/
def rowMean (xs : List (Fin d → ℝ)) (k : Fin d) : ℝ := (xs.map (fun x => x k)).sum / xs.length

/-- `scipy.stats.rankdata`, method "average". -/
def avgRank (ys : List ℝ) (y : ℝ) : ℝ :=
  ((ys.filter (fun z => z < y)).length : ℝ) + (((ys.filter (fun z => z = y)).length : ℝ) + 1) / 2

/-- extension.py:42: `y_`. -/
def signedValues (minimize : Bool) (ys : List ℝ) : List ℝ := if minimize then ys else ys.map (fun y => -1 * y)

/-- extension.py:43-45: `np.log(N) - np.log(r)`, before the division by the sum. -/
def rawWeights (minimize : Bool) (ys : List ℝ) : List ℝ :=
  (signedValues minimize ys).map (fun y => Real.log ys.length - Real.log (avgRank (signedValues minimize ys) y))

/-- extension.py:42-46: the weights `w`. -/
def fitWeights (minimize : Bool) (ys : List ℝ) : List ℝ :=
  (rawWeights minimize ys).map (fun w => w / (rawWeights minimize ys).sum)

/-- extension.py:40-47: `X_scaled`. -/
def scaledRows (minimize : Bool) (xs : List (Fin d → ℝ)) (ys : List ℝ) : List (Fin d → ℝ) :=
  List.zipWith (fun x w => fun k => (x k - rowMean xs k) * w) xs (fitWeights minimize ys)

/-- extension.py:26-48 `LinearTransform.fit`; `svd` gives the components of the scaled data. -/
def pcaFit (svd : List (Fin d → ℝ) → Fin r → Fin d → ℝ) (minimize : Bool) (xs : List (Fin d → ℝ)) (ys : List ℝ) :
    PcaMap r d :=
  let scaled := scaledRows minimize xs ys
  ⟨svd scaled, rowMean scaled, rowMean xs⟩

/-- extension.py:50-51 `transform`, one row. -/
def pcaTransform (p : PcaMap r d) (x : Fin d → ℝ) : Fin r → ℝ :=
  fun j => ∑ k, (x k - p.center k - p.mean k) * p.components j k

/-- extension.py:57-59 `inverse_transform` of a fitted map, one row. -/
def pcaInverse (p : PcaMap r d) (z : Fin r → ℝ) : Fin d → ℝ :=
  fun k => ∑ j, z j * p.components j k + p.mean k + p.center k

/-- extension.py:113-119 `_compute_bounds`: the lower and upper bound of reduced coordinate `j`. -/
def pcaBounds (p : PcaMap r d) (lo hi : Fin d → ℝ) (j : Fin r) : ℝ × ℝ :=
  let c : Fin d → ℝ := fun k => (lo k + hi k) / 2
  let radius := Real.sqrt (∑ k, (lo k - c k) ^ 2)
  let c' := ∑ k, (c k - p.mean k - p.center k) * p.components j k
  (c' - radius, c' + radius)

/-- extension.py:66-71: the penalty of a point of the original space. -/
def boxPenalty (lo hi : Fin d → ℝ) (x : Fin d → ℝ) : ℝ :=
  -1 * ((∑ k, if x k < lo k then lo k - x k else 0) + ∑ k, if hi k < x k then x k - hi k else 0)

open Classical in
/-- extension.py:62-86 `penalized_acquisition` without gradient. -/
def penalizedAcq (p : PcaMap r d) (lo hi : Fin d → ℝ) (acq : (Fin r → ℝ) → ℝ) (z : Fin r → ℝ) : ℝ :=
  if boxPenalty lo hi (pcaInverse p z) = 0 then acq z else boxPenalty lo hi (pcaInverse p z)

/-- extension.py:77-81: the gradient of the penalty in the original space (`g_`). -/
def boxPenaltyGrad (lo hi : Fin d → ℝ) (x : Fin d → ℝ) (k : Fin d) : ℝ :=
  if hi k < x k then -1 else if x k < lo k then 1 else 0

/-- extension.py:77-83: the gradient returned outside the original domain, coordinate `j`. -/
def penaltyDx (p : PcaMap r d) (lo hi : Fin d → ℝ) (z : Fin r → ℝ) (j : Fin r) : ℝ :=
  ∑ k, p.components j k * boxPenaltyGrad lo hi (pcaInverse p z) k

/-- extension.py:150-151 `ask` before the first `tell`, when `components_` does not exist (lines 57-58): the points of the
parent class. -/
def pcaAskFirst (zs : List (Fin d → ℝ)) : List (Fin d → ℝ) := zs

/-- extension.py:150-151 `ask` with a fitted map; `zs` are the points of the reduced space returned by the parent class. -/
def pcaAsk (p : PcaMap r d) (zs : List (Fin r → ℝ)) : List (Fin d → ℝ) := zs.map (pcaInverse p)

end

end Verif.Model
