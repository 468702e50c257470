import Verif.Model.Acquisition
import Verif.Model.BoxDecomposition

/-!
# Model of the analytic expected hypervolume improvement

`bayes_optim/multi_objective/analytic.py:99-274` (class `EHVI`).  Numbers are reals; the rounding to single precision by
`torch.Tensor(mean)` (lines 230-231) is left out.  The surrogate is an oracle that gives, for each row of `X`, a vector
of means and a vector of variances.
-/
namespace Verif.Model

noncomputable section

variable {m : ℕ}

/-- The two `ValueError`s of the constructor. -/
inductive EhviErr where
  | length
  | noneBetter
  deriving DecidableEq

/-- box_decomposition.py:52-61, property `pareto_Y`. -/
def paretoY (s : BinState m) : List (Fin (m + 1) → ℝ) := negRows s.negPareto

open Classical in
/-- analytic.py:148-167: the constructor.  `partRef` is the reference point of the partitioning, `refPoint` the list
given to the constructor.  The result is the buffer of cell bounds. -/
def ehviInit (partRef : Fin (m + 1) → ℝ) (s : BinState m) (refPoint : List ℝ) :
    Except EhviErr (List (Cell (m + 1) EReal)) :=
  if refPoint.length ≠ m + 1 then .error .length
  else if ¬ (∃ y ∈ paretoY s, ∀ k : Fin (m + 1), refPoint.getD k.val 0 < y k) ∧ 0 < (paretoY s).length then .error .noneBetter
  else .ok (binBounds partRef s)

/-- analytic.py:169-173, `product(*[[0, 1] for _ in range(m)])`: the first position varies slowest. -/
def crossIndices : (m : ℕ) → List (Fin m → Fin 2)
  | 0 => [Fin.elim0]
  | m + 1 => [0, 1].flatMap (fun b => (crossIndices m).map (fun r => Fin.cons b r))

/-- analytic.py:176-199 `psi`, one entry. -/
def psi (lower upper mu sigma : ℝ) : ℝ :=
  sigma * normPdf ((upper - mu) / sigma) + (mu - lower) * (1 - normCdf ((upper - mu) / sigma))

/-- analytic.py:201-221 `nu`, one entry. -/
def nu (lower upper mu sigma : ℝ) : ℝ := (upper - lower) * (1 - normCdf ((upper - mu) / sigma))

/-- analytic.py:235-237: the bound at which upper bounds are clamped; `isDouble` is `X.dtype == np.float64`. -/
def ehviCap (isDouble : Bool) : ℝ := if isDouble then 10 ^ 10 else 10 ^ 8

/-- analytic.py:232: `variance.clamp_min(1e-9).sqrt()`. -/
def ehviSigma (variance : ℝ) : ℝ := Real.sqrt (max variance (1 / 10 ^ 9))

/-- analytic.py:238-254: entry of `stacked_factors` for one cell and one objective, index 0 or 1 along the stacked
dimension.  The lower bounds are finite (proved in `Proofs/Ehvi.lean`). -/
def ehviFactor (cap : ℝ) (c : Cell m EReal) (mean variance : Fin m → ℝ) (j : Fin 2) (k : Fin m) : ℝ :=
  let lower := (c.lo k).toReal
  let upper := (min (c.hi k) (cap : EReal)).toReal
  let sigma := ehviSigma (variance k)
  let psiLu := psi lower upper (mean k) sigma
  let psiLl := psi lower lower (mean k) sigma
  if j = 0 then psiLl - psiLu else nu lower upper (mean k) sigma

/-- analytic.py:265-274: the product over the objectives, summed over the `2^m` choices, for one cell. -/
def ehviCell (cap : ℝ) (c : Cell m EReal) (mean variance : Fin m → ℝ) : ℝ :=
  ((crossIndices m).map (fun r => ∏ k, ehviFactor cap c mean variance (r k) k)).sum

/-- Broadcasting of the tensor of cells (`num_cells × m`) with the tensor of predictions (`1 × n × m`, line 230):
the axes of length `num_cells` and `n` are paired.  `none` is the error of tensors that do not fit. -/
def pairCells {α β : Type*} (cells : List α) (preds : List β) : Option (List (α × β)) :=
  if cells.length = preds.length then some (cells.zip preds)
  else match cells, preds with
    | _, [p] => some (cells.map (fun c => (c, p)))
    | [c], _ => some (preds.map (fun p => (c, p)))
    | _, _ => none

/-- analytic.py:223-274 `forward`: a single number (an array of length one), whatever the number of rows of `X`. -/
def ehviForward (isDouble : Bool) (cells : List (Cell m EReal)) (preds : List ((Fin m → ℝ) × (Fin m → ℝ))) :
    Option ℝ :=
  (pairCells cells preds).map (fun ps =>
    (ps.map (fun q => ehviCell (ehviCap isDouble) q.1 q.2.1 q.2.2)).sum)

end

end Verif.Model
