import Verif.Model.PriorCov
import Verif.Props.Kernels

/-!
# C134: the prior covariance
-/
namespace Verif.Props

open Verif.Model Verif.Spec Verif.Proofs

variable {n N : ℕ}

private theorem pool_single {s r : ℝ} (hs : 0 ≤ s) (hr : 0 ≤ r) : poolTargets [s] r = s * r := by
  simp only [poolTargets, List.map_cons, List.map_nil, List.sum_cons, List.sum_nil, List.length_cons, List.length_nil]
  rw [show ((s * r) ^ 2 + 0) / ((0 + 1 : ℕ) : ℝ) = (s * r) ^ 2 by norm_num, Real.sqrt_sq (mul_nonneg hs hr)]

/-- **C134, the part that holds.**  With one target, for points given as lists: entry `[i, j]` is the process variance times the correlation of the points `X1[i]` and
`X2[j]`, or that correlation itself when asked for, for every offered correlation. -/
theorem c134_entries_partial (name : CorrName) (theta : List ℝ) (hp : ∀ t ∈ theta, 0 < t) (c : (Fin n → ℝ) → ℝ)
    (h : ∀ d, corr name theta d = some (c d)) (s : ℝ) (hs : 0 ≤ s) (X1 X2 : List (Fin n → ℝ)) (h2 : X2 ≠ []) :
    priorCov c [s] X1 (.points X2) false = some (X1.map fun x => X2.map fun z => s * c (absDiff x z)) ∧
    priorCov c [s] X1 (.points X2) true = some (X1.map fun x => X2.map fun z => c (absDiff x z)) := by
  obtain ⟨-, hb, -⟩ := c89_correlation_function (n := n) name theta hp
  have hpool : ∀ d, poolTargets [s] (c d) = s * c d := fun d => pool_single hs (hb d _ (h d)).1
  refine ⟨?_, ?_⟩
  · simp [priorCov, secondPoints, h2, priorCorr, List.map_map, Function.comp_def, hpool]
  · simp [priorCov, secondPoints, h2, priorCorr]

/-- **C134, the matrix is a covariance matrix.**  With one target and a single set of points: the matrix is the process variance times a correlation matrix (symmetric,
with ones on the diagonal, no negative variances), for the Matérn and the exponential correlations. -/
theorem c134_covariance (name : CorrName) (theta : List ℝ) (hp : ∀ t ∈ theta, 0 < t) (hc : name ≠ .cubic)
    (hg : name = .generalizedExponential → theta.getD n 0 ≤ 2) (c : (Fin n → ℝ) → ℝ) (h : ∀ d, corr name theta d = some (c d)) (s : ℝ) (hs : 0 ≤ s)
    (X : Fin N → Fin n → ℝ) :
    ∃ R : Fin N → Fin N → ℝ, IsCorrelationMatrix R ∧ priorCov c [s] (List.ofFn X) .unset false = some (List.ofFn fun i => List.ofFn fun j => s * R i j) := by
  obtain ⟨hz, hb, -⟩ := c89_correlation_function (n := n) name theta hp
  have hpool : ∀ d, poolTargets [s] (c d) = s * c d := fun d => pool_single hs (hb d _ (h d)).1
  refine ⟨correlationMatrix c X, c90_matrix_valid name theta hp hc hg c h X, ?_⟩
  have e : ∀ i j, correlationMatrix c X i j = c (absDiff (X i) (X j)) := by
    intro i j
    rw [correlationMatrix_apply]
    split_ifs with hij
    · subst hij
      have h0 : absDiff (X i) (X i) = 0 := by funext k; simp [absDiff]
      rw [h0]; exact (hz _ (h 0)).symm
    all_goals
      first
      | rfl
      | (congr 1; funext k; simp [absDiff, abs_sub_comm])
  simp only [priorCov, secondPoints, Option.map_some, priorCorr, List.map_ofFn, Bool.false_eq_true, if_false, e, Function.comp_def, hpool]

/-- **C134, refuted**: a second set of points given as an array with more than one number raises, whatever the points. -/
theorem c134_array_refuted (c : (Fin n → ℝ) → ℝ) (sigma2 : List ℝ) (X1 X2 : List (Fin n → ℝ)) (b : Bool) (h : 1 < X2.length * n) :
    priorCov c sigma2 X1 (.array X2) b = none := by
  simp only [priorCov, secondPoints]
  rw [if_neg (by omega), if_neg (by omega)]
  rfl

/-- **C134, refuted**: a single second point given as an array is replaced by the first set of points when its only coordinate is zero. -/
theorem c134_zero_refuted (c : (Fin 1 → ℝ) → ℝ) (sigma2 : List ℝ) (X1 : List (Fin 1 → ℝ)) (b : Bool) :
    priorCov c sigma2 X1 (.array [fun _ => 0]) b = priorCov c sigma2 X1 .unset b := by
  simp [priorCov, secondPoints]

/-- **C134, refuted for several targets**: with variances 1 and 2, the returned variance of a point belongs to neither target, nor is it their mean. -/
theorem c134_targets_refuted (c : (Fin n → ℝ) → ℝ) (h0 : c 0 = 1) (x : Fin n → ℝ) :
    ∃ v, priorCov c [1, 2] [x] .unset false = some [[v]] ∧ v ≠ 1 ∧ v ≠ 2 ∧ v ≠ 3 / 2 := by
  have hx : absDiff x x = 0 := by funext k; simp [absDiff]
  refine ⟨Real.sqrt (5 / 2), ?_, ?_, ?_, ?_⟩
  · simp only [priorCov, secondPoints, Option.map_some, priorCorr, List.map_cons, List.map_nil, hx, h0, poolTargets]
    norm_num
  all_goals
    intro e
    have := Real.sq_sqrt (show (0 : ℝ) ≤ 5 / 2 by norm_num)
    rw [e] at this
    norm_num at this

/-- Non-vacuity. -/
example : ∃ c : (Fin 2 → ℝ) → ℝ, (∀ d, corr .squaredExponential [1, 2] d = some (c d)) ∧ c 0 = 1 := by
  refine ⟨fun d => (corr .squaredExponential [1, 2] d).getD 0, fun d => ?_, ?_⟩
  · simp [corr, weightedSum]
  · simp [corr, weightedSum]

end Verif.Props
