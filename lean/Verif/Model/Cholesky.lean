import Mathlib.Data.Matrix.Mul
import Mathlib.Data.Matrix.Basic
import Mathlib.LinearAlgebra.Matrix.NonsingularInverse
import Mathlib.Analysis.Real.Sqrt

/-!
# Model of the Cholesky covariance update
(`bayes_optim/acquisition/optim/one_plus_one_cma_es.py:421-468`, with the resets in lines 266-277 and 408-417)

Numbers are reals, without rounding errors.
-/
namespace Verif.Model
open Matrix

/-- The attributes `_A`, `_A_inv`, `pc`. -/
structure CholState (n : ℕ) where
  A : Matrix (Fin n) (Fin n) ℝ
  Ainv : Matrix (Fin n) (Fin n) ℝ
  pc : Fin n → ℝ

/-- The learning rates (lines 150-158); `coeff` is `cc * (2 - cc)`. -/
structure CholPar where
  ccov : ℝ
  cc : ℝ
  threshold : ℝ

/-- Lines 150-154, the default values in dimension `n`. -/
noncomputable def CholPar.default (n : ℕ) : CholPar :=
  ⟨2 / ((n : ℝ) ^ 2 + 6), 2 / ((n : ℝ) + 2), 0.44⟩

/-- Lines 453-457: the evolution path after the update. -/
noncomputable def pathUpdate {n : ℕ} (par : CholPar) (rate : ℝ) (pc z : Fin n → ℝ) : Fin n → ℝ :=
  if rate < par.threshold then (1 - par.cc) • pc + Real.sqrt (par.cc * (2 - par.cc)) • z else (1 - par.cc) • pc

/-- Lines 455, 458: the weight `ca` of the old matrix. -/
noncomputable def caOf (par : CholPar) (rate : ℝ) : ℝ :=
  if rate < par.threshold then 1 - par.ccov else (1 - par.ccov) + par.ccov * par.cc * (2 - par.cc)

/-- Lines 451-468 `_update_covariance`; `none` stands for matrices of NaN, the result of dividing by `L = 0`. -/
noncomputable def cholUpdate {n : ℕ} (par : CholPar) (rate : ℝ) (z : Fin n → ℝ) (s : CholState n) :
    Option (CholState n) :=
  let cb := par.ccov
  let pc := pathUpdate par rate s.pc z
  let ca := caOf par rate
  let w := s.Ainv *ᵥ pc
  let w_ := w ᵥ* s.Ainv
  let L := ∑ i, w i ^ 2
  if L = 0 then none
  else some
    { A := Real.sqrt ca • (s.A + ((Real.sqrt (1 + L * cb / ca) - 1) / L) • vecMulVec pc w),
      Ainv := (1 / Real.sqrt ca) • (s.Ainv - ((1 - 1 / Real.sqrt (1 + L * cb / ca)) / L) • vecMulVec w w_),
      pc := pc }

/-- Lines 438-439 with `C = None`, and the setter in lines 446-449. -/
def cholInit (n : ℕ) : CholState n := ⟨1, 1, 0⟩

/-- Lines 413-415 (`_handle_exception`) and 272-274 (`restart`): `_A` and `pc` are reset, `_A_inv` is not. -/
def cholReset {n : ℕ} (s : CholState n) : CholState n := { s with A := 1, pc := 0 }

/-- What happens to the matrices during a run. -/
inductive CholEvent (n : ℕ) where
  | update (rate : ℝ) (z : Fin n → ℝ)
  | reset

/-- The state after a sequence of events; `none` once NaN has appeared. -/
noncomputable def cholRun {n : ℕ} (par : CholPar) : List (CholEvent n) → CholState n → Option (CholState n)
  | [], s => some s
  | .update rate z :: l, s => (cholUpdate par rate z s).bind (cholRun par l)
  | .reset :: l, s => cholRun par l (cholReset s)

/-- Line 387: `np.triu(C) + np.triu(C, 1).T` keeps the upper triangle and mirrors it. -/
def mirror {n : ℕ} (C : Matrix (Fin n) (Fin n) ℝ) : Matrix (Fin n) (Fin n) ℝ :=
  fun i j => if i ≤ j then C i j else C j i

/-- Lines 379-387: the update of the base class, which stores the covariance matrix itself (`_C`, `pc`); the
factorisation in line 388 is not part of this function. -/
noncomputable def baseCovUpdate {n : ℕ} (par : CholPar) (rate : ℝ) (z : Fin n → ℝ)
    (s : Matrix (Fin n) (Fin n) ℝ × (Fin n → ℝ)) : Matrix (Fin n) (Fin n) ℝ × (Fin n → ℝ) :=
  let coeff := par.cc * (2 - par.cc)
  if rate < par.threshold then
    let pc := (1 - par.cc) • s.2 + Real.sqrt coeff • z
    (mirror ((1 - par.ccov) • s.1 + par.ccov • vecMulVec pc pc), pc)
  else
    let pc := (1 - par.cc) • s.2
    (mirror ((1 - par.ccov * (1 - coeff)) • s.1 + par.ccov • vecMulVec pc pc), pc)

end Verif.Model
