import Verif.Model.Cholesky

/-! # Specification for C33 -/
namespace Verif.Spec
open Matrix Verif.Model

/-- `Ainv` is the inverse of `A`. -/
def Inverses {n : ℕ} (s : CholState n) : Prop := s.A * s.Ainv = 1 ∧ s.Ainv * s.A = 1

/-- The covariance matrix represented by a factor. -/
def covariance {n : ℕ} (s : CholState n) : Matrix (Fin n) (Fin n) ℝ := s.A * s.Aᵀ

/-- Admissible learning rates. -/
def RatesOk (par : CholPar) : Prop := 0 < par.ccov ∧ par.ccov < 1 ∧ 0 ≤ par.cc ∧ par.cc ≤ 2

/-- The update of covariance and path prescribed by the (1+1)-CMA-ES: the path is a decaying sum of steps, which stalls while the
success rate is at least the threshold, and the covariance is averaged with the outer product of the path. -/
noncomputable def covStep {n : ℕ} (par : CholPar) (C : Matrix (Fin n) (Fin n) ℝ) (pc : Fin n → ℝ)
    (e : ℝ × (Fin n → ℝ)) : Matrix (Fin n) (Fin n) ℝ × (Fin n → ℝ) :=
  if e.1 < par.threshold then
    let p := (1 - par.cc) • pc + Real.sqrt (par.cc * (2 - par.cc)) • e.2
    ((1 - par.ccov) • C + par.ccov • vecMulVec p p, p)
  else
    let p := (1 - par.cc) • pc
    ((1 - par.ccov) • C + par.ccov • (vecMulVec p p + (par.cc * (2 - par.cc)) • C), p)

end Verif.Spec
