import Verif.Spec.OnePlusOneFull
import Mathlib.LinearAlgebra.Matrix.Permutation

/-!
# Specification for C173: the same problem in other coordinates
-/
namespace Verif.Spec

open Matrix Verif.Model

variable {n : ℕ}

/-- A rigid motion of the space: a rotation or reflection `Q`, then a shift. -/
structure Rigid (n : ℕ) where
  Q : Matrix (Fin n) (Fin n) ℝ
  shift : Fin n → ℝ
  orthogonal : Qᵀ * Q = 1

/-- The point in the new coordinates. -/
def Rigid.map (F : Rigid n) (x : Fin n → ℝ) : Fin n → ℝ := F.Q *ᵥ x + F.shift

/-- The point in the old coordinates. -/
def Rigid.back (F : Rigid n) (y : Fin n → ℝ) : Fin n → ℝ := F.Qᵀ *ᵥ (y - F.shift)

/-- The same problem in the new coordinates, with the box `vars`. -/
def Rigid.problem (F : Rigid n) (vars : Fin n → RealVar) (cfg : OpoCfg n) : OpoCfg n where
  stag := cfg.stag
  par := cfg.par
  vars := vars
  objective := fun y => cfg.objective (F.back y)
  penalty := fun t y => cfg.penalty t (F.back y)

/-- The matrices in the new coordinates. -/
def Rigid.matrices (F : Rigid n) (c : CholState n) : CholState n where
  A := F.Q * c.A * F.Qᵀ
  Ainv := F.Q * c.Ainv * F.Qᵀ
  pc := F.Q *ᵥ c.pc

/-- The state of the optimiser in the new coordinates. -/
def Rigid.state (F : Rigid n) (s : OpoState n) : OpoState n :=
  { s with x := F.map s.x, xopt := F.map s.xopt, chol := F.matrices s.chol }

/-- The motion that lists the variables in another order and shifts the origin: variable `i` of the new problem is variable `order i` of the old one. -/
def reorder (order : Equiv.Perm (Fin n)) (shift : Fin n → ℝ) : Rigid n where
  Q := order.permMatrix ℝ
  shift := shift
  orthogonal := by
    rw [Matrix.transpose_permMatrix, ← Matrix.permMatrix_mul, mul_inv_cancel, Matrix.permMatrix_one]

/-- The converted box. -/
def reorderedVars (order : Equiv.Perm (Fin n)) (shift : Fin n → ℝ) (vars : Fin n → RealVar) : Fin n → RealVar :=
  fun i => { lo := (vars (order i)).lo + shift i, hi := (vars (order i)).hi + shift i }

end Verif.Spec
