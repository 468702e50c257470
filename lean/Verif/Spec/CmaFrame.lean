import Verif.Model.CmaEs

/-!
# Specification for C170: the same search in other coordinates
-/
namespace Verif.Spec

open Matrix Verif.Model

variable {d l : ℕ}

/-- The same point for variables in the order `π`, measured in a unit `1 / c` times as large and from another origin. -/
def relocate (π : Equiv.Perm (Fin d)) (c : ℝ) (b : Fin d → ℝ) (x : Fin d → ℝ) : Fin d → ℝ := fun i => c * x (π i) + b i

/-- The same state of the search in the other coordinates: points and step size are converted, directions are re-ordered. -/
def relocated (π : Equiv.Perm (Fin d)) (c : ℝ) (b : Fin d → ℝ) (s : CmaEsState d) : CmaEsState d :=
  { s with
    wcm := relocate π c b s.wcm
    xopt := relocate π c b s.xopt
    sigma := c * s.sigma
    pc := fun i => s.pc (π i)
    ps := fun i => s.ps (π i)
    C := s.C.submatrix π π
    invsqrtC := s.invsqrtC.submatrix π π
    eVector := s.eVector.submatrix π π
    eValue := fun i => s.eValue (π i) }

/-- The eigenvalue routine for variables in the order `π`: it converts the matrix back, calls the original one, and re-orders the result. -/
def reordered (π : Equiv.Perm (Fin d)) (eigh : Matrix (Fin d) (Fin d) ℝ → (Fin d → ℝ) × Matrix (Fin d) (Fin d) ℝ)
    (M : Matrix (Fin d) (Fin d) ℝ) : (Fin d → ℝ) × Matrix (Fin d) (Fin d) ℝ :=
  (fun a => (eigh (M.submatrix π.symm π.symm)).1 (π a), (eigh (M.submatrix π.symm π.symm)).2.submatrix π π)

/-- The step size that a generation arrives at, before it is checked for being too small or too large. -/
noncomputable def adaptedSigma (lb ub : Fin d → ℝ) (f : (Fin d → ℝ) → ℝ) (rank : (Fin l → ℝ) → Fin l → Fin l) (z : Fin l → Fin d → ℝ)
    (s : CmaEsState d) : ℝ :=
  let x := cmaOffspring lb ub s z
  (cmaUpdate s (cmaMean x (rank fun j => f (x j))) x (rank fun j => f (x j)) (s.evalCount + l)).sigma

end Verif.Spec
