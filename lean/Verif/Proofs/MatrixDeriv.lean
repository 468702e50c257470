import Mathlib.LinearAlgebra.Matrix.NonsingularInverse
import Mathlib.Analysis.Calculus.Deriv.Mul
import Mathlib.Analysis.Calculus.Deriv.Inv
import Mathlib.Analysis.Calculus.Deriv.Add
import Mathlib.Analysis.SpecialFunctions.Log.Deriv

/-!
# Derivatives of determinants and inverses
-/
namespace Verif.Proofs

open Matrix

variable {N : ℕ}

/-- Jacobi's formula. -/
theorem hasDerivAt_det {A : ℝ → Matrix (Fin N) (Fin N) ℝ} {A' : Matrix (Fin N) (Fin N) ℝ} {t : ℝ}
    (h : ∀ i j, HasDerivAt (fun s => A s i j) (A' i j) t) :
    HasDerivAt (fun s => (A s).det) ((adjugate (A t) * A').trace) t := by
  have h1 : ∀ σ ∈ (Finset.univ : Finset (Equiv.Perm (Fin N))), HasDerivAt (fun s => ((Equiv.Perm.sign σ : ℤ) : ℝ) * ∏ i, A s (σ i) i)
      (((Equiv.Perm.sign σ : ℤ) : ℝ) * ∑ i, (∏ j ∈ Finset.univ.erase i, A t (σ j) j) * A' (σ i) i) t := by
    intro σ _
    have := HasDerivAt.fun_finsetProd (u := Finset.univ) (f := fun i s => A s (σ i) i) (f' := fun i => A' (σ i) i) (x := t)
      (fun i _ => h (σ i) i)
    simpa using this.const_mul (((Equiv.Perm.sign σ : ℤ) : ℝ))
  have h2 := HasDerivAt.fun_sum h1
  have e : ∀ B : Matrix (Fin N) (Fin N) ℝ, B.det = ∑ σ : Equiv.Perm (Fin N), ((Equiv.Perm.sign σ : ℤ) : ℝ) * ∏ i, B (σ i) i := fun B => det_apply' B
  simp only [e]
  refine h2.congr_deriv ?_
  have h3 : (adjugate (A t) * A').trace = ∑ i, ((A t).updateCol i (fun j => A' j i)).det := by
    simp only [trace, diag_apply]
    refine Finset.sum_congr rfl fun i _ => ?_
    rw [← cramer_apply, cramer_eq_adjugate_mulVec]
    rfl
  rw [h3]
  simp only [e, Finset.mul_sum]
  rw [Finset.sum_comm]
  refine Finset.sum_congr rfl fun i _ => Finset.sum_congr rfl fun σ _ => ?_
  rw [← Finset.mul_prod_erase _ _ (Finset.mem_univ i)]
  have h4 : ∏ j ∈ Finset.univ.erase i, ((A t).updateCol i fun j => A' j i) (σ j) j = ∏ j ∈ Finset.univ.erase i, A t (σ j) j := by
    refine Finset.prod_congr rfl fun j hj => ?_
    rw [updateCol_ne (Finset.ne_of_mem_erase hj)]
  rw [h4, updateCol_self]
  ring

theorem hasDerivAt_log_det {A : ℝ → Matrix (Fin N) (Fin N) ℝ} {A' : Matrix (Fin N) (Fin N) ℝ} {t : ℝ}
    (h : ∀ i j, HasDerivAt (fun s => A s i j) (A' i j) t) (hpos : (A t).det ≠ 0) :
    HasDerivAt (fun s => Real.log (A s).det) (((A t)⁻¹ * A').trace) t := by
  refine ((hasDerivAt_det h).log hpos).congr_deriv ?_
  rw [inv_def, Matrix.smul_mul, trace_smul, Ring.inverse_eq_inv', smul_eq_mul, div_eq_inv_mul]

theorem differentiableAt_mul {m k l : ℕ} {A : ℝ → Matrix (Fin m) (Fin k) ℝ} {B : ℝ → Matrix (Fin k) (Fin l) ℝ} {t : ℝ}
    (hA : ∀ i j, DifferentiableAt ℝ (fun s => A s i j) t) (hB : ∀ i j, DifferentiableAt ℝ (fun s => B s i j) t) (i : Fin m) (j : Fin l) :
    DifferentiableAt ℝ (fun s => (A s * B s) i j) t := by
  simp only [mul_apply]
  exact DifferentiableAt.fun_sum fun p _ => (hA i p).mul (hB p j)

theorem differentiableAt_det {A : ℝ → Matrix (Fin N) (Fin N) ℝ} {t : ℝ} (h : ∀ i j, DifferentiableAt ℝ (fun s => A s i j) t) :
    DifferentiableAt ℝ (fun s => (A s).det) t :=
  (hasDerivAt_det (A' := of fun i j => deriv (fun s => A s i j) t) fun i j => (h i j).hasDerivAt).differentiableAt

theorem differentiableAt_inv {A : ℝ → Matrix (Fin N) (Fin N) ℝ} {t : ℝ} (h : ∀ i j, DifferentiableAt ℝ (fun s => A s i j) t)
    (hpos : (A t).det ≠ 0) (i j : Fin N) : DifferentiableAt ℝ (fun s => (A s)⁻¹ i j) t := by
  have hadj : DifferentiableAt ℝ (fun s => adjugate (A s) i j) t := by
    simp only [adjugate_apply]
    refine differentiableAt_det fun a b => ?_
    by_cases hab : a = j
    · subst hab
      simp only [updateRow_self]
      exact differentiableAt_const _
    · simp only [updateRow_ne hab]
      exact h a b
  have e : (fun s => (A s)⁻¹ i j) = fun s => (A s).det⁻¹ * adjugate (A s) i j := by
    funext s
    rw [inv_def, Ring.inverse_eq_inv']; rfl
  rw [e]
  exact ((differentiableAt_det h).inv hpos).mul hadj

theorem hasDerivAt_inv {A : ℝ → Matrix (Fin N) (Fin N) ℝ} {A' : Matrix (Fin N) (Fin N) ℝ} {t : ℝ}
    (h : ∀ i j, HasDerivAt (fun s => A s i j) (A' i j) t) (hpos : (A t).det ≠ 0) (i j : Fin N) :
    HasDerivAt (fun s => (A s)⁻¹ i j) ((-((A t)⁻¹ * A' * (A t)⁻¹)) i j) t := by
  have hd := differentiableAt_inv (fun i j => (h i j).differentiableAt) hpos
  let B' : Matrix (Fin N) (Fin N) ℝ := of fun i j => deriv (fun s => (A s)⁻¹ i j) t
  have hB : ∀ i j, HasDerivAt (fun s => (A s)⁻¹ i j) (B' i j) t := fun i j => (hd i j).hasDerivAt
  -- differentiate A A⁻¹ = 1
  have hprod : A' * (A t)⁻¹ + A t * B' = 0 := by
    ext a b
    have h1 : HasDerivAt (fun s => (A s * (A s)⁻¹) a b) ((A' * (A t)⁻¹ + A t * B') a b) t := by
      have := HasDerivAt.fun_sum (u := Finset.univ) fun p _ => (h a p).mul (hB p b)
      simp only [Finset.sum_add_distrib] at this
      exact this
    have h2 : (fun s => (A s * (A s)⁻¹) a b) =ᶠ[nhds t] fun _ => (1 : Matrix (Fin N) (Fin N) ℝ) a b := by
      have hc := (hasDerivAt_det h).continuousAt
      filter_upwards [hc.eventually_ne hpos] with s hs
      rw [mul_nonsing_inv _ hs.isUnit]
    have h3 : HasDerivAt (fun s => (A s * (A s)⁻¹) a b) 0 t := (hasDerivAt_const t _).congr_of_eventuallyEq h2
    exact h1.unique h3
  have e : B' = -((A t)⁻¹ * A' * (A t)⁻¹) := by
    have := congrArg (fun M => (A t)⁻¹ * M) hprod
    simp only [Matrix.mul_add, Matrix.mul_zero, ← Matrix.mul_assoc, nonsing_inv_mul _ hpos.isUnit, Matrix.one_mul] at this
    exact eq_neg_of_add_eq_zero_right this
  rw [← e]
  exact hB i j

end Verif.Proofs
