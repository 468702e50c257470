import Verif.Proofs.Likelihood
import Verif.Proofs.MatrixDeriv
import Mathlib.Analysis.Calculus.LocalExtr.Basic

/-!
# Derivatives of the likelihoods
-/
namespace Verif.Proofs

open Matrix Verif.Model Verif.Spec

variable {N k : ℕ} {chol : Matrix (Fin N) (Fin N) ℝ → Option (Matrix (Fin N) (Fin N) ℝ)}
  {qr : Matrix (Fin N) (Fin k) ℝ → Matrix (Fin N) (Fin k) ℝ × Matrix (Fin k) (Fin k) ℝ}

theorem chol_symm {R L : Matrix (Fin N) (Fin N) ℝ} (h : IsCholesky R L) : Rᵀ = R := by
  rw [← h.mul, transpose_mul, transpose_transpose]

theorem inv_symm {R L : Matrix (Fin N) (Fin N) ℝ} (h : IsCholesky R L) : (R⁻¹)ᵀ = R⁻¹ := by
  rw [transpose_nonsing_inv, chol_symm h]

theorem chol_solve {R L : Matrix (Fin N) (Fin N) ℝ} (h : IsCholesky R L) (z : Fin N → ℝ) : Lᵀ⁻¹ *ᵥ (L⁻¹ *ᵥ z) = R⁻¹ *ᵥ z := by
  rw [← h.mul, Matrix.mul_inv_rev, mulVec_mulVec]

/-- With estimated coefficients: the residual sum of squares through the matrix alone. -/
theorem sumSquares_none (hc : CholeskyRoutine chol) (hq : QrRoutine qr) {R : Matrix (Fin N) (Fin N) ℝ} {F : Matrix (Fin N) (Fin k) ℝ}
    (hF : FullRank F) {y : Fin N → ℝ} {a : GpAux N k} (ha : computeAux chol qr R F none y = some a) :
    sumSquares a.rho = y ⬝ᵥ (R⁻¹ *ᵥ y) - (Fᵀ *ᵥ (R⁻¹ *ᵥ y)) ⬝ᵥ ((Fᵀ * (R⁻¹ * F))⁻¹ *ᵥ (Fᵀ *ᵥ (R⁻¹ *ᵥ y))) ∧
      (Fᵀ * (R⁻¹ * F)).det ≠ 0 := by
  unfold computeAux at ha
  obtain ⟨L, hL, rfl⟩ := Option.map_eq_some_iff.1 ha
  have h := hc _ _ hL
  have hQ := hq (L⁻¹ * F)
  have hG := qr_unit (chol_det h) hQ hF
  set Q := (qr (L⁻¹ * F)).1
  set G := (qr (L⁻¹ * F)).2
  have hG' : IsUnit (Gᵀ).det := by rwa [det_transpose]
  have hM : Fᵀ * (R⁻¹ * F) = Gᵀ * G := by
    have : (L⁻¹ * F)ᵀ * (L⁻¹ * F) = Fᵀ * (R⁻¹ * F) := by
      rw [← h.mul, Matrix.mul_inv_rev, transpose_mul, transpose_nonsing_inv, Matrix.mul_assoc, Matrix.mul_assoc]
    rw [← this, ← hQ.mul, transpose_mul, Matrix.mul_assoc, ← Matrix.mul_assoc Qᵀ, hQ.orth, Matrix.one_mul]
  have hb : Fᵀ *ᵥ (R⁻¹ *ᵥ y) = Gᵀ *ᵥ (Qᵀ *ᵥ (L⁻¹ *ᵥ y)) := by
    rw [← chol_solve h, mulVec_mulVec, ← transpose_nonsing_inv, ← transpose_mul, ← hQ.mul, transpose_mul, ← mulVec_mulVec]
  refine ⟨?_, ?_⟩
  · rw [hM, hb, inv_quadratic h, Matrix.mul_inv_rev, ← mulVec_mulVec, mulVec_mulVec _ Gᵀ⁻¹, nonsing_inv_mul _ hG', one_mulVec,
      transpose_dot, mulVec_mulVec _ G, mul_nonsing_inv _ hG, one_mulVec]
    show sumSquares (L⁻¹ *ᵥ y - (Q * Qᵀ) *ᵥ (L⁻¹ *ᵥ y)) = _
    generalize L⁻¹ *ᵥ y = z
    have eQ : (Q * Qᵀ) *ᵥ z = Q *ᵥ (Qᵀ *ᵥ z) := (mulVec_mulVec _ _ _).symm
    have e1 : z ⬝ᵥ (Q *ᵥ (Qᵀ *ᵥ z)) = (Qᵀ *ᵥ z) ⬝ᵥ (Qᵀ *ᵥ z) := by rw [transpose_dot]
    unfold sumSquares
    rw [sum_sq_eq, sum_sq_eq, eQ, sub_dotProduct, dotProduct_sub, dotProduct_sub, dotProduct_comm (Q *ᵥ (Qᵀ *ᵥ z)) z, e1,
      orth_dot hQ.orth]
    ring
  · rw [hM, det_mul]
    exact mul_ne_zero hG'.ne_zero hG.ne_zero

theorem gamma_eq (hc : CholeskyRoutine chol) (hq : QrRoutine qr) {R : Matrix (Fin N) (Fin N) ℝ} {F : Matrix (Fin N) (Fin k) ℝ}
    {beta : Option (Fin k → ℝ)} (hF : beta = none → FullRank F) {y : Fin N → ℝ} {a : GpAux N k}
    (ha : computeAux chol qr R F beta y = some a) : gpGamma a = R⁻¹ *ᵥ (y - F *ᵥ gpBeta a beta) := by
  obtain ⟨h, -, -, hrho⟩ := aux_spec hc hq hF ha
  unfold gpGamma
  rw [← hrho, chol_solve h]

theorem choInverse_eq {R L : Matrix (Fin N) (Fin N) ℝ} (h : IsCholesky R L) : choInverse L = R⁻¹ := by
  unfold choInverse
  rw [h.mul]

/-- A quadratic form in the inverse along a path. -/
theorem hasDerivAt_inv_quadratic {A : ℝ → Matrix (Fin N) (Fin N) ℝ} {A' : Matrix (Fin N) (Fin N) ℝ} {t : ℝ}
    (h : ∀ i j, HasDerivAt (fun s => A s i j) (A' i j) t) (hpos : (A t).det ≠ 0) (hs : ((A t)⁻¹)ᵀ = (A t)⁻¹) (z : Fin N → ℝ) :
    HasDerivAt (fun s => z ⬝ᵥ ((A s)⁻¹ *ᵥ z)) (-(((A t)⁻¹ *ᵥ z) ⬝ᵥ (A' *ᵥ ((A t)⁻¹ *ᵥ z)))) t := by
  have h1 := hasDerivAt_inv h hpos
  have h2 : HasDerivAt (fun s => ∑ i, z i * ∑ j, (A s)⁻¹ i j * z j) (∑ i, z i * ∑ j, (-((A t)⁻¹ * A' * (A t)⁻¹)) i j * z j) t :=
    HasDerivAt.fun_sum fun i _ => (HasDerivAt.fun_sum fun j _ => (h1 i j).mul_const (z j)).const_mul (z i)
  have e : ∑ i, z i * ∑ j, (-((A t)⁻¹ * A' * (A t)⁻¹)) i j * z j = -(((A t)⁻¹ *ᵥ z) ⬝ᵥ (A' *ᵥ ((A t)⁻¹ *ᵥ z))) := by
    show z ⬝ᵥ ((-((A t)⁻¹ * A' * (A t)⁻¹)) *ᵥ z) = _
    rw [neg_mulVec, dotProduct_neg, Matrix.mul_assoc, ← mulVec_mulVec, ← mulVec_mulVec, ← transpose_dot, hs]
  rw [← e]
  exact h2

theorem differentiableAt_quadratic {m : ℕ} {B : ℝ → Matrix (Fin m) (Fin m) ℝ} {u v : ℝ → Fin m → ℝ} {t : ℝ}
    (hB : ∀ i j, DifferentiableAt ℝ (fun s => B s i j) t) (hu : ∀ i, DifferentiableAt ℝ (fun s => u s i) t)
    (hv : ∀ i, DifferentiableAt ℝ (fun s => v s i) t) : DifferentiableAt ℝ (fun s => u s ⬝ᵥ (B s *ᵥ v s)) t := by
  simp only [dotProduct, mulVec]
  exact DifferentiableAt.fun_sum fun i _ => (hu i).mul (DifferentiableAt.fun_sum fun j _ => (hB i j).mul (hv j))

theorem differentiableAt_mulVec {m l : ℕ} {B : ℝ → Matrix (Fin m) (Fin l) ℝ} {v : ℝ → Fin l → ℝ} {t : ℝ}
    (hB : ∀ i j, DifferentiableAt ℝ (fun s => B s i j) t)
    (hv : ∀ i, DifferentiableAt ℝ (fun s => v s i) t) (i : Fin m) : DifferentiableAt ℝ (fun s => (B s *ᵥ v s) i) t := by
  simp only [dotProduct, mulVec]
  exact DifferentiableAt.fun_sum fun j _ => (hB i j).mul (hv j)

/-- The derivative of the residual sum of squares: the coefficients of the trend need not be differentiated. -/
theorem hasDerivAt_sumSquares (hc : CholeskyRoutine chol) (hq : QrRoutine qr) {A : ℝ → Matrix (Fin N) (Fin N) ℝ}
    {A' : Matrix (Fin N) (Fin N) ℝ} {t : ℝ} (h : ∀ i j, HasDerivAt (fun s => A s i j) (A' i j) t) {F : Matrix (Fin N) (Fin k) ℝ}
    {beta : Option (Fin k → ℝ)} (hF : beta = none → FullRank F) {y : Fin N → ℝ} {a : ℝ → GpAux N k}
    (ha : ∀ᶠ s in nhds t, computeAux chol qr (A s) F beta y = some (a s)) :
    HasDerivAt (fun s => sumSquares (a s).rho) (-(gpGamma (a t) ⬝ᵥ (A' *ᵥ gpGamma (a t)))) t := by
  have hat := ha.self_of_nhds
  obtain ⟨hch, -, hgiven, hrho⟩ := aux_spec hc hq hF hat
  have hpos := (log_det_chol hch).2.ne'
  have hdA : ∀ i j, DifferentiableAt ℝ (fun s => A s i j) t := fun i j => (h i j).differentiableAt
  have hdI := differentiableAt_inv hdA hpos
  have hdiff : DifferentiableAt ℝ (fun s => sumSquares (a s).rho) t := by
    cases beta with
    | none =>
      have hdet := (sumSquares_none hc hq (hF rfl) hat).2
      have hev : (fun s => sumSquares (a s).rho) =ᶠ[nhds t] fun s => y ⬝ᵥ ((A s)⁻¹ *ᵥ y) -
          (Fᵀ *ᵥ ((A s)⁻¹ *ᵥ y)) ⬝ᵥ ((Fᵀ * ((A s)⁻¹ * F))⁻¹ *ᵥ (Fᵀ *ᵥ ((A s)⁻¹ *ᵥ y))) := by
        filter_upwards [ha] with s hs
        exact (sumSquares_none hc hq (hF rfl) hs).1
      have hb : ∀ p, DifferentiableAt ℝ (fun s => (Fᵀ *ᵥ ((A s)⁻¹ *ᵥ y)) p) t :=
        differentiableAt_mulVec (B := fun _ => Fᵀ) (v := fun s => (A s)⁻¹ *ᵥ y) (fun _ _ => differentiableAt_const _)
          (differentiableAt_mulVec hdI fun _ => differentiableAt_const _)
      have hM : ∀ p q, DifferentiableAt ℝ (fun s => (Fᵀ * ((A s)⁻¹ * F)) p q) t :=
        differentiableAt_mul (A := fun _ => Fᵀ) (B := fun s => (A s)⁻¹ * F) (fun _ _ => differentiableAt_const _)
          (differentiableAt_mul (A := fun s => (A s)⁻¹) (B := fun _ => F) hdI fun _ _ => differentiableAt_const _)
      refine DifferentiableAt.congr_of_eventuallyEq ?_ hev
      exact (differentiableAt_quadratic (u := fun _ => y) (v := fun _ => y) hdI (fun _ => differentiableAt_const _)
        fun _ => differentiableAt_const _).sub (differentiableAt_quadratic (differentiableAt_inv hM hdet) hb hb)
    | some b =>
      have hev : (fun s => sumSquares (a s).rho) =ᶠ[nhds t] fun s => (y - F *ᵥ b) ⬝ᵥ ((A s)⁻¹ *ᵥ (y - F *ᵥ b)) := by
        filter_upwards [ha] with s hs
        obtain ⟨hch', -, hg', hrho'⟩ := aux_spec hc hq hF hs
        rw [inv_quadratic hch', ← hrho', hg' b rfl]
      refine DifferentiableAt.congr_of_eventuallyEq ?_ hev
      exact differentiableAt_quadratic hdI (fun _ => differentiableAt_const _) fun _ => differentiableAt_const _
  set z := y - F *ᵥ gpBeta (a t) beta with hz
  have hqd := hasDerivAt_inv_quadratic h hpos (inv_symm hch) z
  have hle : ∀ᶠ s in nhds t, sumSquares (a s).rho - z ⬝ᵥ ((A s)⁻¹ *ᵥ z) ≤ sumSquares (a t).rho - z ⬝ᵥ ((A t)⁻¹ *ᵥ z) := by
    filter_upwards [ha] with s hs
    obtain ⟨hch', hmin', -, -⟩ := aux_spec hc hq hF hs
    have h1 := hmin' (gpBeta (a t) beta) hgiven
    rw [inv_quadratic hch', inv_quadratic hch, ← hrho]
    linarith
  have hmax : IsLocalMax (fun s => sumSquares (a s).rho - z ⬝ᵥ ((A s)⁻¹ *ᵥ z)) t := hle
  have h0 := hmax.hasDerivAt_eq_zero (hdiff.hasDerivAt.sub hqd)
  have hg : gpGamma (a t) = (A t)⁻¹ *ᵥ z := gamma_eq hc hq hF hat
  rw [hg]
  have := hdiff.hasDerivAt
  rwa [sub_eq_zero.1 h0] at this

/-- The sum over the part above the diagonal is half of the sum, for symmetric matrices with a zero diagonal in the second. -/
theorem upperSum_eq {A B : Matrix (Fin N) (Fin N) ℝ} (hA : ∀ i j, A i j = A j i) (hB : ∀ i j, B i j = B j i) (hB0 : ∀ i, B i i = 0) :
    upperSum A B = 1 / 2 * ∑ i, ∑ j, A i j * B i j := by
  have h1 : ∑ i, ∑ j, A i j * B i j = upperSum A B + ∑ i, ∑ j, (if j < i then A i j * B i j else 0) := by
    unfold upperSum
    rw [← Finset.sum_add_distrib]
    refine Finset.sum_congr rfl fun i _ => ?_
    rw [← Finset.sum_add_distrib]
    refine Finset.sum_congr rfl fun j _ => ?_
    rcases lt_trichotomy i j with h | h | h
    · rw [if_pos h, if_neg (asymm h), add_zero]
    · subst h; simp [hB0]
    · rw [if_pos h, if_neg (asymm h), zero_add]
  have h2 : ∑ i, ∑ j, (if j < i then A i j * B i j else 0) = upperSum A B := by
    unfold upperSum
    rw [Finset.sum_comm]
    refine Finset.sum_congr rfl fun i _ => Finset.sum_congr rfl fun j _ => ?_
    rw [hA j i, hB j i]
  rw [h1, h2]
  ring

theorem sum_outer (g : Fin N → ℝ) (B : Matrix (Fin N) (Fin N) ℝ) : ∑ i, ∑ j, outer g i j * B i j = g ⬝ᵥ (B *ᵥ g) := by
  simp only [outer, of_apply, dotProduct, mulVec, Finset.mul_sum]
  exact Finset.sum_congr rfl fun i _ => Finset.sum_congr rfl fun j _ => by ring

theorem sum_mul_eq_trace {A B : Matrix (Fin N) (Fin N) ℝ} (hB : ∀ i j, B i j = B j i) :
    ∑ i, ∑ j, A i j * B i j = (A * B).trace := by
  simp only [trace, diag_apply, mul_apply]
  exact Finset.sum_congr rfl fun i _ => Finset.sum_congr rfl fun j _ => by rw [hB i j]

theorem hasDerivAt_twiceLogDiag (hc : CholeskyRoutine chol) (hq : QrRoutine qr) {A : ℝ → Matrix (Fin N) (Fin N) ℝ}
    {A' : Matrix (Fin N) (Fin N) ℝ} {t : ℝ} (h : ∀ i j, HasDerivAt (fun s => A s i j) (A' i j) t) {F : Matrix (Fin N) (Fin k) ℝ}
    {beta : Option (Fin k → ℝ)} (hF : beta = none → FullRank F) {y : Fin N → ℝ} {a : ℝ → GpAux N k}
    (ha : ∀ᶠ s in nhds t, computeAux chol qr (A s) F beta y = some (a s)) :
    HasDerivAt (fun s => twiceLogDiag (a s).L) (((A t)⁻¹ * A').trace) t := by
  have hat := ha.self_of_nhds
  have hch := (aux_spec hc hq hF hat).1
  refine (hasDerivAt_log_det h (log_det_chol hch).2.ne').congr_of_eventuallyEq ?_
  filter_upwards [ha] with s hs
  exact (log_det_chol (aux_spec hc hq hF hs).1).1.symm

/-- The derivative of a likelihood with concentrated variance. -/
theorem hasDerivAt_scaled (hc : CholeskyRoutine chol) (hq : QrRoutine qr) {A : ℝ → Matrix (Fin N) (Fin N) ℝ}
    {A' : Matrix (Fin N) (Fin N) ℝ} {t : ℝ} (h : ∀ i j, HasDerivAt (fun s => A s i j) (A' i j) t) {F : Matrix (Fin N) (Fin k) ℝ}
    {beta : Option (Fin k → ℝ)} (hF : beta = none → FullRank F) {y : Fin N → ℝ} {a : ℝ → GpAux N k}
    (ha : ∀ᶠ s in nhds t, computeAux chol qr (A s) F beta y = some (a s)) {m : ℝ} (hm : 0 < m) (hS : 0 < sumSquares (a t).rho)
    {v : ℝ → ℝ} (hv : ∀ᶠ s in nhds t, v s = -(1 / 2) * (N * Real.log (2 * Real.pi * (sumSquares (a s).rho / m)) + twiceLogDiag (a s).L + N)) :
    HasDerivAt v (-(1 / 2) * (((A t)⁻¹ * A').trace - N * (gpGamma (a t) ⬝ᵥ (A' *ᵥ gpGamma (a t))) / sumSquares (a t).rho)) t := by
  have h1 := hasDerivAt_sumSquares hc hq h hF ha
  have h2 := hasDerivAt_twiceLogDiag hc hq h hF ha
  have h3 := ((((h1.div_const m).const_mul (2 * Real.pi)).log (by positivity)).const_mul (N : ℝ))
  have h4 := (((h3.add h2).add_const (N : ℝ)).const_mul (-(1 / 2 : ℝ)))
  refine (h4.congr_of_eventuallyEq ?_).congr_deriv ?_
  · filter_upwards [hv] with s hs
    rw [hs]; rfl
  · field_simp
    ring

/-- The derivative of a likelihood with the variance `m s`. -/
theorem hasDerivAt_fixed (hc : CholeskyRoutine chol) (hq : QrRoutine qr) {A : ℝ → Matrix (Fin N) (Fin N) ℝ}
    {A' : Matrix (Fin N) (Fin N) ℝ} {t : ℝ} (h : ∀ i j, HasDerivAt (fun s => A s i j) (A' i j) t) {F : Matrix (Fin N) (Fin k) ℝ}
    {beta : Option (Fin k → ℝ)} (hF : beta = none → FullRank F) {y : Fin N → ℝ} {a : ℝ → GpAux N k}
    (ha : ∀ᶠ s in nhds t, computeAux chol qr (A s) F beta y = some (a s)) {m : ℝ → ℝ} {m' : ℝ} (hm : 0 < m t) (hm' : HasDerivAt m m' t)
    {v : ℝ → ℝ} (hv : ∀ᶠ s in nhds t, v s = -(1 / 2) * (N * Real.log (2 * Real.pi * m s) + twiceLogDiag (a s).L + sumSquares (a s).rho / m s)) :
    HasDerivAt v (-(1 / 2) * (N * m' / m t + ((A t)⁻¹ * A').trace - gpGamma (a t) ⬝ᵥ (A' *ᵥ gpGamma (a t)) / m t -
      sumSquares (a t).rho * m' / m t ^ 2)) t := by
  have h1 := hasDerivAt_sumSquares hc hq h hF ha
  have h2 := hasDerivAt_twiceLogDiag hc hq h hF ha
  have h3 := (((hm'.const_mul (2 * Real.pi)).log (by positivity)).const_mul (N : ℝ))
  have h4 := (((h3.add h2).add (h1.div hm' hm.ne')).const_mul (-(1 / 2 : ℝ)))
  refine (h4.congr_of_eventuallyEq ?_).congr_deriv ?_
  · filter_upwards [hv] with s hs
    rw [hs]; rfl
  · field_simp
    ring

theorem gamma_quadratic (hc : CholeskyRoutine chol) (hq : QrRoutine qr) {R : Matrix (Fin N) (Fin N) ℝ} {F : Matrix (Fin N) (Fin k) ℝ}
    {beta : Option (Fin k → ℝ)} (hF : beta = none → FullRank F) {y : Fin N → ℝ} {a : GpAux N k}
    (ha : computeAux chol qr R F beta y = some a) : gpGamma a ⬝ᵥ (R *ᵥ gpGamma a) = sumSquares a.rho := by
  obtain ⟨h, -, -, hrho⟩ := aux_spec hc hq hF ha
  rw [gamma_eq hc hq hF ha, mulVec_mulVec, mul_nonsing_inv _ (log_det_chol h).2.ne'.isUnit, one_mulVec, dotProduct_comm,
    inv_quadratic h, hrho]

end Verif.Proofs
