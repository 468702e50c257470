import Verif.Proofs.GprOrder
import Verif.Spec.DataOrder
import Batteries.Data.List.Perm

/-!
# A Gaussian process fitted to reordered data
-/
namespace Verif.Proofs

open Matrix Verif.Model Verif.Spec

variable {n N k m : ℕ}

/-- Whatever is computed from the entries of a reordered list is computed from reordered entries of the list. -/
theorem reordered_entries {α β : Type*} {t t' : List α} (h : t'.Perm t) :
    ∃ σ : Equiv.Perm (Fin t.length), ∀ F : (M : ℕ) → (Fin M → α) → β, F t'.length t'.get = F t.length (t.get ∘ σ) := by
  classical
  have key : ∀ {M M' : ℕ} (_ : M' = M) (f : Fin M → α) (f' : Fin M' → α) (e : Fin M' → Fin M), Function.Bijective e → (∀ i, f (e i) = f' i) →
      ∃ σ : Equiv.Perm (Fin M), ∀ F : (M : ℕ) → (Fin M → α) → β, F M' f' = F M (f ∘ σ) := by
    intro M M' hM f f' e he hf
    subst hM
    refine ⟨Equiv.ofBijective e he, fun F => ?_⟩
    congr 1
    funext i
    exact (hf i).symm
  refine key h.length_eq t.get t'.get h.idxBij ?_ fun i => ?_
  · have hinj : Function.Injective h.idxBij := by
      have := h.subperm.idxInj_injective
      rwa [h.subperm_idxBij] at this
    rw [Fintype.bijective_iff_injective_and_card]
    exact ⟨hinj, by simp [h.length_eq]⟩
  · exact h.getElem_idxBij_eq_getElem i

private theorem correlation_perm (c : (Fin n → ℝ) → ℝ) (X : Fin N → Fin n → ℝ) (σ : Equiv.Perm (Fin N)) :
    of (correlationMatrix c (X ∘ σ)) = (of (correlationMatrix c X)).submatrix σ σ := by
  ext i j
  rw [submatrix_apply, of_apply, of_apply, correlationMatrix_apply, correlationMatrix_apply]
  simp only [σ.injective.eq_iff, Function.comp_apply]

private theorem basis_perm (f : (Fin n → ℝ) → Fin k → ℝ) (X : Fin N → Fin n → ℝ) (σ : Equiv.Perm (Fin N)) :
    (of fun i => f ((X ∘ σ) i)) = (of fun i => f (X i)).submatrix σ id := rfl

private theorem corrDx_perm (name : CorrName) (theta : List ℝ) (X : Fin N → Fin n → ℝ) (x : Fin n → ℝ) (r : Fin N → ℝ) (σ : Equiv.Perm (Fin N)) :
    corrDx name theta (X ∘ σ) x (r ∘ σ) = (corrDx name theta X x r).map fun D c l => D c (σ l) := by
  cases name with
  | matern nu =>
    unfold corrDx
    have e : (∃ i, scaledDist theta (fun k => x k - (X ∘ σ) i k) = 0) ↔ ∃ i, scaledDist theta (fun k => x k - X i k) = 0 :=
      ⟨fun ⟨i, h⟩ => ⟨σ i, h⟩, fun ⟨i, h⟩ => ⟨σ.symm i, by simpa using h⟩⟩
    dsimp only
    simp only [e]
    split_ifs <;> rfl
  | _ => rfl

variable {chol : Matrix (Fin N) (Fin N) ℝ → Option (Matrix (Fin N) (Fin N) ℝ)}
  {qr : Matrix (Fin N) (Fin k) ℝ → Matrix (Fin N) (Fin k) ℝ × Matrix (Fin k) (Fin k) ℝ}

private theorem map_one (beta : Option (Fin k → ℝ)) : beta.map ((1 : Matrix (Fin k) (Fin k) ℝ) *ᵥ ·) = beta := by
  cases beta <;> simp

private theorem inv_of_chol {R L : Matrix (Fin N) (Fin N) ℝ} (h : IsCholesky R L) : R⁻¹ = L⁻¹ᵀ * L⁻¹ := by
  rw [← h.mul, Matrix.mul_inv_rev, transpose_nonsing_inv]

private theorem whiten_vec {R L : Matrix (Fin N) (Fin N) ℝ} (h : IsCholesky R L) (r : Fin N → ℝ) (V : Matrix (Fin N) (Fin m) ℝ) :
    (L⁻¹ *ᵥ r) ᵥ* (L⁻¹ * V) = r ᵥ* (R⁻¹ * V) := by
  rw [inv_of_chol h, ← vecMul_transpose, vecMul_vecMul, Matrix.mul_assoc]

private theorem whiten_mat {R L : Matrix (Fin N) (Fin N) ℝ} (h : IsCholesky R L) {m' : ℕ} (U : Matrix (Fin N) (Fin m') ℝ) (V : Matrix (Fin N) (Fin m) ℝ) :
    (L⁻¹ * U)ᵀ * (L⁻¹ * V) = Uᵀ * (R⁻¹ * V) := by
  rw [inv_of_chol h, transpose_mul, Matrix.mul_assoc, Matrix.mul_assoc]

private theorem vec_perm (σ : Equiv.Perm (Fin N)) (R : Matrix (Fin N) (Fin N) ℝ) (r : Fin N → ℝ) (V : Matrix (Fin N) (Fin m) ℝ) :
    (r ∘ σ) ᵥ* ((R.submatrix σ σ)⁻¹ * V.submatrix σ id) = r ᵥ* (R⁻¹ * V) := by
  rw [inv_submatrix_equiv, submatrix_mul_equiv]
  funext j
  exact Equiv.sum_comp σ fun i => r i * (R⁻¹ * V) i j

private theorem mat_perm (σ : Equiv.Perm (Fin N)) (R : Matrix (Fin N) (Fin N) ℝ) {m' : ℕ} (U : Matrix (Fin N) (Fin m') ℝ) (V : Matrix (Fin N) (Fin m) ℝ) :
    (U.submatrix σ id)ᵀ * ((R.submatrix σ σ)⁻¹ * V.submatrix σ id) = Uᵀ * (R⁻¹ * V) := by
  rw [inv_submatrix_equiv, submatrix_mul_equiv, transpose_submatrix, submatrix_mul_equiv, submatrix_id_id]

/-- The gradient of the mean squared error does not depend on the order of the data. -/
private theorem mseDx_perm (hc : CholeskyRoutine chol) (σ : Equiv.Perm (Fin N)) {R : Matrix (Fin N) (Fin N) ℝ} {F : Matrix (Fin N) (Fin k) ℝ}
    {beta : Option (Fin k → ℝ)} {y : Fin N → ℝ} {a a' : GpAux N k} (ha : computeAux chol qr R F beta y = some a)
    (ha' : computeAux chol qr (R.submatrix σ σ) (F.submatrix σ id) beta (y ∘ σ) = some a') (sigma2 : ℝ) (f : Fin k → ℝ) (r : Fin N → ℝ)
    (fDx : Matrix (Fin k) (Fin n) ℝ) (rDx : Matrix (Fin N) (Fin n) ℝ) :
    gpMseDx a' beta sigma2 f (r ∘ σ) fDx (rDx.submatrix σ id) = gpMseDx a beta sigma2 f r fDx rDx := by
  unfold computeAux at ha ha'
  obtain ⟨L, hL, rfl⟩ := Option.map_eq_some_iff.1 ha
  obtain ⟨L', hL', rfl⟩ := Option.map_eq_some_iff.1 ha'
  have h := hc _ _ hL
  have h' := hc _ _ hL'
  cases beta with
  | none =>
    unfold gpMseDx
    dsimp only
    simp only [mulVec_transpose, whiten_vec h, whiten_vec h', whiten_mat h, whiten_mat h', vec_perm, mat_perm]
  | some b =>
    unfold gpMseDx
    dsimp only
    simp only [whiten_vec h, whiten_vec h', vec_perm]

/-- The gradient of the mean is the mean for derivatives instead of values. -/
private theorem meanDx_eq (a : GpAux N k) (beta : Option (Fin k → ℝ)) (fDx : Matrix (Fin k) (Fin n) ℝ) (rDx : Matrix (Fin N) (Fin n) ℝ) (j : Fin n) :
    gpMeanDx a beta fDx rDx j = gpMean a beta (fun p => fDx p j) fun l => rDx l j := by
  unfold gpMeanDx gpMean
  simp only [Pi.add_apply, vecMul, dotProduct_comm]

private theorem predict_order (hc : CholeskyRoutine chol) (hcc : CompleteCholesky chol) (σ : Equiv.Perm (Fin N)) (mode : GpMode) (R0 : Matrix (Fin N) (Fin N) ℝ)
    (F : Matrix (Fin N) (Fin k) ℝ) (beta : Option (Fin k → ℝ)) (hq : beta = none → QrRoutine qr) (hF : beta = none → FullRank F) (sigma2 : ℝ) (y : Fin N → ℝ)
    (f : Fin k → ℝ) (r : Fin N → ℝ) :
    gpPredict chol qr mode (R0.submatrix σ σ) (F.submatrix σ id) beta sigma2 (y ∘ σ) f (r ∘ σ) = gpPredict chol qr mode R0 F beta sigma2 y f r := by
  have h := predict_perm hc hcc σ (A := 1) (B := 1) (Matrix.mul_one 1) mode R0 F beta hq hF sigma2 y f r
  rwa [map_one, Matrix.mul_one, transpose_one, one_mulVec] at h

variable {g : GpDesign n k}

/-- What the search sees. -/
private theorem likelihood_perm (hc : CholeskyRoutine (g.chol N)) (hcc : CompleteCholesky (g.chol N)) (σ : Equiv.Perm (Fin N)) (X : Fin N → Fin n → ℝ) (y : Fin N → ℝ)
    (hq : g.beta = none → QrRoutine (g.qr N)) (hF : g.beta = none → FullRank (of fun i => g.basis (X i))) : g.likelihood (X ∘ σ) (y ∘ σ) = g.likelihood X y := by
  funext p
  unfold GpDesign.likelihood
  have h := llf_perm hc hcc σ (A := 1) (B := 1) (Matrix.mul_one 1) p.1 (of (correlationMatrix (g.correlation p.2) X)) (of fun i => g.basis (X i)) g.beta hq hF y
  rw [map_one, Matrix.mul_one] at h
  rw [correlation_perm, basis_perm]
  exact h

private theorem fullRank_order (σ : Equiv.Perm (Fin N)) (X : Fin N → Fin n → ℝ) :
    FullRank (of fun i => g.basis ((X ∘ σ) i)) ↔ FullRank (of fun i => g.basis (X i)) := by
  have key : ∀ (τ : Equiv.Perm (Fin N)) (Z : Fin N → Fin n → ℝ), FullRank (of fun i => g.basis (Z i)) → FullRank (of fun i => g.basis ((Z ∘ τ) i)) := fun τ Z h => by
    have := fullRank_perm τ (A := 1) (B := 1) (Matrix.mul_one 1) h
    rwa [Matrix.mul_one] at this
  refine ⟨fun h => ?_, key σ X⟩
  have := key σ.symm _ h
  rwa [Function.comp_assoc, Equiv.self_comp_symm, Function.comp_id] at this

/-- With fewer samples than basis functions the trend cannot be estimated. -/
theorem fullRank_le {F : Matrix (Fin N) (Fin k) ℝ} (h : FullRank F) : k ≤ N := by
  have hinj : Function.Injective F.mulVecLin := by
    rw [← LinearMap.ker_eq_bot, LinearMap.ker_eq_bot']
    exact h
  have := LinearMap.finrank_le_finrank_of_injective hinj
  simpa using this

/-- The fitted models agree in everything but the factors, and the factors give the same predictions. -/
theorem fitted_perm (hc : CholeskyRoutine (g.chol N)) (hcc : CompleteCholesky (g.chol N)) (hq : g.beta = none → k ≤ N → QrRoutine (g.qr N)) (i : ℕ)
    (X : Fin N → Fin n → ℝ) (y : Fin N → ℝ) (σ : Equiv.Perm (Fin N)) :
    (g.fitted i (X ∘ σ) (y ∘ σ) = none ∧ g.fitted i X y = none) ∨
    ∃ theta sigma2 a a', g.fitted i (X ∘ σ) (y ∘ σ) = some (theta, sigma2, a') ∧ g.fitted i X y = some (theta, sigma2, a) ∧ ∀ x,
      gpMean a' g.beta (g.basis x) (corrVector (g.correlation theta) (X ∘ σ) x) = gpMean a g.beta (g.basis x) (corrVector (g.correlation theta) X x) ∧
      gpMse a' g.beta sigma2 (g.basis x) (corrVector (g.correlation theta) (X ∘ σ) x) = gpMse a g.beta sigma2 (g.basis x) (corrVector (g.correlation theta) X x) ∧
      ∀ (rDx : Matrix (Fin N) (Fin n) ℝ) j,
        gpMeanDx a' g.beta (g.basisDx x) (rDx.submatrix σ id) j = gpMeanDx a g.beta (g.basisDx x) rDx j ∧
        gpMseDx a' g.beta sigma2 (g.basis x) (corrVector (g.correlation theta) (X ∘ σ) x) (g.basisDx x) (rDx.submatrix σ id) j =
          gpMseDx a g.beta sigma2 (g.basis x) (corrVector (g.correlation theta) X x) (g.basisDx x) rDx j := by
  by_cases hF : g.beta = none → FullRank (of fun i => g.basis (X i))
  swap
  · left
    have hF' : ¬(g.beta = none → FullRank (of fun i => g.basis ((X ∘ σ) i))) := by rwa [fullRank_order]
    unfold GpDesign.fitted
    rw [if_neg hF, if_neg hF']
    exact ⟨rfl, rfl⟩
  · have hF' : g.beta = none → FullRank (of fun i => g.basis ((X ∘ σ) i)) := by rwa [fullRank_order]
    have hq' : g.beta = none → QrRoutine (g.qr N) := fun h => hq h (fullRank_le (hF h))
    unfold GpDesign.fitted
    rw [if_pos hF, if_pos hF']
    dsimp only
    rw [likelihood_perm hc hcc σ X y hq' hF]
    generalize g.choose i (g.likelihood X y) = p
    cases g.likelihood X y p with
    | none => left; exact ⟨rfl, rfl⟩
    | some q =>
      rw [Option.bind_some, Option.bind_some, correlation_perm, basis_perm, gpMatrix_perm]
      have hs := aux_perm_some (qr := g.qr N) hc hcc σ (R := gpMatrix p.1 (of (correlationMatrix (g.correlation p.2) X))) (of fun i => g.basis (X i))
        ((of fun i => g.basis (X i)).submatrix σ id) g.beta g.beta y (y ∘ σ)
      cases ha : computeAux (g.chol N) (g.qr N) (gpMatrix p.1 (of (correlationMatrix (g.correlation p.2) X))) (of fun i => g.basis (X i)) g.beta y with
      | none =>
        rw [ha] at hs
        have ha' := Option.not_isSome_iff_eq_none.1 (by rw [hs]; simp)
        rw [ha']
        left
        exact ⟨rfl, rfl⟩
      | some a =>
        rw [ha] at hs
        obtain ⟨a', ha'⟩ := Option.isSome_iff_exists.1 (hs.trans rfl)
        rw [ha']
        right
        refine ⟨p.2, q.2.1, a, a', rfl, rfl, fun x => ?_⟩
        have hp : ∀ (f : Fin k → ℝ) (r : Fin N → ℝ), gpMean a' g.beta f (r ∘ σ) = gpMean a g.beta f r ∧ gpMse a' g.beta q.2.1 f (r ∘ σ) = gpMse a g.beta q.2.1 f r := fun f r => by
          have h := predict_order hc hcc σ p.1 (of (correlationMatrix (g.correlation p.2) X)) (of fun i => g.basis (X i)) g.beta hq' hF q.2.1 y f r
          unfold gpPredict at h
          rw [gpMatrix_perm, ha, ha'] at h
          simpa using h
        have hr : corrVector (g.correlation p.2) (X ∘ σ) x = corrVector (g.correlation p.2) X x ∘ σ := rfl
        rw [hr]
        refine ⟨(hp (g.basis x) (corrVector (g.correlation p.2) X x)).1, (hp (g.basis x) (corrVector (g.correlation p.2) X x)).2, fun rDx j => ⟨?_, ?_⟩⟩
        · rw [meanDx_eq, meanDx_eq]
          exact (hp (fun p => g.basisDx x p j) fun l => rDx l j).1
        · exact congrFun (mseDx_perm hc σ ha ha' _ _ _ _ _) j

/-- Predictions. -/
theorem predicted_perm (hc : CholeskyRoutine (g.chol N)) (hcc : CompleteCholesky (g.chol N)) (hq : g.beta = none → k ≤ N → QrRoutine (g.qr N)) (i : ℕ)
    (X : Fin N → Fin n → ℝ) (y : Fin N → ℝ) (σ : Equiv.Perm (Fin N)) (x : Fin n → ℝ) (j : ℕ) : g.predicted i (X ∘ σ) (y ∘ σ) x j = g.predicted i X y x j := by
  unfold GpDesign.predicted
  rcases fitted_perm hc hcc hq i X y σ with ⟨h1, h2⟩ | ⟨theta, sigma2, a, a', h1, h2, h⟩
  · rw [h1, h2]
  · rw [h1, h2]
    dsimp only
    have hr : corrVector (g.correlation theta) (X ∘ σ) x = corrVector (g.correlation theta) X x ∘ σ := rfl
    have hD : (of fun (l : Fin N) (c : Fin n) => ((corrDx g.name theta (X ∘ σ) x (corrVector (g.correlation theta) (X ∘ σ) x)).map fun D => D c l).getD 0) =
        (of fun (l : Fin N) (c : Fin n) => ((corrDx g.name theta X x (corrVector (g.correlation theta) X x)).map fun D => D c l).getD 0).submatrix σ id := by
      ext l c
      rw [hr, corrDx_perm, submatrix_apply, of_apply, of_apply, Option.map_map]
      rfl
    rw [hD]
    congr 1
    · exact (h x).1
    · exact (h x).2.1
    · split_ifs with hj
      · exact ((h x).2.2 _ ⟨j, hj⟩).1
      · rfl
    · split_ifs with hj
      · exact ((h x).2.2 _ ⟨j, hj⟩).2
      · rfl

end Verif.Proofs
