import Verif.Proofs.Likelihood
import Verif.Proofs.Kernels
import Verif.Props.Gpr
import Verif.Spec.GprOrder

/-!
# The Gaussian process for reordered observations and another basis of the trend
-/
namespace Verif.Proofs

open Matrix Verif.Model Verif.Spec Verif.Props

variable {n N k : ℕ} {chol : Matrix (Fin N) (Fin N) ℝ → Option (Matrix (Fin N) (Fin N) ℝ)}
  {qr : Matrix (Fin N) (Fin k) ℝ → Matrix (Fin N) (Fin k) ℝ × Matrix (Fin k) (Fin k) ℝ}

theorem quad_perm (σ : Equiv.Perm (Fin N)) (R : Matrix (Fin N) (Fin N) ℝ) (w : Fin N → ℝ) :
    (w ∘ σ) ⬝ᵥ (R.submatrix σ σ *ᵥ (w ∘ σ)) = w ⬝ᵥ (R *ᵥ w) := by
  rw [submatrix_mulVec_equiv, Function.comp_assoc, Equiv.self_comp_symm, Function.comp_id, comp_equiv_dotProduct_comp_equiv]

theorem errVar_perm (σ : Equiv.Perm (Fin N)) (R : Matrix (Fin N) (Fin N) ℝ) (r w : Fin N → ℝ) :
    errVar (R.submatrix σ σ) (r ∘ σ) (w ∘ σ) = errVar R r w := by
  unfold errVar
  rw [quad_perm, comp_equiv_dotProduct_comp_equiv]

theorem trend_perm (σ : Equiv.Perm (Fin N)) (F : Matrix (Fin N) (Fin k) ℝ) (A : Matrix (Fin k) (Fin k) ℝ) (b : Fin k → ℝ) :
    (F * A).submatrix σ id *ᵥ b = (F *ᵥ (A *ᵥ b)) ∘ σ := by
  funext i
  rw [mulVec_mulVec]
  rfl

theorem trend_weights_perm (σ : Equiv.Perm (Fin N)) (F : Matrix (Fin N) (Fin k) ℝ) (A : Matrix (Fin k) (Fin k) ℝ) (w : Fin N → ℝ) :
    ((F * A).submatrix σ id)ᵀ *ᵥ (w ∘ σ) = Aᵀ *ᵥ (Fᵀ *ᵥ w) := by
  rw [mulVec_mulVec, ← transpose_mul]
  funext p
  exact Equiv.sum_comp σ (fun i => (F * A) i p * w i)

theorem gpMatrix_perm (mode : GpMode) (σ : Equiv.Perm (Fin N)) (R0 : Matrix (Fin N) (Fin N) ℝ) :
    gpMatrix mode (R0.submatrix σ σ) = (gpMatrix mode R0).submatrix σ σ := by
  cases mode <;> simp [gpMatrix, submatrix_add, submatrix_smul, submatrix_one_equiv]

private theorem chol_pos_def {R L : Matrix (Fin N) (Fin N) ℝ} (h : IsCholesky R L) {w : Fin N → ℝ} (hw : w ≠ 0) : 0 < w ⬝ᵥ (R *ᵥ w) := by
  have e : w ⬝ᵥ (R *ᵥ w) = (Lᵀ *ᵥ w) ⬝ᵥ (Lᵀ *ᵥ w) := by rw [transpose_dot, mulVec_mulVec, h.mul]
  rw [e]
  refine lt_of_le_of_ne (dot_self_nonneg _) fun h0 => hw ?_
  have : Lᵀ *ᵥ w = 0 := by
    rw [eq_comm, dotProduct_self_eq_zero] at h0
    exact h0
  rw [← inv_transpose_mulVec (chol_det h) w, this, mulVec_zero]

private theorem chol_symm {R L : Matrix (Fin N) (Fin N) ℝ} (h : IsCholesky R L) (i j : Fin N) : R i j = R j i := by
  have : Rᵀ = R := by rw [← h.mul, transpose_mul, transpose_transpose]
  conv_lhs => rw [← this]
  rfl

private theorem chol_perm (hc : CholeskyRoutine chol) (hcc : CompleteCholesky chol) (σ : Equiv.Perm (Fin N)) {R L : Matrix (Fin N) (Fin N) ℝ}
    (hL : chol R = some L) : ∃ L', chol (R.submatrix σ σ) = some L' := by
  have h := hc _ _ hL
  refine Option.isSome_iff_exists.1 (hcc _ (fun i j => chol_symm h _ _) fun w hw => ?_)
  have e : w = (w ∘ σ.symm) ∘ σ := by rw [Function.comp_assoc, Equiv.symm_comp_self, Function.comp_id]
  rw [e, quad_perm]
  refine chol_pos_def h fun h0 => hw ?_
  rw [e, h0]
  rfl

private theorem chol_perm_iff (hc : CholeskyRoutine chol) (hcc : CompleteCholesky chol) (σ : Equiv.Perm (Fin N)) {R : Matrix (Fin N) (Fin N) ℝ}
    (hL : chol R = none) : chol (R.submatrix σ σ) = none := by
  cases h : chol (R.submatrix σ σ) with
  | none => rfl
  | some L' =>
    obtain ⟨L, h1⟩ := chol_perm hc hcc σ⁻¹ h
    rw [submatrix_submatrix] at h1
    have e : (σ : Fin N → Fin N) ∘ (σ⁻¹ : Equiv.Perm (Fin N)) = id := by funext i; simp
    rw [e, submatrix_id_id, hL] at h1
    exact absurd h1 (by simp)

/-- The best weights are unique. -/
private theorem best_unique {R L : Matrix (Fin N) (Fin N) ℝ} (h : IsCholesky R L) {F : Matrix (Fin N) (Fin k) ℝ} {f : Fin k → ℝ}
    {r w w' : Fin N → ℝ} (hw : Fᵀ *ᵥ w = f) (hw' : Fᵀ *ᵥ w' = f) (hmin : ∀ v, Fᵀ *ᵥ v = f → errVar R r w ≤ errVar R r v)
    (hmin' : ∀ v, Fᵀ *ᵥ v = f → errVar R r w' ≤ errVar R r v) : w = w' := by
  have e : ∀ v, errVar R r v = 1 - (L⁻¹ *ᵥ r) ⬝ᵥ (L⁻¹ *ᵥ r) + (Lᵀ *ᵥ v - L⁻¹ *ᵥ r) ⬝ᵥ (Lᵀ *ᵥ v - L⁻¹ *ᵥ r) := fun v => by
    conv_lhs => rw [← inv_transpose_mulVec (chol_det h) v]
    rw [errVar_complete_square h]
  have hm : Fᵀ *ᵥ ((1 / 2 : ℝ) • (w + w')) = f := by
    rw [mulVec_smul, mulVec_add, hw, hw', ← two_smul ℝ f, smul_smul]; norm_num
  have h1 := hmin _ hm
  have h2 := hmin' _ hm
  have e3 : Lᵀ *ᵥ ((1 / 2 : ℝ) • (w + w')) - L⁻¹ *ᵥ r =
      (1 / 2 : ℝ) • ((Lᵀ *ᵥ w - L⁻¹ *ᵥ r) + (Lᵀ *ᵥ w' - L⁻¹ *ᵥ r)) := by
    rw [mulVec_smul, mulVec_add]
    funext i
    simp only [Pi.sub_apply, Pi.add_apply, Pi.smul_apply, smul_eq_mul]
    ring
  rw [e w, e _, e3] at h1
  rw [e w', e _, e3] at h2
  have h3 : Lᵀ *ᵥ w - L⁻¹ *ᵥ r = Lᵀ *ᵥ w' - L⁻¹ *ᵥ r := by
    generalize Lᵀ *ᵥ w - L⁻¹ *ᵥ r = u at h1 h2 ⊢
    generalize Lᵀ *ᵥ w' - L⁻¹ *ᵥ r = u' at h1 h2 ⊢
    have h4 := dot_self_nonneg (u - u')
    simp only [smul_dotProduct, dotProduct_smul, add_dotProduct, dotProduct_add, smul_eq_mul] at h1 h2
    have e4 : (u - u') ⬝ᵥ (u - u') = u ⬝ᵥ u - 2 * (u ⬝ᵥ u') + u' ⬝ᵥ u' := by
      rw [sub_dotProduct, dotProduct_sub, dotProduct_sub, dotProduct_comm u' u]; ring
    rw [dotProduct_comm u' u] at h1 h2
    have h5 : (u - u') ⬝ᵥ (u - u') = 0 := le_antisymm (by rw [e4]; linarith) h4
    exact sub_eq_zero.1 (dotProduct_self_eq_zero.1 h5)
  have h4 : Lᵀ *ᵥ w = Lᵀ *ᵥ w' := sub_left_injective h3
  rw [← inv_transpose_mulVec (chol_det h) w, h4, inv_transpose_mulVec (chol_det h)]

theorem fullRank_perm (σ : Equiv.Perm (Fin N)) {F : Matrix (Fin N) (Fin k) ℝ} {A B : Matrix (Fin k) (Fin k) ℝ} (hBA : B * A = 1)
    (hF : FullRank F) : FullRank ((F * A).submatrix σ id) := by
  intro b hb
  rw [trend_perm] at hb
  have h0 : F *ᵥ (A *ᵥ b) = 0 := by
    have := congrArg (fun v => v ∘ σ.symm) hb
    simp only [Function.comp_assoc, Equiv.self_comp_symm, Function.comp_id] at this
    rw [this]; rfl
  have h1 := hF _ h0
  rw [← one_mulVec b, ← hBA, ← mulVec_mulVec, h1, mulVec_zero]

/-- A trend with given coefficients needs no QR decomposition. -/
private theorem aux_given (hc : CholeskyRoutine chol) {R : Matrix (Fin N) (Fin N) ℝ} {F : Matrix (Fin N) (Fin k) ℝ} {beta : Option (Fin k → ℝ)}
    (hq : beta = none → QrRoutine qr) (hF : beta = none → FullRank F) {y : Fin N → ℝ} {a : GpAux N k} (ha : computeAux chol qr R F beta y = some a) :
    IsCholesky R a.L ∧ (∀ b, (∀ b0, beta = some b0 → b = b0) → sumSquares a.rho ≤ sumSquares (a.L⁻¹ *ᵥ (y - F *ᵥ b))) ∧
    (∀ b0, beta = some b0 → gpBeta a beta = b0) ∧ a.L⁻¹ *ᵥ (y - F *ᵥ gpBeta a beta) = a.rho := by
  cases beta with
  | none => exact aux_spec hc (hq rfl) hF ha
  | some b =>
    unfold computeAux at ha
    obtain ⟨L, hL, rfl⟩ := Option.map_eq_some_iff.1 ha
    refine ⟨hc _ _ hL, fun b' hb => ?_, fun b0 hb => Option.some.inj hb, mulVec_sub _ _ _⟩
    rw [hb b rfl, mulVec_sub]

/-- Predictions do not depend on the order of the observations and on the basis of the trend. -/
theorem predict_perm (hc : CholeskyRoutine chol) (hcc : CompleteCholesky chol)  (σ : Equiv.Perm (Fin N))
    {A B : Matrix (Fin k) (Fin k) ℝ} (hAB : A * B = 1) (mode : GpMode) (R0 : Matrix (Fin N) (Fin N) ℝ) (F : Matrix (Fin N) (Fin k) ℝ)
    (beta : Option (Fin k → ℝ)) (hq : beta = none → QrRoutine qr) (hF : beta = none → FullRank F) (sigma2 : ℝ) (y : Fin N → ℝ) (f : Fin k → ℝ) (r : Fin N → ℝ) :
    gpPredict chol qr mode (R0.submatrix σ σ) ((F * A).submatrix σ id) (beta.map (B *ᵥ ·)) sigma2 (y ∘ σ) (Aᵀ *ᵥ f) (r ∘ σ) =
      gpPredict chol qr mode R0 F beta sigma2 y f r := by
  have hBA : B * A = 1 := mul_eq_one_comm.1 hAB
  cases hL : chol (gpMatrix mode R0) with
  | none =>
    have hL' : chol (gpMatrix mode (R0.submatrix σ σ)) = none := by
      rw [gpMatrix_perm]; exact chol_perm_iff hc hcc σ hL
    unfold gpPredict computeAux
    rw [hL, hL']
    rfl
  | some L =>
    obtain ⟨L', hL'0⟩ := chol_perm hc hcc σ hL
    have hL' : chol (gpMatrix mode (R0.submatrix σ σ)) = some L' := by rw [gpMatrix_perm]; exact hL'0
    have hC' : IsCholesky ((gpMatrix mode R0).submatrix σ σ) L' := hc _ _ hL'0
    have hback : ∀ v : Fin N → ℝ, v = (v ∘ σ.symm) ∘ σ := fun v => by
      rw [Function.comp_assoc, Equiv.symm_comp_self, Function.comp_id]
    cases beta with
    | none =>
      obtain ⟨w, hw, hun, hopt⟩ := predict_none (mode := mode) (R0 := R0) hc (hq rfl) (hF rfl) hL sigma2 f r
      obtain ⟨w', hw', hun', hopt'⟩ := predict_none (mode := mode) (R0 := R0.submatrix σ σ) hc (hq rfl) (fullRank_perm σ hBA (hF rfl)) hL' sigma2
        (Aᵀ *ᵥ f) (r ∘ σ)
      rw [gpMatrix_perm] at hopt'
      have hu1 : ((F * A).submatrix σ id)ᵀ *ᵥ (w ∘ σ) = Aᵀ *ᵥ f := by rw [trend_weights_perm, hun]
      have hww : w' = w ∘ σ := by
        refine best_unique hC' hun' hu1 hopt' fun v hv => ?_
        rw [hback v, errVar_perm, errVar_perm]
        refine hopt _ ?_
        rw [hback v, trend_weights_perm] at hv
        have := congrArg (Bᵀ *ᵥ ·) hv
        simpa only [mulVec_mulVec, ← transpose_mul, hAB, Matrix.mul_assoc, transpose_one, one_mulVec,
          Matrix.mul_one] using this
      obtain ⟨a, ha, h1, h2⟩ := hw y
      obtain ⟨a', ha', h1', h2'⟩ := hw' (y ∘ σ)
      simp only [gpPredict, Option.map_none, ha, ha', Option.map_some, h1, h1', gpMse, h2, h2', hww]
      simp only [gpMatrix_perm, errVar_perm, comp_equiv_dotProduct_comp_equiv]
    | some b =>
      obtain ⟨w, hw, -, hopt⟩ := predict_some (qr := qr) (mode := mode) (R0 := R0) (F := F) hc hL b sigma2 f r
      obtain ⟨w', hw', -, hopt'⟩ := predict_some (qr := qr) (mode := mode) (R0 := R0.submatrix σ σ) (F := (F * A).submatrix σ id) hc hL'
        (B *ᵥ b) sigma2 (Aᵀ *ᵥ f) (r ∘ σ)
      rw [gpMatrix_perm] at hopt'
      have hww : w' = w ∘ σ := by
        refine best_unique (k := 0) (F := 0) (f := 0) (r := r ∘ σ) hC' (Subsingleton.elim _ _) (Subsingleton.elim _ _)
          (fun v _ => hopt' v) fun v _ => ?_
        rw [hback v, errVar_perm, errVar_perm]
        exact hopt _
      obtain ⟨a, ha, h1, h2⟩ := hw y
      obtain ⟨a', ha', h1', h2'⟩ := hw' (y ∘ σ)
      have e1 : (Aᵀ *ᵥ f) ⬝ᵥ (B *ᵥ b) = f ⬝ᵥ b := by rw [transpose_dot, mulVec_mulVec, hAB, one_mulVec]
      have e2 : y ∘ σ - (F * A).submatrix σ id *ᵥ (B *ᵥ b) = (y - F *ᵥ b) ∘ σ := by
        rw [trend_perm, mulVec_mulVec b, hAB, one_mulVec]; rfl
      simp only [gpPredict, Option.map_some, ha, ha', h1, h1', gpMse, h2, h2', hww, e1, e2]
      simp only [gpMatrix_perm, errVar_perm, comp_equiv_dotProduct_comp_equiv]

theorem aux_perm (hc : CholeskyRoutine chol)  (σ : Equiv.Perm (Fin N))
    {A B : Matrix (Fin k) (Fin k) ℝ} (hAB : A * B = 1) {R : Matrix (Fin N) (Fin N) ℝ} {F : Matrix (Fin N) (Fin k) ℝ}
    {beta : Option (Fin k → ℝ)} (hq : beta = none → QrRoutine qr) (hF : beta = none → FullRank F) {y : Fin N → ℝ} {a a' : GpAux N k}
    (ha : computeAux chol qr R F beta y = some a)
    (ha' : computeAux chol qr (R.submatrix σ σ) ((F * A).submatrix σ id) (beta.map (B *ᵥ ·)) (y ∘ σ) = some a') :
    sumSquares a'.rho = sumSquares a.rho ∧ twiceLogDiag a'.L = twiceLogDiag a.L := by
  have hBA : B * A = 1 := mul_eq_one_comm.1 hAB
  obtain ⟨hL, hmin, hg, hrho⟩ := aux_given hc hq hF ha
  obtain ⟨hL', hmin', hg', hrho'⟩ := aux_given (F := (F * A).submatrix σ id) hc (fun h => hq (by cases beta <;> simp_all))
    (fun h => fullRank_perm σ hBA (hF (by cases beta <;> simp_all))) ha'
  have hquad : ∀ b, sumSquares (a'.L⁻¹ *ᵥ (y ∘ σ - (F * A).submatrix σ id *ᵥ b)) = sumSquares (a.L⁻¹ *ᵥ (y - F *ᵥ (A *ᵥ b))) := by
    intro b
    have e : y ∘ σ - (F * A).submatrix σ id *ᵥ b = (y - F *ᵥ (A *ᵥ b)) ∘ σ := by rw [trend_perm]; rfl
    rw [e, ← inv_quadratic hL', ← inv_quadratic hL, inv_submatrix_equiv, quad_perm]
  refine ⟨le_antisymm ?_ ?_, ?_⟩
  · have h1 := hmin' (B *ᵥ gpBeta a beta) (fun b0 hb0 => by
      cases beta with
      | none => cases hb0
      | some b =>
        have := Option.some.inj hb0
        rw [← this, hg b rfl])
    rwa [hquad, mulVec_mulVec _ A, hAB, one_mulVec, hrho] at h1
  · have h1 := hmin (A *ᵥ gpBeta a' (beta.map (B *ᵥ ·))) (fun b0 hb0 => by
      subst hb0
      rw [hg' (B *ᵥ b0) rfl, mulVec_mulVec, hAB, one_mulVec])
    rwa [← hquad, hrho'] at h1
  · rw [← (log_det_chol hL').1, ← (log_det_chol hL).1, det_submatrix_equiv_self]

private theorem computeAux_isSome (R : Matrix (Fin N) (Fin N) ℝ) (F : Matrix (Fin N) (Fin k) ℝ) (beta : Option (Fin k → ℝ)) (y : Fin N → ℝ) :
    (computeAux chol qr R F beta y).isSome = (chol R).isSome := by
  unfold computeAux
  rw [Option.isSome_map]

theorem aux_perm_some (hc : CholeskyRoutine chol) (hcc : CompleteCholesky chol) (σ : Equiv.Perm (Fin N)) {R : Matrix (Fin N) (Fin N) ℝ}
    (F F' : Matrix (Fin N) (Fin k) ℝ) (beta beta' : Option (Fin k → ℝ)) (y y' : Fin N → ℝ) :
    (computeAux chol qr (R.submatrix σ σ) F' beta' y').isSome = (computeAux chol qr R F beta y).isSome := by
  rw [computeAux_isSome, computeAux_isSome]
  cases hL : chol R with
  | none => rw [chol_perm_iff hc hcc σ hL]
  | some L => obtain ⟨L', h⟩ := chol_perm hc hcc σ hL; rw [h]; rfl

/-- What the search for the hyper-parameters sees: the likelihood, the variance of the process and the variance of the noise. -/
theorem llf_perm (hc : CholeskyRoutine chol) (hcc : CompleteCholesky chol)  (σ : Equiv.Perm (Fin N))
    {A B : Matrix (Fin k) (Fin k) ℝ} (hAB : A * B = 1) (mode : GpMode) (R0 : Matrix (Fin N) (Fin N) ℝ) (F : Matrix (Fin N) (Fin k) ℝ)
    (beta : Option (Fin k → ℝ)) (hq : beta = none → QrRoutine qr) (hF : beta = none → FullRank F) (y : Fin N → ℝ) :
    (llfConcentrated chol qr mode (R0.submatrix σ σ) ((F * A).submatrix σ id) (beta.map (B *ᵥ ·)) (y ∘ σ)).map
        (fun q => (q.1, q.2.sigma2, q.2.noiseVar)) =
      (llfConcentrated chol qr mode R0 F beta y).map (fun q => (q.1, q.2.sigma2, q.2.noiseVar)) := by
  have hs : (computeAux chol qr ((gpMatrix mode R0).submatrix σ σ) ((F * A).submatrix σ id) (beta.map (B *ᵥ ·)) (y ∘ σ)).isSome =
      (computeAux chol qr (gpMatrix mode R0) F beta y).isSome := aux_perm_some hc hcc σ _ _ _ _ _ _
  have hr : trendRank k (beta.map (B *ᵥ ·)) = trendRank k beta := by cases beta <;> rfl
  cases ha : computeAux chol qr (gpMatrix mode R0) F beta y with
  | none =>
    rw [ha] at hs
    have ha' := Option.not_isSome_iff_eq_none.1 (by rw [hs]; simp)
    cases mode <;>
      simp only [gpMatrix] at ha <;>
      simp only [llfConcentrated, llfNoiseless, llfNoiseEstim, llfNoisy, gpMatrix_perm] <;>
      simp only [gpMatrix] at ha' ⊢ <;> simp only [ha, ha'] <;> rfl
  | some a =>
    rw [ha] at hs
    obtain ⟨a', ha'⟩ := Option.isSome_iff_exists.1 (hs.trans rfl)
    obtain ⟨e1, e2⟩ := aux_perm hc σ hAB hq hF ha ha'
    cases mode <;>
      simp only [gpMatrix] at ha <;>
      simp only [llfConcentrated, llfNoiseless, llfNoiseEstim, llfNoisy, gpMatrix_perm] <;>
      simp only [gpMatrix] at ha' ⊢ <;>
      simp only [ha, ha', Option.bind_some, Option.map_some, e1, e2, rejectPositive, hr] <;>
      split_ifs <;> simp only [Option.bind_some, Option.bind_none, Option.map_none, Option.map_some] <;>
      split_ifs <;> rfl

end Verif.Proofs
