import Verif.Spec.Cholesky

/-! # C33: the Cholesky factor and its inverse -/
namespace Verif.Props
open Matrix Verif.Model Verif.Spec

variable {n : ℕ}

private theorem ca_pos {par : CholPar} (h : RatesOk par) (rate : ℝ) : 0 < caOf par rate := by
  obtain ⟨h1, h2, h3, h4⟩ := h
  unfold caOf
  split
  · linarith
  · have : 0 ≤ par.ccov * par.cc * (2 - par.cc) := mul_nonneg (mul_nonneg h1.le h3) (by linarith)
    linarith

private theorem sum_sq_eq (w : Fin n → ℝ) : ∑ i, w i ^ 2 = w ⬝ᵥ w := by
  simp [dotProduct, sq]

private theorem update_core (A B : Matrix (Fin n) (Fin n) ℝ) (hAB : A * B = 1) (pc : Fin n → ℝ) (ca cb : ℝ)
    (hca : 0 < ca) (hcb : 0 ≤ cb) (hL : ∑ i, (B *ᵥ pc) i ^ 2 ≠ 0) :
    let w := B *ᵥ pc
    let L := ∑ i, w i ^ 2
    let A' := Real.sqrt ca • (A + ((Real.sqrt (1 + L * cb / ca) - 1) / L) • vecMulVec pc w)
    let B' := (1 / Real.sqrt ca) • (B - ((1 - 1 / Real.sqrt (1 + L * cb / ca)) / L) • vecMulVec w (w ᵥ* B))
    A' * B' = 1 ∧ A' * A'ᵀ = ca • (A * Aᵀ) + cb • vecMulVec pc pc := by
  intro w L A' B'
  have hLpos : 0 < L := lt_of_le_of_ne (Finset.sum_nonneg (fun i _ => sq_nonneg _)) (Ne.symm hL)
  have hAw : A *ᵥ w = pc := by
    simp only [w]
    rw [Matrix.mulVec_mulVec, hAB, Matrix.one_mulVec]
  have hww : w ⬝ᵥ w = L := (sum_sq_eq w).symm
  set q := Real.sqrt (1 + L * cb / ca) with hq
  have hrad : 1 ≤ 1 + L * cb / ca := by
    have : 0 ≤ L * cb / ca := div_nonneg (mul_nonneg hLpos.le hcb) hca.le
    linarith
  have hq1 : 1 ≤ q := by
    rw [hq]
    exact Real.one_le_sqrt.mpr hrad
  have hqq : q * q = 1 + L * cb / ca := Real.mul_self_sqrt (by linarith)
  have hsc : Real.sqrt ca * Real.sqrt ca = ca := Real.mul_self_sqrt hca.le
  have hsc0 : Real.sqrt ca ≠ 0 := (Real.sqrt_pos.mpr hca).ne'
  set a := (q - 1) / L with ha
  set b := (1 - 1 / q) / L with hb
  have hab : a - b - a * b * L = 0 := by
    have hq0 : q ≠ 0 := by linarith
    rw [ha, hb]
    field_simp
    ring
  constructor
  · have e1 : A * vecMulVec w (w ᵥ* B) = vecMulVec pc (w ᵥ* B) := by
      rw [Matrix.mul_vecMulVec, hAw]
    have e2 : vecMulVec pc w * B = vecMulVec pc (w ᵥ* B) := by
      rw [Matrix.vecMulVec_mul]
    have e3 : vecMulVec pc w * vecMulVec w (w ᵥ* B) = L • vecMulVec pc (w ᵥ* B) := by
      rw [Matrix.vecMulVec_mul_vecMulVec, hww]
      ext i j
      simp [vecMulVec_apply]
      ring
    show (Real.sqrt ca • (A + a • vecMulVec pc w)) * ((1 / Real.sqrt ca) • (B - b • vecMulVec w (w ᵥ* B))) = 1
    rw [Matrix.smul_mul, Matrix.mul_smul, smul_smul, mul_one_div_cancel hsc0, one_smul, Matrix.add_mul, Matrix.mul_sub,
      Matrix.mul_sub, Matrix.mul_smul, Matrix.smul_mul, Matrix.smul_mul, Matrix.mul_smul, e1, e2, e3, hAB]
    have : (1 : Matrix (Fin n) (Fin n) ℝ) - b • vecMulVec pc (w ᵥ* B) +
        (a • vecMulVec pc (w ᵥ* B) - a • b • L • vecMulVec pc (w ᵥ* B)) =
        1 + (a - b - a * b * L) • vecMulVec pc (w ᵥ* B) := by
      simp only [sub_smul, smul_smul, mul_assoc]
      abel
    rw [this, hab, zero_smul, add_zero]
  · have hT : (vecMulVec pc w)ᵀ = vecMulVec w pc := Matrix.transpose_vecMulVec pc w
    have e1 : A * vecMulVec w pc = vecMulVec pc pc := by
      rw [Matrix.mul_vecMulVec, hAw]
    have e2 : vecMulVec pc w * Aᵀ = vecMulVec pc pc := by
      rw [Matrix.vecMulVec_mul, Matrix.vecMul_transpose, hAw]
    have e3 : vecMulVec pc w * vecMulVec w pc = L • vecMulVec pc pc := by
      rw [Matrix.vecMulVec_mul_vecMulVec, hww]
      ext i j
      simp [vecMulVec_apply]
      ring
    have hk : 2 * a + a * a * L = cb / ca := by
      have : (a * L + 1) = q := by rw [ha]; field_simp; ring
      have h2 : (a * L + 1) * (a * L + 1) = 1 + L * cb / ca := by rw [this, hqq]
      have h3 : L * (2 * a + a * a * L) = L * (cb / ca) := by
        have : L * (2 * a + a * a * L) = (a * L + 1) * (a * L + 1) - 1 := by ring
        rw [this, h2]; ring
      exact mul_left_cancel₀ hLpos.ne' h3
    show (Real.sqrt ca • (A + a • vecMulVec pc w)) * (Real.sqrt ca • (A + a • vecMulVec pc w))ᵀ = _
    rw [Matrix.transpose_smul, Matrix.smul_mul, Matrix.mul_smul, smul_smul, hsc, Matrix.transpose_add,
      Matrix.transpose_smul, hT, Matrix.add_mul, Matrix.mul_add, Matrix.mul_add, Matrix.mul_smul, Matrix.smul_mul,
      Matrix.smul_mul, Matrix.mul_smul, e1, e2, e3]
    have : A * Aᵀ + a • vecMulVec pc pc + (a • vecMulVec pc pc + a • a • L • vecMulVec pc pc) =
        A * Aᵀ + (2 * a + a * a * L) • vecMulVec pc pc := by
      simp only [add_smul, two_mul, smul_smul, mul_assoc]
      abel
    rw [this, hk, smul_add, smul_smul, mul_div_cancel₀ _ hca.ne']

private theorem covStep_eq (par : CholPar) (rate : ℝ) (z pc : Fin n → ℝ) (C : Matrix (Fin n) (Fin n) ℝ) :
    covStep par C pc (rate, z) = (caOf par rate • C +
      par.ccov • vecMulVec (pathUpdate par rate pc z) (pathUpdate par rate pc z), pathUpdate par rate pc z) := by
  unfold covStep caOf pathUpdate
  dsimp only
  split
  · rfl
  · refine Prod.ext ?_ rfl
    dsimp only
    ext i j
    simp only [Matrix.add_apply, Matrix.smul_apply, smul_eq_mul]
    ring

/-- C33, partial (no reset in between, see `c33_reset_breaks_inverse`): one update with a non-zero path keeps the two
matrices inverse to each other, and covariance and path change as prescribed. -/
theorem c33_update_partial (par : CholPar) (hr : RatesOk par) (rate : ℝ) (z : Fin n → ℝ) (s : CholState n)
    (hs : Inverses s) (hp : (covStep par (covariance s) s.pc (rate, z)).2 ≠ 0) :
    ∃ s', cholUpdate par rate z s = some s' ∧ Inverses s' ∧
      (covariance s', s'.pc) = covStep par (covariance s) s.pc (rate, z) := by
  rw [covStep_eq] at hp ⊢
  dsimp only at hp
  have hL : ∑ i, (s.Ainv *ᵥ pathUpdate par rate s.pc z) i ^ 2 ≠ 0 := by
    intro h0
    have h0 : s.Ainv *ᵥ pathUpdate par rate s.pc z = 0 := by
      rw [Finset.sum_eq_zero_iff_of_nonneg (fun i _ => sq_nonneg _)] at h0
      funext i
      exact pow_eq_zero_iff two_ne_zero |>.mp (h0 i (Finset.mem_univ i))
    apply hp
    rw [← Matrix.one_mulVec (pathUpdate par rate s.pc z), ← hs.1, ← Matrix.mulVec_mulVec, h0, Matrix.mulVec_zero]
  obtain ⟨h1, h2⟩ := update_core s.A s.Ainv hs.1 (pathUpdate par rate s.pc z) (caOf par rate) par.ccov
    (ca_pos hr rate) hr.1.le hL
  cases hu : cholUpdate par rate z s with
  | none =>
    unfold cholUpdate at hu
    rw [if_neg hL] at hu
    cases hu
  | some s' =>
    unfold cholUpdate at hu
    rw [if_neg hL] at hu
    obtain rfl := Option.some.inj hu
    exact ⟨_, rfl, ⟨h1, mul_eq_one_comm.mp h1⟩, Prod.ext h2 rfl⟩

/-- A sequence of updates without resets, none of which makes the path vanish. -/
def GoodUpdates (par : CholPar) : List (ℝ × (Fin n → ℝ)) → (Fin n → ℝ) → Prop
  | [], _ => True
  | e :: l, pc => (covStep par 1 pc e).2 ≠ 0 ∧ GoodUpdates par l (covStep par 1 pc e).2

private theorem covStep_path (par : CholPar) (C D : Matrix (Fin n) (Fin n) ℝ) (pc : Fin n → ℝ) (e : ℝ × (Fin n → ℝ)) :
    (covStep par C pc e).2 = (covStep par D pc e).2 := by
  unfold covStep
  split <;> rfl

/-- C33, partial: from the initial state, after any number of updates (in any dimension, with any success rates and steps)
that keep the path non-zero, the matrices are inverse to each other and the covariance `A Aᵀ` and the path
are the result of the prescribed recursion. -/
theorem c33_run_partial (par : CholPar) (hr : RatesOk par) (l : List (ℝ × (Fin n → ℝ)))
    (hl : GoodUpdates par l 0) :
    ∃ s, cholRun par (l.map (fun e => .update e.1 e.2)) (cholInit n) = some s ∧ Inverses s ∧
      (covariance s, s.pc) = l.foldl (fun Cp e => covStep par Cp.1 Cp.2 e) (1, 0) := by
  have key : ∀ (l : List (ℝ × (Fin n → ℝ))) (s0 : CholState n), Inverses s0 → GoodUpdates par l s0.pc →
      ∃ s, cholRun par (l.map (fun e => .update e.1 e.2)) s0 = some s ∧ Inverses s ∧
        (covariance s, s.pc) = l.foldl (fun Cp e => covStep par Cp.1 Cp.2 e) (covariance s0, s0.pc) := by
    intro l
    induction l with
    | nil => intro s0 h0 _; exact ⟨s0, rfl, h0, rfl⟩
    | cons e l ih =>
      intro s0 h0 hg
      obtain ⟨s1, h1, h2, h3⟩ := c33_update_partial par hr e.1 e.2 s0 h0
        (by rw [covStep_path par _ 1]; exact hg.1)
      have h4 : s1.pc = (covStep par 1 s0.pc e).2 := by
        rw [covStep_path par 1 (covariance s0)]
        exact congrArg Prod.snd h3
      obtain ⟨s, h5, h6, h7⟩ := ih s1 h2 (by rw [h4]; exact hg.2)
      refine ⟨s, ?_, h6, ?_⟩
      · simp only [List.map_cons, cholRun, h1, Option.bind_some]
        exact h5
      · rw [h7, List.foldl_cons, h3]
  obtain ⟨s, h1, h2, h3⟩ := key l (cholInit n) ⟨by simp [cholInit], by simp [cholInit]⟩ hl
  exact ⟨s, h1, h2, by simpa [covariance, cholInit] using h3⟩

private theorem mirror_of_symm {C : Matrix (Fin n) (Fin n) ℝ} (h : Cᵀ = C) : mirror C = C := by
  ext i j
  unfold mirror
  split
  · rfl
  · exact congrFun (congrFun h i) j

private theorem symm_comb (a b : ℝ) {C : Matrix (Fin n) (Fin n) ℝ} (h : Cᵀ = C) (p : Fin n → ℝ) :
    (a • C + b • vecMulVec p p)ᵀ = a • C + b • vecMulVec p p := by
  rw [Matrix.transpose_add, Matrix.transpose_smul, Matrix.transpose_smul, h, Matrix.transpose_vecMulVec]

private theorem base_eq (par : CholPar) (rate : ℝ) (z pc : Fin n → ℝ) {C : Matrix (Fin n) (Fin n) ℝ} (h : Cᵀ = C) :
    baseCovUpdate par rate z (C, pc) = covStep par C pc (rate, z) ∧ (baseCovUpdate par rate z (C, pc)).1ᵀ =
      (baseCovUpdate par rate z (C, pc)).1 := by
  have e : baseCovUpdate par rate z (C, pc) = covStep par C pc (rate, z) := by
    unfold baseCovUpdate covStep
    dsimp only
    split
    · rw [mirror_of_symm (symm_comb _ _ h _)]
    · rw [mirror_of_symm (symm_comb _ _ h _)]
      refine Prod.ext ?_ rfl
      dsimp only
      ext i j
      simp only [Matrix.add_apply, Matrix.smul_apply, smul_eq_mul]
      ring
  refine ⟨e, ?_⟩
  rw [e, covStep_eq]
  exact symm_comb _ _ h _

/-- C65, partial (as long as the path does not vanish and nothing is reset): fed with the same success rates and steps, the
Cholesky variant represents exactly the covariance matrix and path that the base class stores, after any number of updates. -/
theorem c65_same_covariance_partial (par : CholPar) (hr : RatesOk par) (l : List (ℝ × (Fin n → ℝ)))
    (hl : GoodUpdates par l 0) :
    ∃ s, cholRun par (l.map (fun e => .update e.1 e.2)) (cholInit n) = some s ∧
      (covariance s, s.pc) = l.foldl (fun Cp e => baseCovUpdate par e.1 e.2 Cp) (1, 0) := by
  obtain ⟨s, h1, -, h3⟩ := c33_run_partial par hr l hl
  refine ⟨s, h1, ?_⟩
  rw [h3]
  have key : ∀ (l : List (ℝ × (Fin n → ℝ))) (C : Matrix (Fin n) (Fin n) ℝ) (pc : Fin n → ℝ), Cᵀ = C →
      l.foldl (fun Cp e => covStep par Cp.1 Cp.2 e) (C, pc) =
      l.foldl (fun Cp e => baseCovUpdate par e.1 e.2 Cp) (C, pc) := by
    intro l
    induction l with
    | nil => intro C pc _; rfl
    | cons e l ih =>
      intro C pc hC
      obtain ⟨h1, h2⟩ := base_eq par e.1 e.2 pc hC
      rw [List.foldl_cons, List.foldl_cons, ← h1]
      exact ih _ _ h2
  exact key l 1 0 Matrix.transpose_one

/-- C65: the covariance of the base class stays symmetric for every sequence of updates, and positive semidefinite:
it never gives a direction a negative variance. -/
theorem c65_base_symmetric (par : CholPar) (hr : RatesOk par) (l : List (ℝ × (Fin n → ℝ))) :
    let C := (l.foldl (fun Cp e => baseCovUpdate par e.1 e.2 Cp) ((1 : Matrix (Fin n) (Fin n) ℝ), 0)).1
    Cᵀ = C ∧ ∀ v : Fin n → ℝ, v ≠ 0 → 0 < v ⬝ᵥ (C *ᵥ v) := by
  have key : ∀ (l : List (ℝ × (Fin n → ℝ))) (C : Matrix (Fin n) (Fin n) ℝ) (pc : Fin n → ℝ), Cᵀ = C →
      (∀ v : Fin n → ℝ, v ≠ 0 → 0 < v ⬝ᵥ (C *ᵥ v)) →
      (l.foldl (fun Cp e => baseCovUpdate par e.1 e.2 Cp) (C, pc)).1ᵀ =
        (l.foldl (fun Cp e => baseCovUpdate par e.1 e.2 Cp) (C, pc)).1 ∧
      ∀ v : Fin n → ℝ, v ≠ 0 → 0 < v ⬝ᵥ ((l.foldl (fun Cp e => baseCovUpdate par e.1 e.2 Cp) (C, pc)).1 *ᵥ v) := by
    intro l
    induction l with
    | nil => intro C pc h1 h2; exact ⟨h1, h2⟩
    | cons e l ih =>
      intro C pc hC hpos
      obtain ⟨h1, h2⟩ := base_eq par e.1 e.2 pc hC
      rw [List.foldl_cons]
      refine ih (baseCovUpdate par e.1 e.2 (C, pc)).1 (baseCovUpdate par e.1 e.2 (C, pc)).2 h2 ?_
      rw [h1, covStep_eq]
      intro v hv
      simp only [Matrix.add_mulVec, Matrix.smul_mulVec, dotProduct_add, dotProduct_smul, smul_eq_mul]
      have hp : v ⬝ᵥ (vecMulVec (pathUpdate par e.1 pc e.2) (pathUpdate par e.1 pc e.2) *ᵥ v) =
          (pathUpdate par e.1 pc e.2 ⬝ᵥ v) ^ 2 := by
        rw [Matrix.vecMulVec_mulVec, dotProduct_smul, dotProduct_comm v]
        simp [sq]
      rw [hp]
      have := mul_pos (ca_pos hr e.1) (hpos v hv)
      have h3 := mul_nonneg hr.1.le (sq_nonneg (pathUpdate par e.1 pc e.2 ⬝ᵥ v))
      linarith
  refine key l 1 0 Matrix.transpose_one ?_
  intro v hv
  rw [Matrix.one_mulVec, ← sum_sq_eq]
  obtain ⟨i, hi⟩ := Function.ne_iff.mp hv
  exact Finset.sum_pos' (fun i _ => sq_nonneg _) ⟨i, Finset.mem_univ i, by
    have : v i ≠ 0 := hi
    positivity⟩

/-- The default learning rates are admissible, in every dimension. -/
theorem c33_default_rates (n : ℕ) : RatesOk (CholPar.default n) := by
  have h0 : (0 : ℝ) ≤ n := Nat.cast_nonneg n
  have h1 : (0 : ℝ) < (n : ℝ) ^ 2 + 6 := by positivity
  have h2 : (0 : ℝ) < (n : ℝ) + 2 := by positivity
  refine ⟨div_pos two_pos h1, ?_, (div_pos two_pos h2).le, ?_⟩
  · simp only [CholPar.default]
    rw [div_lt_one h1]
    nlinarith
  · simp only [CholPar.default]
    rw [div_le_iff₀ h2]
    linarith

/-- C33: if the path is zero (a step that does not move, with a zero path), all entries become NaN. -/
theorem c33_zero_path_nan (par : CholPar) (rate : ℝ) : cholUpdate par rate 0 (cholInit n) = none := by
  unfold cholUpdate
  simp [cholInit, pathUpdate]

/-- C33 refuted: a reset (step size out of range, or restart) replaces the factor by the identity but keeps the old inverse.
In dimension one with the default rates, after one ordinary update and a reset the two matrices are not inverse to each
other. -/
theorem c33_reset_breaks_inverse :
    ∃ (rate : ℝ) (z : Fin 1 → ℝ) (s : CholState 1),
      cholRun (CholPar.default 1) [.update rate z] (cholInit 1) = some s ∧ Inverses s ∧
      ∃ s', cholRun (CholPar.default 1) [.update rate z, .reset] (cholInit 1) = some s' ∧ ¬ Inverses s' := by
  have hcoeff : (CholPar.default 1).cc * (2 - (CholPar.default 1).cc) = 8 / 9 := by
    norm_num [CholPar.default]
  have hs : Real.sqrt (8 / 9) ≠ 0 := (Real.sqrt_pos.mpr (by norm_num)).ne'
  have hp : pathUpdate (CholPar.default 1) 0 (cholInit 1).pc (fun _ => 2 / Real.sqrt (8 / 9)) = fun _ => 2 := by
    unfold pathUpdate
    rw [if_pos (by norm_num [CholPar.default]), hcoeff]
    funext i
    simp only [cholInit, Pi.add_apply, Pi.smul_apply, Pi.zero_apply, smul_eq_mul, mul_zero, zero_add]
    field_simp
  have hne : (covStep (CholPar.default 1) (covariance (cholInit 1)) (cholInit 1).pc
      (0, fun _ => 2 / Real.sqrt (8 / 9))).2 ≠ 0 := by
    rw [covStep_eq, hp]
    intro h
    have := congrFun h 0
    norm_num at this
  obtain ⟨s, h1, h2, h3⟩ := c33_update_partial (CholPar.default 1) (c33_default_rates 1) 0
    (fun _ => 2 / Real.sqrt (8 / 9)) (cholInit 1) ⟨by simp [cholInit], by simp [cholInit]⟩ hne
  refine ⟨0, fun _ => 2 / Real.sqrt (8 / 9), s, by simp only [cholRun, h1, Option.bind_some], h2, cholReset s,
    by simp only [cholRun, h1, Option.bind_some], ?_⟩
  rintro ⟨h5, -⟩
  have hinv : s.Ainv = 1 := by simpa [cholReset] using h5
  have hA : s.A = 1 := by simpa [hinv] using h2.1
  rw [covStep_eq, hp] at h3
  have h6 := congrFun (congrFun (congrArg Prod.fst h3) 0) 0
  simp [covariance, hA, cholInit, vecMulVec_apply, caOf, CholPar.default] at h6
  norm_num at h6

/-- The hypotheses of `c33_run_partial` hold for the default rates and any single non-zero step. -/
example (z : Fin 3 → ℝ) (hz : z ≠ 0) : GoodUpdates (CholPar.default 3) [(0, z)] 0 := by
  refine ⟨?_, trivial⟩
  unfold covStep
  rw [if_pos (by norm_num [CholPar.default])]
  dsimp only
  rw [smul_zero, zero_add]
  refine smul_ne_zero ?_ hz
  exact (Real.sqrt_pos.mpr (by norm_num [CholPar.default])).ne'

end Verif.Props
