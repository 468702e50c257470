import Verif.Spec.OnePlusOneFrame
import Verif.Props.OnePlusOneFull

/-!
# C173: the (1+1)-CMA-ES in other coordinates
-/
namespace Verif.Props

open Matrix Verif.Model Verif.Spec Verif.Proofs

variable {n : ℕ} {cfg : OpoCfg n} {g u u' : ℕ → Fin n → ℝ} {x0 : Fin n → ℝ} {r : ℤ} {F : Rigid n} {vars : Fin n → RealVar}

/-! ### One step -/

private theorem orth' (F : Rigid n) : F.Q * F.Qᵀ = 1 := mul_eq_one_comm.1 F.orthogonal

private theorem back_map (F : Rigid n) (x : Fin n → ℝ) : F.back (F.map x) = x := by
  unfold Rigid.back Rigid.map
  rw [add_sub_cancel_right, mulVec_mulVec, F.orthogonal, one_mulVec]

private theorem dot_turn (F : Rigid n) (v w : Fin n → ℝ) : (F.Q *ᵥ v) ⬝ᵥ (F.Q *ᵥ w) = v ⬝ᵥ w := by
  rw [dotProduct_mulVec, vecMul_mulVec, F.orthogonal, vecMul_one]

private theorem sq_turn (F : Rigid n) (v : Fin n → ℝ) : ∑ i, (F.Q *ᵥ v) i ^ 2 = ∑ i, v i ^ 2 := by
  have := dot_turn F v v
  simpa [dotProduct, sq] using this

private theorem dist_turn (F : Rigid n) (x y : Fin n → ℝ) : opoDist (F.map x) (F.map y) = opoDist x y := by
  unfold opoDist
  congr 1
  have h : ∀ i, F.map x i - F.map y i = (F.Q *ᵥ (x - y)) i := by
    intro i
    rw [mulVec_sub]
    simp [Rigid.map]
  simp only [h]
  rw [sq_turn]
  rfl

private theorem mutant_turn (F : Rigid n) (s : OpoState n) (a : Fin n → ℝ) : opoMutant (F.state s) (F.Q *ᵥ a) = F.map (opoMutant s a) := by
  have h : (F.Q * s.chol.A * F.Qᵀ) *ᵥ (F.Q *ᵥ a) = F.Q *ᵥ (s.chol.A *ᵥ a) := by
    rw [mulVec_mulVec, Matrix.mul_assoc, F.orthogonal, Matrix.mul_one, mulVec_mulVec]
  have h2 : opoMutant s a = s.x + s.sigma • (s.chol.A *ᵥ a) := by funext i; rfl
  funext i
  rw [h2]
  unfold opoMutant Rigid.state Rigid.matrices Rigid.map
  simp only [h]
  rw [mulVec_add, mulVec_smul]
  simp only [Pi.add_apply, Pi.smul_apply, smul_eq_mul]
  ring

private theorem path_turn (F : Rigid n) (par : CholPar) (rate : ℝ) (pc z : Fin n → ℝ) :
    pathUpdate par rate (F.Q *ᵥ pc) (F.Q *ᵥ z) = F.Q *ᵥ pathUpdate par rate pc z := by
  unfold pathUpdate
  split_ifs <;> simp [mulVec_add, mulVec_smul]

private theorem outer_turn (F : Rigid n) (v w : Fin n → ℝ) : vecMulVec (F.Q *ᵥ v) (F.Q *ᵥ w) = F.Q * vecMulVec v w * F.Qᵀ := by
  rw [mul_vecMulVec, vecMulVec_mul, vecMul_transpose]

private theorem chol_turn (F : Rigid n) (par : CholPar) (rate : ℝ) (z : Fin n → ℝ) (c : CholState n) :
    cholUpdate par rate (F.Q *ᵥ z) (F.matrices c) = (cholUpdate par rate z c).map F.matrices := by
  have hw : (F.Q * c.Ainv * F.Qᵀ) *ᵥ (F.Q *ᵥ pathUpdate par rate c.pc z) = F.Q *ᵥ (c.Ainv *ᵥ pathUpdate par rate c.pc z) := by
    rw [mulVec_mulVec, Matrix.mul_assoc, F.orthogonal, Matrix.mul_one, mulVec_mulVec]
  have hw_ : ∀ w : Fin n → ℝ, (F.Q *ᵥ w) ᵥ* (F.Q * c.Ainv * F.Qᵀ) = F.Q *ᵥ (w ᵥ* c.Ainv) := by
    intro w
    rw [← vecMul_vecMul, ← vecMul_vecMul, vecMul_mulVec, F.orthogonal, vecMul_one, vecMul_transpose]
  unfold cholUpdate
  dsimp only [Rigid.matrices]
  rw [path_turn, hw, hw_, sq_turn]
  by_cases hL : ∑ i, (c.Ainv *ᵥ pathUpdate par rate c.pc z) i ^ 2 = 0
  · rw [if_pos hL, if_pos hL, Option.map_none]
  · rw [if_neg hL, if_neg hL, Option.map_some, outer_turn, outer_turn]
    congr 2
    · simp only [Matrix.mul_smul, Matrix.smul_mul, Matrix.mul_add, Matrix.add_mul]
    · simp only [Matrix.mul_smul, Matrix.smul_mul, Matrix.mul_sub, Matrix.sub_mul]

private theorem reset_turn (F : Rigid n) (c : CholState n) : cholReset (F.matrices c) = F.matrices (cholReset c) := by
  unfold cholReset Rigid.matrices
  simp [orth' F]

private theorem tell_turn (F : Rigid n) (s : OpoState n) (x : Fin n → ℝ) (y pen : ℝ) :
    opoTell (F.problem vars cfg) (F.state s) (F.map x) y pen = (opoTell cfg s x y pen).map F.state := by
  unfold opoTell
  by_cases hst : s.stop = true
  · rw [if_pos hst, if_pos (show (F.state s).stop = true from hst), Option.map_some]
  · rw [if_neg hst, if_neg (show ¬ (F.state s).stop = true from hst)]
    have hz : (fun i => (F.map x i - (F.state s).x i) / (F.state s).sigma) = F.Q *ᵥ (fun i => (x i - s.x i) / s.sigma) := by
      have h2 : (fun i => (x i - s.x i) / s.sigma) = (1 / s.sigma) • (x - s.x) := by
        funext i
        simp only [Pi.smul_apply, Pi.sub_apply, smul_eq_mul]
        ring
      rw [h2, mulVec_smul, mulVec_sub]
      funext i
      simp only [Rigid.map, Rigid.state, Pi.smul_apply, Pi.sub_apply, Pi.add_apply, smul_eq_mul]
      ring
    have hd : opoDist (F.state s).x (F.map x) = opoDist s.x x := dist_turn F _ _
    have key : ∀ (P R : Prop) (D : Decidable (P ∧ pen = 0)) (t : ℝ) (d : ℝ) (zz : Fin n → ℝ),
        (@ite _ P (Classical.propDecidable P) (cholUpdate cfg.par t (F.Q *ᵥ zz) (F.matrices s.chol)) (some (F.matrices s.chol))).map (fun chol => ({ F.state s with
          rate := t
          deltaF := s.deltaF * 0.9 + (@ite _ P (Classical.propDecidable P) ((1 - 0.9) * |s.fpen - (y + pen)|) 0)
          deltaX := s.deltaX * 0.9 + (@ite _ P (Classical.propDecidable P) ((1 - 0.9) * d) 0)
          fpen := @ite _ P (Classical.propDecidable P) (y + pen) s.fpen
          x := @ite _ P (Classical.propDecidable P) (F.map x) (F.map s.x)
          xopt := @ite _ (P ∧ pen = 0) D (F.map x) (F.map s.xopt)
          fopt := @ite _ (P ∧ pen = 0) D y s.fopt
          sigma := @ite _ R (Classical.propDecidable R) cfg.stag.sigma0 (stagSigma cfg.stag t s.sigma)
          chol := @ite _ R (Classical.propDecidable R) (cholReset chol) chol
          iterCount := s.iterCount + 1 } : OpoState n)) =
        ((@ite _ P (Classical.propDecidable P) (cholUpdate cfg.par t zz s.chol) (some s.chol)).map (fun chol => ({ s with
          rate := t
          deltaF := s.deltaF * 0.9 + (@ite _ P (Classical.propDecidable P) ((1 - 0.9) * |s.fpen - (y + pen)|) 0)
          deltaX := s.deltaX * 0.9 + (@ite _ P (Classical.propDecidable P) ((1 - 0.9) * d) 0)
          fpen := @ite _ P (Classical.propDecidable P) (y + pen) s.fpen
          x := @ite _ P (Classical.propDecidable P) x s.x
          xopt := @ite _ (P ∧ pen = 0) D x s.xopt
          fopt := @ite _ (P ∧ pen = 0) D y s.fopt
          sigma := @ite _ R (Classical.propDecidable R) cfg.stag.sigma0 (stagSigma cfg.stag t s.sigma)
          chol := @ite _ R (Classical.propDecidable R) (cholReset chol) chol
          iterCount := s.iterCount + 1 } : OpoState n))).map F.state := by
      intro P R D t d zz
      rw [Option.map_map]
      by_cases hP : P
      · simp only [hP, if_true, true_and, chol_turn, Option.map_map]
        congr 1
        funext c
        unfold Rigid.state Function.comp
        simp only [reset_turn]
        by_cases h0 : pen = 0 <;> by_cases hR : R <;> simp [h0, hR]
      · simp only [hP, if_false, false_and, Option.map_some, Option.some.injEq]
        unfold Rigid.state Function.comp
        simp only [reset_turn]
        by_cases hR : R <;> simp [hR]
    have := key (cfg.stag.better (y + pen) s.fpen)
      (OutOfRange (stagSigma cfg.stag (stagRate cfg.stag (cfg.stag.better (y + pen) s.fpen) s.rate) s.sigma)) (@instDecidableAnd _ _ (Classical.propDecidable _) _)
      (stagRate cfg.stag (cfg.stag.better (y + pen) s.fpen) s.rate) (opoDist s.x x) (fun i => (x i - s.x i) / s.sigma)
    rw [hz, hd]
    refine Eq.trans ?_ (this.trans ?_)
    · rfl
    · rfl

private theorem evaluate_turn (F : Rigid n) (s : OpoState n) (x : Fin n → ℝ) :
    opoEvaluate (F.problem vars cfg) (F.state s) (F.map x) = (opoEvaluate cfg s x).map F.state := by
  have := tell_turn (vars := vars) (cfg := cfg) F { s with evalCount := s.evalCount + 1 } x (cfg.objective x) (cfg.penalty (s.iterCount + 1) x)
  unfold opoEvaluate
  rw [← this]
  dsimp only [Rigid.problem]
  rw [back_map]
  rfl

private theorem check_turn (F : Rigid n) (s : OpoState n) : opoCheck (F.problem vars cfg) (F.state s) = F.state (opoCheck cfg s) := by
  have h1 : opoFinal (F.problem vars cfg) (F.state s) = opoFinal cfg s := rfl
  have h2 : opoStagnates (F.problem vars cfg) (F.state s) = opoStagnates cfg s := rfl
  have h3 : (F.state s).nRestart = s.nRestart := rfl
  have h4 : (F.state s).dict = s.dict := rfl
  unfold opoCheck
  simp only [h1, h2, h3, h4]
  split_ifs <;> rfl

private theorem restart_turn (F : Rigid n) (s : OpoState n) (a b : Fin n → ℝ)
    (h : s.restartFlag = true → opoSample (F.problem vars cfg) b = F.map (opoSample cfg a)) :
    opoRestart (F.problem vars cfg) b (F.state s) = (opoRestart cfg a s).map F.state := by
  unfold opoRestart
  by_cases hf : s.restartFlag = true
  · rw [if_pos hf, if_pos (show (F.state s).restartFlag = true from hf), h hf]
    have := evaluate_turn (vars := vars) (cfg := cfg) F { s with x := opoSample cfg a } (opoSample cfg a)
    have e : ({ F.state s with x := F.map (opoSample cfg a) } : OpoState n) = F.state { s with x := opoSample cfg a } := rfl
    rw [e, this, Option.map_map, Option.map_map]
    congr 1
    funext t
    simp only [Function.comp]
    have := reset_turn F t.chol
    unfold Rigid.state
    simp only [this]
    rfl
  · rw [if_neg hf, if_neg (show ¬ (F.state s).restartFlag = true from hf), Option.map_some]

/-- **C173, any rigid motion.**  Whatever the boxes, as long as the repair of proposed points and the samples of restarts correspond, the whole states correspond. -/
theorem c173_motion (F : Rigid n) (vars : Fin n → RealVar) (k : ℕ)
    (hrep : ∀ j < k, ∀ s, opoRun cfg g u x0 r j = some s → s.stop = false →
      opoRepair (F.problem vars cfg) (F.map (opoMutant s (g j))) = F.map (opoRepair cfg (opoMutant s (g j))))
    (hsam : ∀ j < k, ∀ s t, opoRun cfg g u x0 r j = some s → opoEvaluate cfg s (opoRepair cfg (opoMutant s (g j))) = some t → (opoCheck cfg t).restartFlag = true →
      opoSample (F.problem vars cfg) (u' j) = F.map (opoSample cfg (u j))) :
    opoRun (F.problem vars cfg) (fun j => F.Q *ᵥ g j) u' (F.map x0) r k = (opoRun cfg g u x0 r k).map F.state := by
  induction k with
  | zero =>
    simp only [opoRun, Option.map_some, Option.some.injEq]
    have h1 : F.matrices (cholInit n) = cholInit n := by
      unfold Rigid.matrices cholInit
      simp [orth' F]
    unfold opoInit Rigid.state
    simp only [h1]
    simp only [Rigid.problem, back_map]
  | succ k ih =>
    have ih := ih (fun j hj => hrep j (by omega)) (fun j hj => hsam j (by omega))
    rw [opoRun, ih, opoRun]
    cases hs : opoRun cfg g u x0 r k with
    | none => rfl
    | some s =>
      simp only [Option.map_some, Option.bind_some]
      by_cases hst : s.stop = true
      · rw [if_pos hst, if_pos (show (F.state s).stop = true from hst), Option.map_some]
      · rw [if_neg hst, if_neg (show ¬ (F.state s).stop = true from hst)]
        unfold opoStep
        rw [mutant_turn, hrep k (by omega) s hs (by simpa using hst), evaluate_turn]
        cases ht : opoEvaluate cfg s (opoRepair cfg (opoMutant s (g k))) with
        | none => rfl
        | some t =>
          simp only [Option.map_some, Option.bind_some]
          rw [check_turn]
          exact restart_turn F _ _ _ fun hf => hsam k (by omega) s t hs ht hf

/-! ### Origin and order -/

private theorem reorder_map (order : Equiv.Perm (Fin n)) (b x : Fin n → ℝ) : (reorder order b).map x = fun i => x (order i) + b i := by
  unfold Rigid.map reorder
  rw [Matrix.permMatrix_mulVec]
  rfl

private theorem reflect_shift (a b x d : ℝ) : reflect (a + d) (b + d) (x + d) = reflect a b x + d := by
  unfold reflect
  simp only [add_sub_add_right_eq_sub]
  ring

/-- **C173, order of the variables.**  Also with a precision: the variables, with all their settings, are listed in another order. -/
theorem c173_order (order : Equiv.Perm (Fin n)) (k : ℕ) :
    opoRun ((reorder order 0).problem (fun i => cfg.vars (order i)) cfg) (fun j i => g j (order i)) (fun j i => u j (order i)) (fun i => x0 (order i)) r k =
      (opoRun cfg g u x0 r k).map (reorder order 0).state := by
  have h1 : (fun j i => g j (order i)) = fun j => (reorder order 0).Q *ᵥ g j := by
    funext j
    exact (Matrix.permMatrix_mulVec order).symm
  have h2 : (fun i => x0 (order i)) = (reorder order 0).map x0 := by rw [reorder_map]; simp
  rw [h1, h2]
  refine c173_motion _ _ k (fun j _ s _ _ => ?_) (fun j _ s t _ _ _ => ?_)
  · rw [reorder_map, reorder_map]
    funext i
    simp [opoRepair, Rigid.problem]
  · rw [reorder_map]
    funext i
    simp [opoSample, Rigid.problem]

/-- **C173, origin and order of the variables**, without precision. -/
theorem c173_origin_and_order (order : Equiv.Perm (Fin n)) (b : Fin n → ℝ) (hv : ∀ i, (cfg.vars i).precision = none) (k : ℕ) :
    opoRun ((reorder order b).problem (reorderedVars order b cfg.vars) cfg) (fun j i => g j (order i)) (fun j i => u j (order i)) (fun i => x0 (order i) + b i) r k =
      (opoRun cfg g u x0 r k).map (reorder order b).state := by
  have h1 : (fun j i => g j (order i)) = fun j => (reorder order b).Q *ᵥ g j := by
    funext j
    exact (Matrix.permMatrix_mulVec order).symm
  rw [h1, ← reorder_map order b x0]
  refine c173_motion _ _ k (fun j _ s _ _ => ?_) (fun j _ s t _ _ _ => ?_)
  · rw [reorder_map, reorder_map]
    funext i
    unfold opoRepair
    simp only [Rigid.problem, reorderedVars, RealVar.round, hv]
    exact reflect_shift _ _ _ _
  · rw [reorder_map]
    funext i
    simp only [opoSample, Rigid.problem, reorderedVars]
    ring

/-- What the converted problem and the converted state are, coordinate by coordinate. -/
theorem c173_meaning (order : Equiv.Perm (Fin n)) (b : Fin n → ℝ) (s : OpoState n) (y : Fin n → ℝ) :
    ((reorder order b).problem vars cfg).objective y = cfg.objective (fun i => y (order.symm i) - b (order.symm i)) ∧
    ((reorder order b).state s).xopt = (fun i => s.xopt (order i) + b i) ∧ ((reorder order b).state s).fopt = s.fopt ∧
    ((reorder order b).state s).evalCount = s.evalCount ∧ ((reorder order b).state s).stop = s.stop ∧ ((reorder order b).state s).sigma = s.sigma := by
  refine ⟨?_, reorder_map order b _, rfl, rfl, rfl, rfl⟩
  show cfg.objective ((order.permMatrix ℝ)ᵀ *ᵥ (y - b)) = _
  rw [Matrix.transpose_permMatrix, Matrix.permMatrix_mulVec]
  rfl

/-! ### Rotations -/

private theorem evaluate_flags {s t : OpoState n} {x : Fin n → ℝ} (h : opoEvaluate cfg s x = some t) : t.nRestart = s.nRestart ∧ t.restartFlag = s.restartFlag := by
  unfold opoEvaluate opoTell at h
  split_ifs at h
  · cases h; exact ⟨rfl, rfl⟩
  · obtain ⟨c, _, rfl⟩ := Option.map_eq_some_iff.1 h; exact ⟨rfl, rfl⟩

private theorem check_flags {s : OpoState n} (h : s.nRestart = 0 ∧ s.restartFlag = false) : (opoCheck cfg s).nRestart = 0 ∧ (opoCheck cfg s).restartFlag = false := by
  unfold opoCheck
  dsimp only
  rw [if_neg (show ¬ 0 < s.nRestart by omega)]
  split_ifs <;> exact h

private theorem run_flags (hr : r ≤ 0) {k : ℕ} {s : OpoState n} (hs : opoRun cfg g u x0 r k = some s) : s.nRestart = 0 ∧ s.restartFlag = false := by
  induction k generalizing s with
  | zero => cases hs; exact ⟨max_eq_left hr, rfl⟩
  | succ k ih =>
    obtain ⟨s1, h1, h2⟩ := Option.bind_eq_some_iff.1 hs
    have := ih h1
    split_ifs at h2
    · cases h2; exact this
    · obtain ⟨s2, h3, h4⟩ := Option.bind_eq_some_iff.1 h2
      obtain ⟨e1, e2⟩ := evaluate_flags h3
      have hc := check_flags (cfg := cfg) (s := s2) ⟨e1.trans this.1, e2.trans this.2⟩
      unfold opoRestart at h4
      rw [if_neg (by simp [hc.2])] at h4
      cases h4
      exact hc

/-- **C173, rotations away from the bounds.**  Without restarts and precision, as long as no proposed point leaves the old or the new box. -/
theorem c173_rotation (F : Rigid n) (vars : Fin n → RealVar) (hr : r ≤ 0) (hv : ∀ i, (cfg.vars i).precision = none) (hv' : ∀ i, (vars i).precision = none)
    (hb : ∀ i, (cfg.vars i).lo < (cfg.vars i).hi) (hb' : ∀ i, (vars i).lo < (vars i).hi) (k : ℕ)
    (hin : ∀ j < k, ∀ s, opoRun cfg g u x0 r j = some s → s.stop = false →
      Inside cfg (opoMutant s (g j)) ∧ Inside (F.problem vars cfg) (F.map (opoMutant s (g j)))) :
    opoRun (F.problem vars cfg) (fun j => F.Q *ᵥ g j) u' (F.map x0) r k = (opoRun cfg g u x0 r k).map F.state := by
  refine c173_motion F vars k (fun j hj s hs hst => ?_) (fun j hj s t hs ht hf => ?_)
  · obtain ⟨h1, h2⟩ := hin j hj s hs hst
    have e1 : opoRepair cfg (opoMutant s (g j)) = opoMutant s (g j) := by
      funext i
      unfold opoRepair RealVar.round
      rw [hv i]
      exact reflect_id (hb i) (h1 i).1 (h1 i).2
    rw [e1]
    funext i
    unfold opoRepair RealVar.round
    have : ((F.problem vars cfg).vars i).precision = none := hv' i
    rw [this]
    exact reflect_id (hb' i) (h2 i).1 (h2 i).2
  · obtain ⟨e1, e2⟩ := evaluate_flags ht
    have := run_flags hr hs
    rw [(check_flags (cfg := cfg) (s := t) ⟨e1.trans this.1, e2.trans this.2⟩).2] at hf
    cases hf

/-! ### The hypotheses can be met -/

private noncomputable def bowl : OpoCfg 2 where
  stag := { minimize := true, ftarget := none, maxFEs := some 100, xtol := 1e-4, ftol := 1e-4, sigma0 := 1 / 2, pTarget := 2 / 11, cp := 1 / 12, damp := 2, dim := 2 }
  par := CholPar.default 2
  vars := fun _ => { lo := -2, hi := 2 }
  objective := fun x => x 0 ^ 2 + 3 * x 1 ^ 2
  penalty := fun _ _ => 0

private def quarterTurn : Rigid 2 where
  Q := !![0, -1; 1, 0]
  shift := ![1, 0]
  orthogonal := by
    ext i j
    fin_cases i <;> fin_cases j <;> simp [Matrix.mul_apply, Fin.sum_univ_two]

private theorem bowl_mutant : opoMutant (opoInit bowl 0 0) (fun _ => 1) = fun _ => 1 / 2 := by
  funext i
  simp [opoMutant, opoInit, bowl, cholInit]

/-- A quarter turn and a shift of a quadratic function that is not symmetric: the first step meets the hypotheses, and no NaN appears. -/
example : (∀ j < 1, ∀ s, opoRun bowl (fun _ _ => 1) (fun _ _ => 0) 0 0 j = some s → s.stop = false →
    Inside bowl (opoMutant s fun _ => 1) ∧ Inside (quarterTurn.problem bowl.vars bowl) (quarterTurn.map (opoMutant s fun _ => 1))) ∧
    opoRun bowl (fun _ _ => 1) (fun _ _ => 0) 0 0 1 ≠ none := by
  constructor
  · intro j hj s hs _
    obtain rfl : j = 0 := by omega
    cases hs
    rw [bowl_mutant]
    constructor
    · intro i
      norm_num [bowl]
    · intro i
      fin_cases i <;> norm_num [Rigid.map, Rigid.problem, quarterTurn, bowl, mulVec, dotProduct, Fin.sum_univ_two]
  · have hrep : opoRepair bowl (opoMutant (opoInit bowl 0 0) fun _ => 1) = fun _ => 1 / 2 := by
      rw [bowl_mutant]
      funext i
      simp only [opoRepair, bowl, RealVar.round]
      exact reflect_id (by norm_num) (by norm_num) (by norm_num)
    intro h
    rcases (c172_nan_partial (c33_default_rates 2) (show opoRun bowl (fun _ _ => 1) (fun _ _ => 0) 0 0 0 = some _ from rfl) rfl _ rfl).1 h with ⟨h, _⟩ | ⟨t, h1, h2, _⟩
    · rw [hrep] at h
      simp [bowl, opoInit, StagCfg.better] at h
      norm_num at h
    · obtain ⟨e1, e2⟩ := evaluate_flags h1
      rw [(check_flags (cfg := bowl) (s := t) ⟨e1.trans rfl, e2.trans rfl⟩).2] at h2
      cases h2

end Verif.Props
