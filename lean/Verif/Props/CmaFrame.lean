import Verif.Spec.CmaFrame
import Verif.Proofs.CmaEs
import Verif.Proofs.BoxConstraint
import Verif.Proofs.CmaNeutral
import Mathlib.Data.Fin.Tuple.Sort

/-!
# C170: origin, unit and order of the variables do not matter to the CMA-ES

The conversions are in `Verif/Spec/CmaFrame.lean`.
-/
namespace Verif.Props

open Matrix Verif.Model Verif.Spec Verif.Proofs

variable {d l : ℕ}

/-- A permutation of the variables turns a correct eigenvalue routine into a correct one. -/
theorem c170_routine (π : Equiv.Perm (Fin d)) {eigh : Matrix (Fin d) (Fin d) ℝ → (Fin d → ℝ) × Matrix (Fin d) (Fin d) ℝ}
    (h : EigenRoutine eigh) : EigenRoutine (reordered π eigh) := by
  intro M hM
  obtain ⟨h1, h2⟩ := h (M.submatrix π.symm π.symm) fun i j => hM _ _
  simp only [reordered]
  generalize eigh (M.submatrix π.symm π.symm) = e at h1 h2
  constructor
  · rw [transpose_submatrix, submatrix_mul_equiv, h1, submatrix_one_equiv]
  · rw [← show (diagonal e.1).submatrix π π = diagonal fun a => e.1 (π a) from submatrix_diagonal_equiv e.1 π, transpose_submatrix,
      submatrix_mul_equiv, submatrix_mul_equiv, h2, submatrix_submatrix]
    simp

private theorem reflect_affine {c : ℝ} (hc : 0 < c) (lo hi x b : ℝ) :
    reflect (c * lo + b) (c * hi + b) (c * x + b) = c * reflect lo hi x + b := by
  have h : (c * x + b - (c * lo + b)) / (c * hi + b - (c * lo + b)) = (x - lo) / (hi - lo) := by
    rw [show c * x + b - (c * lo + b) = c * (x - lo) by ring, show c * hi + b - (c * lo + b) = c * (hi - lo) by ring,
      mul_div_mul_left _ _ hc.ne']
  rw [reflect_eq, reflect_eq, h]
  ring

variable {π : Equiv.Perm (Fin d)} {c : ℝ} {b : Fin d → ℝ}

private theorem sum_perm (g : Fin d → ℝ) : ∑ i, g (π i) = ∑ i, g i := Equiv.sum_comp π g

private theorem mulVec_perm (A : Matrix (Fin d) (Fin d) ℝ) (v : Fin d → ℝ) (i : Fin d) :
    (A.submatrix π π *ᵥ fun a => v (π a)) i = (A *ᵥ v) (π i) := by
  simp only [mulVec, dotProduct, submatrix_apply]
  exact sum_perm (π := π) fun a => A (π i) a * v a

private theorem relocated_offspring (hc : 0 < c) (lb ub : Fin d → ℝ) (s : CmaEsState d) (z : Fin l → Fin d → ℝ) (j : Fin l) :
    cmaOffspring (relocate π c b lb) (relocate π c b ub) (relocated π c b s) (fun j a => z j (π a)) j =
      relocate π c b (cmaOffspring lb ub s z j) := by
  funext i
  simp only [cmaOffspring, relocated, relocate]
  rw [mulVec_perm s.eVector fun a => s.eValue a * z j a,
    ← reflect_affine hc (lb (π i)) (ub (π i)) _ (b i)]
  congr 1
  ring

private theorem relocated_mean (hl : 2 ≤ l) (x : Fin l → Fin d → ℝ) (r : Fin l → Fin l) :
    cmaMean (fun j => relocate π c b (x j)) r = relocate π c b (cmaMean x r) := by
  funext i
  have hw : ∑ j : Fin l, (if j.val < cmaMu l then cmaWeight l j else 0) = 1 := rankWeight_sum hl
  simp only [cmaMean, relocate]
  rw [Finset.mul_sum]
  conv_rhs => rw [← mul_one (b i), ← hw, Finset.mul_sum, ← Finset.sum_add_distrib]
  refine Finset.sum_congr rfl fun j _ => ?_
  split_ifs
  · ring
  · ring

private theorem relocated_update (hc : 0 < c) (s : CmaEsState d) (wcm : Fin d → ℝ) (x : Fin l → Fin d → ℝ) (r : Fin l → Fin l) (n : ℕ) :
    cmaUpdate (relocated π c b s) (relocate π c b wcm) (fun j => relocate π c b (x j)) r n = relocated π c b (cmaUpdate s wcm x r n) := by
  have hstep : ∀ u : Fin d → ℝ, ∀ i, (relocate π c b u i - (relocated π c b s).wcm i) / (relocated π c b s).sigma = (u (π i) - s.wcm (π i)) / s.sigma := by
    intro u i
    simp only [relocated, relocate]
    rw [show c * u (π i) + b i - (c * s.wcm (π i) + b i) = c * (u (π i) - s.wcm (π i)) by ring, mul_div_mul_left _ _ hc.ne']
  have hps : ∀ i, (((relocated π c b s).invsqrtC *ᵥ fun i => (relocate π c b wcm i - (relocated π c b s).wcm i) / (relocated π c b s).sigma) i) =
      (s.invsqrtC *ᵥ fun i => (wcm i - s.wcm i) / s.sigma) (π i) := by
    intro i
    simp only [hstep]
    exact mulVec_perm s.invsqrtC (fun i => (wcm i - s.wcm i) / s.sigma) i
  have hsig : ∀ g : Fin d → ℝ, cmaHsig d l n (fun i => g (π i)) = cmaHsig d l n g := by
    intro g
    unfold cmaHsig
    rw [sum_perm fun i => g i ^ 2]
  unfold cmaUpdate
  simp only [hps]
  simp only [hstep]
  have e1 := hsig fun i => (1 - cmaCs d l) * s.ps i +
    Real.sqrt (cmaCs d l * (2 - cmaCs d l) * cmaMueff l) * (s.invsqrtC *ᵥ fun i => (wcm i - s.wcm i) / s.sigma) i
  have e2 := sum_perm (π := π) fun i => ((1 - cmaCs d l) * s.ps i +
    Real.sqrt (cmaCs d l * (2 - cmaCs d l) * cmaMueff l) * (s.invsqrtC *ᵥ fun i => (wcm i - s.wcm i) / s.sigma) i) ^ 2
  simp only [show ∀ i, (relocated π c b s).ps i = s.ps (π i) from fun _ => rfl, e1, e2]
  simp only [relocated, submatrix_apply]
  congr 1
  ring

private def Symm (s : CmaEsState d) : Prop := ∀ i j, s.C i j = s.C j i

private theorem symm_update {s : CmaEsState d} (h : Symm s) (wcm : Fin d → ℝ) (x : Fin l → Fin d → ℝ) (r : Fin l → Fin l) (n : ℕ) :
    Symm (cmaUpdate s wcm x r n) := by
  intro i j
  simp only [cmaUpdate, of_apply]
  rw [h i j]
  congr 1
  · congr 1; ring
  · congr 1
    refine Finset.sum_congr rfl fun a _ => ?_
    split_ifs
    · ring
    · rfl

private theorem relocated_bd (eigh : Matrix (Fin d) (Fin d) ℝ → (Fin d → ℝ) × Matrix (Fin d) (Fin d) ℝ) {s : CmaEsState d} (h : Symm s) :
    cmaUpdateBD (reordered π eigh) (relocated π c b s) = relocated π c b (cmaUpdateBD eigh s) := by
  have h1 : cmaSymmetrise s.C = s.C := cma_symmetrise h
  have h2 : cmaSymmetrise (relocated π c b s).C = s.C.submatrix π π := cma_symmetrise (C := s.C.submatrix π π) fun i j => h _ _
  have h3 : reordered π eigh (s.C.submatrix π π) = (fun a => (eigh s.C).1 (π a), (eigh s.C).2.submatrix π π) := by
    simp only [reordered, submatrix_submatrix]
    simp
  unfold cmaUpdateBD
  simp only [h1, h2, h3]
  have hex : (∃ i, (eigh s.C).1 (π i) < 0) ↔ ∃ i, (eigh s.C).1 i < 0 :=
    ⟨fun ⟨i, hi⟩ => ⟨_, hi⟩, fun ⟨i, hi⟩ => ⟨π.symm i, by simpa using hi⟩⟩
  simp only [hex]
  split_ifs
  · rfl
  · simp only [relocated]
    congr 1
    rw [← show (diagonal fun i => (Real.sqrt ((eigh s.C).1 i))⁻¹).submatrix π π = diagonal fun a => (Real.sqrt ((eigh s.C).1 (π a)))⁻¹ from
      submatrix_diagonal_equiv _ π, transpose_submatrix, submatrix_mul_equiv, submatrix_mul_equiv]

private theorem relocated_reset (sigma0 : ℝ) (s : CmaEsState d) :
    cmaReset (c * sigma0) (relocated π c b s) = relocated π c b (cmaReset sigma0 s) := by
  simp only [cmaReset, relocated, submatrix_one_equiv]
  rfl

private theorem relocated_stop (sigma0 ftarget : ℝ) (budget : ℕ) (s : CmaEsState d)
    (h : (c * s.sigma < 1e-16 ∨ 1e6 < c * s.sigma) ↔ (s.sigma < 1e-16 ∨ 1e6 < s.sigma)) :
    cmaEsCheckStop (c * sigma0) ftarget budget (relocated π c b s) = relocated π c b (cmaEsCheckStop sigma0 ftarget budget s) := by
  unfold cmaEsCheckStop
  simp only
  by_cases hs : s.sigma < 1e-16 ∨ 1e6 < s.sigma
  · rw [if_pos hs, if_pos (show (relocated π c b s).sigma < 1e-16 ∨ 1e6 < (relocated π c b s).sigma from h.2 hs), ← relocated_reset]
    rfl
  · rw [if_neg hs, if_neg (show ¬((relocated π c b s).sigma < 1e-16 ∨ 1e6 < (relocated π c b s).sigma) from fun h' => hs (h.1 h'))]
    rfl

section Run

variable [NeZero l] {lb ub : Fin d → ℝ} {sigma0 t : ℝ} {budget : ℕ} {f f' : (Fin d → ℝ) → ℝ} {rank : (Fin l → ℝ) → Fin l → Fin l}
  {eigh : Matrix (Fin d) (Fin d) ℝ → (Fin d → ℝ) × Matrix (Fin d) (Fin d) ℝ}

private theorem bd_sigma (s : CmaEsState d) : (cmaUpdateBD eigh s).sigma = s.sigma := by
  unfold cmaUpdateBD
  simp only
  split_ifs <;> rfl

private theorem bd_symm {s : CmaEsState d} (h : Symm s) : Symm (cmaUpdateBD eigh s) := by
  unfold cmaUpdateBD
  simp only
  split_ifs <;> exact h

private theorem stop_symm {s : CmaEsState d} (h : Symm s) : Symm (cmaEsCheckStop sigma0 t budget s) := by
  unfold cmaEsCheckStop
  simp only
  split_ifs
  · intro i j
    simp only [cmaReset, one_apply, eq_comm]
  · exact h

private theorem generation_symm (z : Fin l → Fin d → ℝ) {s : CmaEsState d} (h : Symm s) :
    Symm (cmaGeneration lb ub sigma0 t budget f rank eigh z s) := by
  unfold cmaGeneration
  simp only
  refine stop_symm ?_
  have h1 := symm_update h (cmaMean (cmaOffspring lb ub s z) (rank fun j => f (cmaOffspring lb ub s z j))) (cmaOffspring lb ub s z)
    (rank fun j => f (cmaOffspring lb ub s z j)) (s.evalCount + l)
  generalize cmaUpdate s (cmaMean (cmaOffspring lb ub s z) (rank fun j => f (cmaOffspring lb ub s z j))) (cmaOffspring lb ub s z)
    (rank fun j => f (cmaOffspring lb ub s z j)) (s.evalCount + l) = s1 at h1
  have h2 : Symm (if (s1.evalCount : ℝ) - s1.eigenEval > l / (cmaC1 d l + cmaCmu d l) / d / 10 then
      cmaUpdateBD eigh { s1 with eigenEval := s1.evalCount } else s1) := by
    split_ifs
    · exact bd_symm h1
    · exact h1
  generalize (if (s1.evalCount : ℝ) - s1.eigenEval > l / (cmaC1 d l + cmaCmu d l) / d / 10 then
      cmaUpdateBD eigh { s1 with eigenEval := s1.evalCount } else s1) = s2 at h2
  split_ifs <;> exact h2

private theorem run_symm (z : ℕ → Fin l → Fin d → ℝ) (start : Fin d → ℝ) (n : ℕ) :
    Symm (cmaEsRun lb ub sigma0 t budget f rank eigh z start n) := by
  induction n with
  | zero => intro i j; simp only [cmaEsRun, cmaEsInit, one_apply, eq_comm]
  | succ n ih => exact generation_symm (z n) ih

private theorem relocated_generation (hl : 2 ≤ l) (hc : 0 < c) (hf : ∀ x, f' (relocate π c b x) = f x) (z : Fin l → Fin d → ℝ)
    {s : CmaEsState d} (hs : Symm s)
    (h : (c * adaptedSigma lb ub f rank z s < 1e-16 ∨ 1e6 < c * adaptedSigma lb ub f rank z s) ↔
      (adaptedSigma lb ub f rank z s < 1e-16 ∨ 1e6 < adaptedSigma lb ub f rank z s)) :
    cmaGeneration (relocate π c b lb) (relocate π c b ub) (c * sigma0) t budget f' rank (reordered π eigh) (fun j a => z j (π a))
      (relocated π c b s) = relocated π c b (cmaGeneration lb ub sigma0 t budget f rank eigh z s) := by
  have hx : cmaOffspring (relocate π c b lb) (relocate π c b ub) (relocated π c b s) (fun j a => z j (π a)) =
      fun j => relocate π c b (cmaOffspring lb ub s z j) := funext fun j => relocated_offspring hc lb ub s z j
  unfold adaptedSigma at h
  simp only at h
  unfold cmaGeneration
  simp only [hx, hf]
  generalize cmaOffspring lb ub s z = x at h ⊢
  generalize rank (fun j => f (x j)) = r at h ⊢
  rw [relocated_mean hl, show (relocated π c b s).evalCount = s.evalCount from rfl, relocated_update hc]
  have h1 := symm_update hs (cmaMean x r) x r (s.evalCount + l)
  generalize cmaUpdate s (cmaMean x r) x r (s.evalCount + l) = s1 at h h1 ⊢
  have hbd : (if ((relocated π c b s1).evalCount : ℝ) - (relocated π c b s1).eigenEval > l / (cmaC1 d l + cmaCmu d l) / d / 10 then
      cmaUpdateBD (reordered π eigh) { relocated π c b s1 with eigenEval := (relocated π c b s1).evalCount } else relocated π c b s1) =
      relocated π c b (if (s1.evalCount : ℝ) - s1.eigenEval > l / (cmaC1 d l + cmaCmu d l) / d / 10 then
        cmaUpdateBD eigh { s1 with eigenEval := s1.evalCount } else s1) := by
    change (if (s1.evalCount : ℝ) - s1.eigenEval > l / (cmaC1 d l + cmaCmu d l) / d / 10 then
      cmaUpdateBD (reordered π eigh) (relocated π c b { s1 with eigenEval := s1.evalCount }) else relocated π c b s1) = _
    rw [relocated_bd (s := { s1 with eigenEval := s1.evalCount }) eigh h1]
    split_ifs <;> rfl
  rw [hbd]
  have hsig : (if (s1.evalCount : ℝ) - s1.eigenEval > l / (cmaC1 d l + cmaCmu d l) / d / 10 then
      cmaUpdateBD eigh { s1 with eigenEval := s1.evalCount } else s1).sigma = s1.sigma := by
    split_ifs
    · rw [bd_sigma]
    · rfl
  generalize (if (s1.evalCount : ℝ) - s1.eigenEval > l / (cmaC1 d l + cmaCmu d l) / d / 10 then
      cmaUpdateBD eigh { s1 with eigenEval := s1.evalCount } else s1) = s2 at hsig ⊢
  rw [← hsig] at h
  change cmaEsCheckStop (c * sigma0) t budget (if ((f (x (r 0)) : ℝ) : WithTop ℝ) < s2.fopt then _ else _) = _
  split_ifs
  · exact relocated_stop sigma0 t budget { s2 with fopt := ((f (x (r 0)) : ℝ) : WithTop ℝ), xopt := x (r 0) } h
  · exact relocated_stop sigma0 t budget s2 h

private theorem relocated_init (start : Fin d → ℝ) : cmaEsInit (relocate π c b start) (c * sigma0) = relocated π c b (cmaEsInit start sigma0) := by
  simp only [cmaEsInit, relocated, submatrix_one_equiv]
  rfl

private theorem relocated_run (hl : 2 ≤ l) (hc : 0 < c) (hf : ∀ x, f' (relocate π c b x) = f x) (z : ℕ → Fin l → Fin d → ℝ)
    (start : Fin d → ℝ) (n : ℕ)
    (h : ∀ m < n, (c * adaptedSigma lb ub f rank (z m) (cmaEsRun lb ub sigma0 t budget f rank eigh z start m) < 1e-16 ∨
        1e6 < c * adaptedSigma lb ub f rank (z m) (cmaEsRun lb ub sigma0 t budget f rank eigh z start m)) ↔
      (adaptedSigma lb ub f rank (z m) (cmaEsRun lb ub sigma0 t budget f rank eigh z start m) < 1e-16 ∨
        1e6 < adaptedSigma lb ub f rank (z m) (cmaEsRun lb ub sigma0 t budget f rank eigh z start m))) :
    cmaEsRun (relocate π c b lb) (relocate π c b ub) (c * sigma0) t budget f' rank (reordered π eigh) (fun n j a => z n j (π a))
      (relocate π c b start) n = relocated π c b (cmaEsRun lb ub sigma0 t budget f rank eigh z start n) := by
  induction n with
  | zero => exact relocated_init start
  | succ n ih =>
    change cmaGeneration _ _ _ _ _ _ _ _ _ (cmaEsRun (relocate π c b lb) (relocate π c b ub) (c * sigma0) t budget f' rank (reordered π eigh)
      (fun n j a => z n j (π a)) (relocate π c b start) n) = _
    rw [ih fun m hm => h m (by omega)]
    exact relocated_generation hl hc hf (z n) (run_symm z start n) (h n (by omega))

/-- **C170, origin and order of the variables.**  Shift the origin by `b` and list the variables in another order: bounds, starting
point, objective and random numbers accordingly.  After every number of generations the search is in the same state, converted to
the new coordinates. -/
theorem c170_origin_and_order (hl : 2 ≤ l) (π : Equiv.Perm (Fin d)) (b : Fin d → ℝ) (hf : ∀ x, f' (relocate π 1 b x) = f x)
    (z : ℕ → Fin l → Fin d → ℝ) (start : Fin d → ℝ) (n : ℕ) :
    cmaEsRun (relocate π 1 b lb) (relocate π 1 b ub) sigma0 t budget f' rank (reordered π eigh) (fun n j a => z n j (π a))
      (relocate π 1 b start) n = relocated π 1 b (cmaEsRun lb ub sigma0 t budget f rank eigh z start n) := by
  have := relocated_run (lb := lb) (ub := ub) (sigma0 := sigma0) (t := t) (budget := budget) (rank := rank) (eigh := eigh) hl one_pos hf z start n
    fun m _ => by rw [one_mul]
  rwa [one_mul] at this

/-- **C170, unit** (the part that holds).  Measure the variables in another unit, so that all coordinates and the initial step size are
multiplied by `c`.  As long as the step size stays between `1e-16` and `1e6` in both units, the search is in the same state after
every number of generations, converted to the new unit. -/
theorem c170_unit_partial (hl : 2 ≤ l) (π : Equiv.Perm (Fin d)) (hc : 0 < c) (b : Fin d → ℝ) (hf : ∀ x, f' (relocate π c b x) = f x)
    (z : ℕ → Fin l → Fin d → ℝ) (start : Fin d → ℝ) (n : ℕ)
    (hrange : ∀ m < n, ∀ u ∈ ({1, c} : Set ℝ),
      u * adaptedSigma lb ub f rank (z m) (cmaEsRun lb ub sigma0 t budget f rank eigh z start m) ∈ Set.Icc (1e-16 : ℝ) 1e6) :
    cmaEsRun (relocate π c b lb) (relocate π c b ub) (c * sigma0) t budget f' rank (reordered π eigh) (fun n j a => z n j (π a))
      (relocate π c b start) n = relocated π c b (cmaEsRun lb ub sigma0 t budget f rank eigh z start n) := by
  refine relocated_run hl hc hf z start n fun m hm => ?_
  have h1 := hrange m hm 1 (by simp)
  have h2 := hrange m hm c (by simp)
  rw [one_mul] at h1
  constructor
  · rintro (h | h)
    · exact absurd h (not_lt.2 h2.1)
    · exact absurd h (not_lt.2 h2.2)
  · rintro (h | h)
    · exact absurd h (not_lt.2 h1.1)
    · exact absurd h (not_lt.2 h1.2)

omit [NeZero l] in
/-- The mean after a generation in which all offspring are the same point. -/
private theorem mean_same (hl : 2 ≤ l) (p : Fin d → ℝ) (r : Fin l → Fin l) : cmaMean (fun _ => p) r = p := by
  have h := relocated_mean (π := 1) (c := 0) (b := p) hl (fun _ : Fin l => p) r
  have e : ∀ x : Fin d → ℝ, relocate 1 0 p x = p := fun x => by funext i; simp [relocate]
  rw [e] at h
  simpa only [e] using h

omit [NeZero l] in
private theorem ratio_bounds (hl : 2 ≤ l) : 0 < cmaCs d l / cmaDamps d l ∧ cmaCs d l / cmaDamps d l ≤ 1 := by
  have h1 := (cma_cs_bounds (d := d) hl).1
  have h2 := cma_damps_pos (d := d) hl
  have hm := (cma_mueff_bounds hl).1
  refine ⟨by positivity, (div_le_one h2).2 ?_⟩
  unfold cmaDamps
  split_ifs
  · have : 0 ≤ 2 * cmaMueff l / l := by positivity
    linarith
  · have := le_max_left (0 : ℝ) (Real.sqrt ((cmaMueff l - 1) / ((d : ℝ) + 1)) - 1)
    linarith

private theorem generation_sigma (z : Fin l → Fin d → ℝ) (s : CmaEsState d) :
    (cmaGeneration lb ub sigma0 t budget f rank eigh z s).sigma =
      if adaptedSigma lb ub f rank z s < 1e-16 ∨ 1e6 < adaptedSigma lb ub f rank z s then sigma0 else adaptedSigma lb ub f rank z s := by
  unfold cmaGeneration adaptedSigma
  simp only
  generalize cmaUpdate s _ _ _ _ = s1
  have hsig : (if (s1.evalCount : ℝ) - s1.eigenEval > l / (cmaC1 d l + cmaCmu d l) / d / 10 then
      cmaUpdateBD eigh { s1 with eigenEval := s1.evalCount } else s1).sigma = s1.sigma := by
    split_ifs
    · rw [bd_sigma]
    · rfl
  generalize (if (s1.evalCount : ℝ) - s1.eigenEval > l / (cmaC1 d l + cmaCmu d l) / d / 10 then
      cmaUpdateBD eigh { s1 with eigenEval := s1.evalCount } else s1) = s2 at hsig ⊢
  have hstop : ∀ s3 : CmaEsState d, (cmaEsCheckStop sigma0 t budget s3).sigma = if s3.sigma < 1e-16 ∨ 1e6 < s3.sigma then sigma0 else s3.sigma := by
    intro s3
    unfold cmaEsCheckStop
    simp only
    split_ifs <;> rfl
  rw [hstop, ← hsig]
  split_ifs <;> rfl

omit [NeZero l] in
private theorem still_sigma (hl : 2 ≤ l) (hb : ∀ i, lb i ≠ ub i) {start : Fin d → ℝ} (hs : Between lb ub start) :
    adaptedSigma lb ub f rank (0 : Fin l → Fin d → ℝ) (cmaEsInit start sigma0) = sigma0 * Real.exp (-(cmaCs d l / cmaDamps d l)) := by
  have hx : cmaOffspring lb ub (cmaEsInit start sigma0) (0 : Fin l → Fin d → ℝ) = fun _ => start := by
    funext j i
    simp only [cmaOffspring, cmaEsInit, Pi.zero_apply, mul_zero]
    rw [one_mulVec, mul_zero, add_zero]
    exact reflect_inside (hb i) (hs i).1 (hs i).2
  unfold adaptedSigma
  simp only [hx]
  rw [mean_same hl]
  simp only [cmaUpdate, cmaEsInit, sub_self, zero_div, Pi.zero_apply, mul_zero, one_mulVec, add_zero]
  congr 2
  norm_num
  ring

/-- **C170, unit, refuted.**  The limits on the step size are in the unit of the variables.  Whatever the objective, the box and the starting
point: if the draws of the first generation are zero, a search with initial step size `1` continues with a smaller step size; the same search with all
coordinates multiplied by `1e-16` is restarted with its initial step size. -/
theorem c170_unit_refuted (hl : 2 ≤ l) (hb : ∀ i, lb i ≠ ub i) {start : Fin d → ℝ} (hs : Between lb ub start) :
    let c : ℝ := 1e-16
    let here := cmaEsRun (l := l) lb ub 1 t budget f rank eigh 0 start 1
    let there := cmaEsRun (l := l) (relocate 1 c 0 lb) (relocate 1 c 0 ub) (c * 1) t budget f' rank (reordered 1 eigh) 0 (relocate 1 c 0 start) 1
    here.sigma < 1 ∧ there.sigma = c * 1 ∧ there ≠ relocated 1 c 0 here := by
  intro c here there
  have hc : (0 : ℝ) < c := by norm_num [c]
  obtain ⟨r0, r1⟩ := ratio_bounds (d := d) hl
  have e1 : Real.exp (-(cmaCs d l / cmaDamps d l)) < 1 := Real.exp_lt_one_iff.2 (by linarith)
  have e2 : (1e-16 : ℝ) ≤ Real.exp (-(cmaCs d l / cmaDamps d l)) := by
    have := Real.add_one_le_exp (-(cmaCs d l / cmaDamps d l))
    have h3 : Real.exp (-1) ≤ Real.exp (-(cmaCs d l / cmaDamps d l)) := Real.exp_le_exp.2 (by linarith)
    have h4 : (1e-16 : ℝ) ≤ Real.exp (-1) := by
      rw [Real.exp_neg, ← one_div, le_div_iff₀ (Real.exp_pos 1)]
      have := Real.exp_one_lt_d9
      norm_num at this ⊢
      linarith
    linarith
  have h1 : here.sigma = Real.exp (-(cmaCs d l / cmaDamps d l)) := by
    change (cmaGeneration lb ub 1 t budget f rank eigh 0 (cmaEsInit start 1)).sigma = _
    rw [generation_sigma, still_sigma hl hb hs, one_mul, if_neg]
    rintro (h | h)
    · linarith
    · norm_num at h
      linarith
  have h2 : there.sigma = c * 1 := by
    change (cmaGeneration _ _ (c * 1) t budget f' rank _ 0 (cmaEsInit (relocate 1 c 0 start) (c * 1))).sigma = _
    rw [generation_sigma, still_sigma hl, if_pos]
    · left
      change c * 1 * _ < c
      nlinarith
    · intro i
      have := hb i
      simp only [relocate, Pi.zero_apply, add_zero, ne_eq, mul_right_inj' hc.ne']
      exact this
    · intro i
      have := hs i
      simp only [relocate, Pi.zero_apply, add_zero, Equiv.Perm.coe_one, id]
      rw [← mul_min_of_nonneg _ _ hc.le, ← mul_max_of_nonneg _ _ hc.le]
      exact ⟨mul_le_mul_of_nonneg_left this.1 hc.le, mul_le_mul_of_nonneg_left this.2 hc.le⟩
  refine ⟨h1 ▸ e1, h2, fun h => ?_⟩
  have h3 : there.sigma = c * here.sigma := congrArg CmaEsState.sigma h
  rw [h2, h1] at h3
  have := mul_left_cancel₀ hc.ne' h3
  linarith

end Run

/-! ### A case -/

/-- One variable between `-1` and `1`, two offspring that both go `1/2` to the right, in metres and in millimetres with another origin: the step
size stays within the limits, so that the means after the first generation are the same point. -/
example (f : (Fin 1 → ℝ) → ℝ) (rank : (Fin 2 → ℝ) → Fin 2 → Fin 2) (eigh : Matrix (Fin 1) (Fin 1) ℝ → (Fin 1 → ℝ) × Matrix (Fin 1) (Fin 1) ℝ) :
    (cmaEsRun (l := 2) (relocate 1 1000 7 fun _ : Fin 1 => -1) (relocate 1 1000 7 fun _ => 1) (1000 * 1) 0 100 (fun x => f fun i => (x i - 7) / 1000)
      rank (reordered 1 eigh) (fun _ _ _ => 1 / 2) (relocate 1 1000 7 fun _ => 0) 1).wcm 0 = 507 := by
  have hx : cmaOffspring (fun _ : Fin 1 => -1) (fun _ => 1) (cmaEsInit (fun _ => 0) 1) (fun (_ : Fin 2) _ => 1 / 2) = fun _ _ => 1 / 2 := by
    funext j i
    simp only [cmaOffspring, cmaEsInit]
    rw [one_mulVec, reflect_inside (by norm_num)]
    · ring
    · rw [min_eq_left (by norm_num)]
      norm_num
    · rw [max_eq_right (by norm_num)]
      norm_num
  have hrange : adaptedSigma (fun _ : Fin 1 => -1) (fun _ => 1) f rank (fun (_ : Fin 2) _ => 1 / 2) (cmaEsInit (fun _ => 0) 1) ∈ Set.Icc (0.1 : ℝ) 100 := by
    obtain ⟨r0, r1⟩ := ratio_bounds (d := 1) (l := 2) le_rfl
    obtain ⟨c0, c1⟩ := cma_cs_bounds (d := 1) (l := 2) le_rfl
    obtain ⟨m0, m1⟩ := cma_mueff_bounds (l := 2) le_rfl
    have hmu : cmaMueff 2 ≤ 1 := by
      have : cmaMu 2 = 1 := by
        rw [cmaMu, Nat.ceil_eq_iff one_ne_zero]
        norm_num
      simpa [this] using m1
    unfold adaptedSigma
    simp only [hx]
    rw [mean_same le_rfl]
    simp only [cmaUpdate, cmaEsInit, Pi.zero_apply, mul_zero, one_mulVec, zero_add, sub_zero, div_one, one_mul, Finset.univ_unique, Finset.sum_singleton]
    rw [Real.sqrt_sq (by positivity)]
    have hchi : cmaChiN 1 = 67 / 84 := by
      unfold cmaChiN
      norm_num
    have hq : Real.sqrt (cmaCs 1 2 * (2 - cmaCs 1 2) * cmaMueff 2) ≤ 1 := by
      rw [Real.sqrt_le_left (by norm_num), one_pow]
      nlinarith [sq_nonneg (1 - cmaCs 1 2)]
    have hq0 := Real.sqrt_nonneg (cmaCs 1 2 * (2 - cmaCs 1 2) * cmaMueff 2)
    rw [hchi, mul_div_assoc]
    generalize Real.sqrt (cmaCs 1 2 * (2 - cmaCs 1 2) * cmaMueff 2) = q at hq hq0
    generalize cmaCs 1 2 / cmaDamps 1 2 = r at r0 r1
    have l1 : -1 ≤ (q * (1 / 2) / (67 / 84) - 1) * r := by nlinarith [mul_nonneg hq0 r0.le]
    have l2 : (q * (1 / 2) / (67 / 84) - 1) * r ≤ 1 := by nlinarith [mul_nonneg hq0 r0.le]
    have b1 := Real.exp_le_exp.2 l1
    have b2 := Real.exp_le_exp.2 l2
    have b3 : (0.1 : ℝ) ≤ Real.exp (-1) := by
      rw [Real.exp_neg, ← one_div, le_div_iff₀ (Real.exp_pos 1)]
      have := Real.exp_one_lt_d9
      norm_num at this ⊢
      linarith
    have b4 : Real.exp 1 ≤ 100 := by
      have := Real.exp_one_lt_d9
      norm_num at this ⊢
      linarith
    exact ⟨by linarith, by linarith⟩
  rw [c170_unit_partial (f := f) (c := 1000) le_rfl 1 (by norm_num) 7 (fun x => by simp [relocate]) (fun _ _ _ => 1 / 2) (fun _ => 0) 1]
  · change 1000 * (cmaGeneration (fun _ : Fin 1 => -1) (fun _ => 1) 1 0 100 f rank eigh (fun _ _ => 1 / 2) (cmaEsInit (fun _ => 0) 1)).wcm 0 + 7 = 507
    rw [generation_mean, hx, mean_same le_rfl]
    norm_num
  · intro m hm u hu
    obtain rfl : m = 0 := by omega
    have h : adaptedSigma (fun _ : Fin 1 => -1) (fun _ => 1) f rank (fun (_ : Fin 2) _ => 1 / 2) (cmaEsRun (fun _ : Fin 1 => -1) (fun _ => 1) 1 0 100 f
      rank eigh (fun _ _ _ => 1 / 2) (fun _ => 0) 0) ∈ Set.Icc (0.1 : ℝ) 100 := hrange
    rcases hu with rfl | rfl
    · constructor <;> [have := h.1; have := h.2] <;> norm_num at this ⊢ <;> linarith
    · constructor <;> [have := h.1; have := h.2] <;> norm_num at this ⊢ <;> linarith

end Verif.Props
