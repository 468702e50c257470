import Verif.Proofs.Metropolis

/-!
# C123, C124: the Metropolis steps of the constrained sampler
-/
namespace Verif.Props

open Verif.Model Verif.Spec Verif.Proofs

/-! ### C123: the rule of every row -/

/-- The log probabilities that the loop carries along are those of the current rows, whatever was accepted. -/
theorem c123_cached {V : Type*} (limit : ℝ) (logp : List V → Option ℝ) (dim steps : ℕ) (propose : ℕ → List (List V) → List (List V))
    (us : ℕ → ℕ → List ℝ) (X X' : List (List V)) (lp' : List ℝ) (hp : ∀ k Y, (propose k Y).length = Y.length) (hu : ∀ k i, (us k i).length = X.length)
    (h : metropolisHastings limit logp dim steps propose us X = some (X', lp')) :
    X'.length = X.length ∧ X'.mapM logp = some lp' := by
  unfold metropolisHastings at h
  obtain ⟨lp, hlp, hrun⟩ := Option.bind_eq_some_iff.1 h
  have key := foldlM_invariant (fun s => Cached logp s ∧ s.1.length = X.length) _ _ ?_ (X, lp) (X', lp') ⟨⟨hlp⟩, rfl⟩ hrun
  · exact ⟨key.2, key.1.eq⟩
  · rintro s s' k _ ⟨hs, hl⟩ hstep
    have := foldlM_invariant (fun t => Cached logp t ∧ t.1.length = X.length) _ _ ?_ s s' ⟨hs, hl⟩ hstep
    · exact this
    · rintro t t' i _ ⟨ht, htl⟩ hc
      obtain ⟨h1, h2, _⟩ := mhCoordinate_spec ht (by rw [hp, hl, htl]) (by rw [hu, htl]) hc
      exact ⟨h1, h2.trans htl⟩

/-- When no row improves by more than `limit`, every row follows the Metropolis rule on its own: it takes the proposed coordinate iff its random number is
at most the ratio of the densities of the two points. -/
theorem c123_rule_partial {V : Type*} (limit : ℝ) (logp : List V → Option ℝ) (P X : List (List V)) (lp u : List ℝ) (i : ℕ) (s' : List (List V) × List ℝ)
    (hX : X.mapM logp = some lp) (hP : P.length = X.length) (hu : u.length = X.length) (hu1 : ∀ r ∈ u, r < 1)
    (h : mhCoordinate limit logp P u i (X, lp) = some s')
    (hlim : ∀ (k : ℕ) (x p : List V) (a b : ℝ), X[k]? = some x → P[k]? = some p → logp x = some a → logp (moved i x p) = some b → b - a ≤ limit)
    (k : ℕ) (x p : List V) (r : ℝ) (hx : X[k]? = some x) (hp : P[k]? = some p) (hr : u[k]? = some r) :
    ∃ a b, logp x = some a ∧ logp (moved i x p) = some b ∧
      (r ≤ Real.exp (b - a) → s'.1[k]? = some (moved i x p)) ∧ (Real.exp (b - a) < r → s'.1[k]? = some x) ∧
      (a ≤ b → s'.1[k]? = some (moved i x p)) := by
  obtain ⟨_, _, lp', hlp', rfl⟩ := mhCoordinate_spec (s := (X, lp)) ⟨hX⟩ hP hu h
  obtain ⟨l1, g1⟩ := (mapM_some_iff _ _ _).1 hX
  obtain ⟨l2, g2⟩ := (mapM_some_iff _ _ _).1 hlp'
  have hT := takeColumn_length i X P hP
  dsimp only at l2 g2 hlp' ⊢
  have hk : k < X.length := (List.getElem?_eq_some_iff.1 hx).1
  have e2 := List.getElem?_eq_getElem (l := lp) (i := k) (by omega)
  have e3 := takeColumn_get i k X P x p hx hp
  have e4 := List.getElem?_eq_getElem (l := lp') (i := k) (by omega)
  have hgx := g1 k _ _ hx e2
  have hgm := g2 k _ _ e3 e4
  have nolimit : ¬ ∃ d ∈ List.zipWith (fun a b => b - a) lp lp', limit < d := by
    rintro ⟨d, hd, hlt⟩
    obtain ⟨j, hj⟩ := List.getElem?_of_mem hd
    rw [List.getElem?_zipWith] at hj
    have hjl : j < X.length := by
      by_contra hn
      rw [List.getElem?_eq_none (by omega)] at hj
      simp at hj
    have f1 := List.getElem?_eq_getElem hjl
    have f2 := List.getElem?_eq_getElem (l := P) (i := j) (by omega)
    have f3 := List.getElem?_eq_getElem (l := lp) (i := j) (by omega)
    have f4 := List.getElem?_eq_getElem (l := lp') (i := j) (by omega)
    rw [f3, f4] at hj
    have hj : some (lp'[j] - lp[j]) = some d := hj
    cases hj
    exact absurd (hlim j _ _ _ _ f1 f2 (g1 j _ _ f1 f3) (g2 j _ _ (takeColumn_get i j X P _ _ f1 f2) f4)) (not_le.2 hlt)
  have hmask : (acceptMask limit lp lp' u)[k]? = some (decide (r ≤ min 1 (max 0 (Real.exp (lp'[k] - lp[k]))))) := by
    unfold acceptMask acceptProbs
    dsimp only
    rw [if_neg nolimit, List.getElem?_zipWith, hr, List.getElem?_map, List.getElem?_zipWith, e2, e4]
    rfl
  have hs := whereMask_get _ X (takeColumn i X P) k _ _ _ hmask hx e3
  rw [max_eq_right (Real.exp_pos _).le] at hs
  have hr1 := hu1 r (List.mem_of_getElem? hr)
  refine ⟨lp[k], lp'[k], hgx, hgm, fun hle => ?_, fun hlt => ?_, fun hab => ?_⟩
  · rw [hs, decide_eq_true (le_min hr1.le hle)]; rfl
  · rw [hs, decide_eq_false (fun hle => absurd (hle.trans (min_le_right _ _)) (not_le.2 hlt))]; rfl
  · rw [hs, decide_eq_true]
    · rfl
    · exact le_min hr1.le (hr1.le.trans (Real.one_le_exp (by linarith)))

private noncomputable def oneC (x : List ℝ) : Option ℝ := x[0]?

/-- When one row moves from a strongly violated constraint to the feasible region, every other row takes its proposal, even a feasible row whose proposal
violates the constraint: here both rows move, whatever the random numbers.  The constraint is `x ≤ 0`, the scale that of the last stage for `tol = 0.01`. -/
theorem c123_crosstalk_refuted (logcdf : ℝ → ℝ) (h0 : -1 ≤ logcdf 0) (h1 : logcdf (-1 * 5 / (1 / 800)) ≤ -1000) (u v : ℝ) (hu : u < 1) (hv : v < 1)
    (limit : ℝ) (hlimit : limit ≤ 710) (c : ℝ) :
    ∃ s', mhCoordinate limit (logPosterior logcdf (fun _ => 1) [oneC] (1 / 800)) [[0], [c]] [u, v] 0
      ([[5], [0]], [logcdf (-1 * 5 / (1 / 800)), logcdf (-1 * 0 / (1 / 800))]) = some s' ∧ s'.1 = [[0], [c]] := by
  have e : ∀ z : ℝ, logPosterior logcdf (fun _ => 1) [oneC] (1 / 800) [z] = some (logcdf (-1 * z / (1 / 800))) := by
    intro z
    unfold logPosterior oneC
    simp
  refine ⟨([[0], [c]], [logcdf (-1 * 0 / (1 / 800)), logcdf (-1 * c / (1 / 800))]), ?_, rfl⟩
  unfold mhCoordinate takeColumn
  simp only [List.zipWith_cons_cons, List.zipWith_nil_right, List.getElem?_cons_zero, Option.elim_some, List.set_cons_zero, List.mapM_cons, List.mapM_nil, e]
  have : acceptProbs limit [logcdf (-1 * 5 / (1 / 800)), logcdf (-1 * 0 / (1 / 800))] [logcdf (-1 * 0 / (1 / 800)), logcdf (-1 * c / (1 / 800))] = [1, 1] := by
    unfold acceptProbs
    dsimp only
    rw [if_pos]
    · rfl
    · refine ⟨logcdf (-1 * 0 / (1 / 800)) - logcdf (-1 * 5 / (1 / 800)), by simp, ?_⟩
      norm_num at h1 ⊢
      linarith
  show some _ = some _
  unfold acceptMask
  beta_reduce
  rw [this]
  simp [whereMask, hu.le, hv.le]

/-! ### C124: what the rule samples from -/

private theorem acceptProbability_eq (a b : ℝ) : acceptProbability a b = ENNReal.ofReal (min 1 (Real.exp (b - a))) := by
  unfold acceptProbability acceptSet
  rcases lt_or_ge (Real.exp (b - a)) 1 with h | h
  · have : {u : ℝ | 0 ≤ u ∧ u < 1 ∧ u ≤ Real.exp (b - a)} = Set.Icc 0 (Real.exp (b - a)) := by
      ext u
      simp only [Set.mem_ofPred_eq, Set.mem_Icc]
      exact ⟨fun h => ⟨h.1, h.2.2⟩, fun g => ⟨g.1, g.2.trans_lt h, g.2⟩⟩
    rw [this, Real.volume_Icc, sub_zero, min_eq_right h.le]
  · have : {u : ℝ | 0 ≤ u ∧ u < 1 ∧ u ≤ Real.exp (b - a)} = Set.Ico 0 1 := by
      ext u
      simp only [Set.mem_ofPred_eq, Set.mem_Ico]
      exact ⟨fun h => ⟨h.1, h.2.1⟩, fun g => ⟨g.1, g.2, g.2.le.trans h⟩⟩
    rw [this, Real.volume_Ico, sub_zero, min_eq_left h]

/-- Detailed balance: the density of a point times the probability of taking the move to another is symmetric in the two points. -/
theorem c124_balance (a b : ℝ) :
    ENNReal.ofReal (Real.exp a) * acceptProbability a b = ENNReal.ofReal (Real.exp b) * acceptProbability b a := by
  rw [acceptProbability_eq, acceptProbability_eq, ← ENNReal.ofReal_mul (Real.exp_pos _).le, ← ENNReal.ofReal_mul (Real.exp_pos _).le]
  congr 1
  rcases le_total a b with h | h
  · rw [min_eq_left (Real.one_le_exp (by linarith)), min_eq_right (Real.exp_le_one_iff.2 (by linarith)), mul_one, ← Real.exp_add]
    congr 1; ring
  · rw [min_eq_right (Real.exp_le_one_iff.2 (by linarith : b - a ≤ 0)), min_eq_left (Real.one_le_exp (by linarith : 0 ≤ a - b)), mul_one, ← Real.exp_add]
    congr 1; ring

/-- In the last stage a feasible point is left for one that violates a constraint by more than the tolerance with probability at most `2^K Φ(-8)`, for `K`
constraints and a uniform target. -/
theorem c124_feasible_kept {R : Type*} (Phi : ℝ → ℝ) (hmono : Monotone Phi) (hpos : ∀ z, 0 < Phi z) (hle : ∀ z, Phi z ≤ 1) (hhalf : Phi 0 = 1 / 2)
    (tol : ℝ) (htol : 0 < tol) (constraints : List (R → ℝ)) (x y : R) (hx : MeetsAll constraints x) (hy : ViolatesBy constraints tol y) :
    ∃ a b, logPosterior (fun z => Real.log (Phi z)) (fun _ => 1) (constraints.map fun c r => some (c r)) (tol / 8) x = some a ∧
      logPosterior (fun z => Real.log (Phi z)) (fun _ => 1) (constraints.map fun c r => some (c r)) (tol / 8) y = some b ∧
      acceptProbability a b ≤ ENNReal.ofReal (2 ^ constraints.length * Phi (-8)) := by
  have e : ∀ z : R, logPosterior (fun z => Real.log (Phi z)) (fun _ => 1) (constraints.map fun c r => some (c r)) (tol / 8) z =
      some ((constraints.map fun c => Real.log (Phi (-1 * c z / (tol / 8)))).sum) := by
    intro z
    unfold logPosterior
    have : (constraints.map fun (c : R → ℝ) (r : R) => some (c r)).mapM (fun (c : R → Option ℝ) => c z) = some (constraints.map fun c => c z) := by
      induction constraints with
      | nil => rfl
      | cons c cs ih =>
        have ih' : (cs.map fun (c : R → ℝ) (r : R) => some (c r)).mapM (fun (c : R → Option ℝ) => c z) = some (cs.map fun c => c z) := by
          clear hx hy ih
          induction cs with
          | nil => rfl
          | cons c cs ih => rw [List.map_cons, List.mapM_cons, ih]; rfl
        rw [List.map_cons, List.mapM_cons, ih']; rfl
    rw [this, Option.bind_some, if_neg (by norm_num), Real.log_one, zero_add, List.map_map]
    rfl
  refine ⟨_, _, e x, e y, ?_⟩
  rw [acceptProbability_eq]
  refine ENNReal.ofReal_le_ofReal ((min_le_right _ _).trans ?_)
  rw [Real.exp_sub]
  have pe : ∀ (l : List (R → ℝ)) (z : R), Real.exp ((l.map fun c => Real.log (Phi (-1 * c z / (tol / 8)))).sum) =
      (l.map fun c => Phi (-1 * c z / (tol / 8))).prod := by
    intro l z
    induction l with
    | nil => simp
    | cons c l ih =>
      rw [List.map_cons, List.sum_cons, Real.exp_add, ih, Real.exp_log (hpos _), List.map_cons, List.prod_cons]
  have hpp : ∀ (l : List (R → ℝ)) (z : R), 0 < (l.map fun c => Phi (-1 * c z / (tol / 8))).prod := by
    intro l z
    rw [← pe]; exact Real.exp_pos _
  have lower : ∀ l : List (R → ℝ), (∀ c ∈ l, c x ≤ 0) → (1 / 2 : ℝ) ^ l.length ≤ (l.map fun c => Phi (-1 * c x / (tol / 8))).prod := by
    intro l
    induction l with
    | nil => intro _; simp
    | cons c l ih =>
      intro hc
      rw [List.length_cons, pow_succ, mul_comm, List.map_cons, List.prod_cons]
      refine mul_le_mul ?_ (ih fun c' hc' => hc c' (List.mem_cons_of_mem _ hc')) (by positivity) (hpos _).le
      rw [← hhalf]
      apply hmono
      have := hc c (List.mem_cons_self ..)
      apply div_nonneg <;> linarith
  have upper : ∀ l : List (R → ℝ), (∃ c ∈ l, tol < c y) → (l.map fun c => Phi (-1 * c y / (tol / 8))).prod ≤ Phi (-8) := by
    intro l
    induction l with
    | nil => rintro ⟨c, hc, _⟩; simp at hc
    | cons c l ih =>
      intro hex
      rw [List.map_cons, List.prod_cons]
      have hl1 : (l.map fun c => Phi (-1 * c y / (tol / 8))).prod ≤ 1 := by
        clear ih hex
        induction l with
        | nil => simp
        | cons c l ih =>
          rw [List.map_cons, List.prod_cons]
          exact mul_le_one₀ (hle _) (hpp l y).le ih
      by_cases hc : tol < c y
      · refine (mul_le_of_le_one_right (hpos _).le hl1).trans ?_
        apply hmono
        rw [div_le_iff₀ (by linarith)]
        linarith
      · obtain ⟨c', hm, hv⟩ := hex
        rw [List.mem_cons] at hm
        rcases hm with rfl | hm
        · exact absurd hv hc
        · exact (mul_le_of_le_one_left (hpp l y).le (hle _)).trans (ih ⟨c', hm, hv⟩)
  rw [pe, pe, div_le_iff₀ (hpp _ _)]
  calc _ ≤ Phi (-8) := upper constraints hy
    _ = 2 ^ constraints.length * Phi (-8) * (1 / 2) ^ constraints.length := by
      rw [mul_right_comm, ← mul_pow]; norm_num
    _ ≤ _ := mul_le_mul_of_nonneg_left (lower constraints hx) (mul_nonneg (by positivity) (hpos _).le)

/-- The scale of the constraints goes down from 10 to an eighth of the tolerance, for a tolerance below 80. -/
theorem c124_schedule (tol : ℝ) (h0 : 0 < tol) (h1 : tol < 80) :
    nuSchedule tol 0 = 10 ∧ nuSchedule tol 19 = tol / 8 ∧ ∀ s t : ℕ, s < t → nuSchedule tol t < nuSchedule tol s := by
  have h8 : (0 : ℝ) < tol / 8 := by linarith
  have hlog : Real.logb 10 (tol / 8) < Real.logb 10 10 := Real.logb_lt_logb (by norm_num) h8 (by linarith)
  refine ⟨?_, ?_, ?_⟩
  · unfold nuSchedule
    rw [Nat.cast_zero, zero_div, zero_mul, add_zero, Real.logb_self_eq_one (by norm_num), Real.rpow_one]
  · unfold nuSchedule
    rw [show ((19 : ℕ) / 19 : ℝ) = 1 by norm_num, one_mul, add_sub_cancel, Real.rpow_logb (by norm_num) (by norm_num) h8]
  · intro s t hst
    unfold nuSchedule
    apply Real.rpow_lt_rpow_of_exponent_lt (by norm_num)
    have : (s / 19 : ℝ) < t / 19 := by
      have : (s : ℝ) < t := by exact_mod_cast hst
      linarith
    nlinarith

/-- The hypotheses of `c124_feasible_kept` can be met: a distribution function, one constraint, a feasible and an infeasible point. -/
example : Monotone (fun z : ℝ => if z < 0 then (1 / 4 : ℝ) else 1 / 2) ∧ MeetsAll [fun x : ℝ => x] (-1) ∧ ViolatesBy [fun x : ℝ => x] (1 / 100) 1 := by
  refine ⟨fun a b h => ?_, ?_, ?_⟩
  · dsimp only
    split_ifs <;> first | (exfalso; linarith) | norm_num
  · intro c hc
    rw [List.mem_singleton] at hc
    rw [hc]; norm_num
  · exact ⟨_, List.mem_singleton.2 rfl, by norm_num⟩

/-- The hypotheses of `c123_rule_partial` can be met, and a move refused. -/
example : ∃ s', mhCoordinate 709 (fun x : List ℝ => (x[0]?).map fun v => -v) [[1]] [1 / 2] 0 ([[0]], [0]) = some s' ∧ s'.1 = [[0]] := by
  refine ⟨_, rfl, ?_⟩
  have h : Real.exp (-1) < 1 / 2 := by
    have := Real.add_one_lt_exp (x := 1) one_ne_zero
    rw [Real.exp_neg, inv_lt_comm₀ (Real.exp_pos _) (by norm_num)]
    norm_num
    linarith
  have hz : (0 : ℝ) ≤ Real.exp (-1) := (Real.exp_pos _).le
  simp only [acceptMask, acceptProbs, takeColumn, whereMask, List.zipWith_cons_cons, List.zipWith_nil_right, List.getElem?_cons_zero, Option.elim_some,
    List.set_cons_zero, List.map_cons, List.map_nil, List.mem_singleton, exists_eq_left, Option.map_some, List.zip_cons_cons, List.zip_nil_right]
  norm_num
  exact h

end Verif.Props
