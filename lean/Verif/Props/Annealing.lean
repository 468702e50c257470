import Verif.Spec.Annealing

/-! # C35: temperature schedules of the annealed batch optimiser -/
namespace Verif.Props
open Verif.Model Verif.Spec

private def WorldOk (w : AnnealWorld) : Prop := 1 ≤ w.fresh ∧ ∀ o ∈ w.objs, o.cell < w.fresh

private theorem exec_ok (w : AnnealWorld) (op : AnnealOp) (h : WorldOk w) : WorldOk (annealExec w op) := by
  cases op with
  | create own t0 a =>
    obtain ⟨h1, h2⟩ := h
    cases own
    · refine ⟨h1, ?_⟩
      intro o ho
      simp only [annealExec, List.mem_append, List.mem_singleton] at ho
      rcases ho with ho | ho
      · exact h2 o ho
      · rw [ho]; exact h1
    · refine ⟨by simp [annealExec], ?_⟩
      intro o ho
      simp only [annealExec, List.mem_append, List.mem_singleton, if_true] at ho ⊢
      rcases ho with ho | ho
      · have := h2 o ho; omega
      · rw [ho]; exact Nat.lt_succ_self _
  | ask i iter =>
    simp only [annealExec]
    split
    · exact h
    · exact h

private theorem run_ok (ops : List AnnealOp) (w : AnnealWorld) (h : WorldOk w) : WorldOk (annealRun w ops) := by
  induction ops generalizing w with
  | nil => exact h
  | cons op ops ih => exact ih _ (exec_ok w op h)

/-- The optimiser at position `i` is the only user of its cell, which is not the default dictionary. -/
private def Owns (w : AnnealWorld) (i c : ℕ) (a : Anneal) : Prop :=
  c ≠ 0 ∧ c < w.fresh ∧ w.objs[i]? = some ⟨c, a⟩ ∧ ∀ (j : ℕ) (o : AnnealObj), w.objs[j]? = some o → o.cell = c → j = i

private theorem run_owned (i c : ℕ) (a : Anneal) (ops : List AnnealOp) (w : AnnealWorld) (h : Owns w i c a) :
    Owns (annealRun w ops) i c a ∧
      (annealRun w ops).cells c = (asksOf i ops).foldl (fun t iter => annealStep a iter t) (w.cells c) := by
  induction ops generalizing w with
  | nil => exact ⟨h, rfl⟩
  | cons op ops ih =>
    obtain ⟨h1, h2, h3, h4⟩ := h
    have hlen : i < w.objs.length := by
      by_contra hc
      rw [List.getElem?_eq_none (by omega)] at h3
      cases h3
    cases op with
    | create own t0 b =>
      have hne : c ≠ (if own then w.fresh else 0) := by
        cases own
        · simpa using h1
        · simp; omega
      have hown : Owns (annealExec w (.create own t0 b)) i c a := by
        refine ⟨h1, ?_, ?_, ?_⟩
        · simp only [annealExec]; cases own <;> simp <;> omega
        · simp only [annealExec]; rw [List.getElem?_append_left hlen]; exact h3
        · intro j o hj ho
          simp only [annealExec] at hj
          by_cases hjl : j < w.objs.length
          · rw [List.getElem?_append_left hjl] at hj
            exact h4 j o hj ho
          · rw [List.getElem?_append_right (by omega)] at hj
            have : o = ⟨if own then w.fresh else 0, b⟩ := by
              cases hd : j - w.objs.length with
              | zero => rw [hd] at hj; simpa using hj.symm
              | succ d => rw [hd] at hj; simp at hj
            rw [this] at ho
            exact absurd ho.symm hne
      obtain ⟨k1, k2⟩ := ih _ hown
      refine ⟨k1, ?_⟩
      rw [annealRun, List.foldl_cons, ← annealRun, k2]
      simp only [asksOf, annealExec, Function.update_of_ne hne]
    | ask j iter =>
      by_cases hji : j = i
      · subst hji
        have he : annealExec w (.ask j iter) =
            { w with cells := Function.update w.cells c (annealStep a iter (w.cells c)) } := by
          simp only [annealExec, h3]
        obtain ⟨k1, k2⟩ := ih (annealExec w (.ask j iter)) (by rw [he]; exact ⟨h1, h2, h3, h4⟩)
        refine ⟨k1, ?_⟩
        rw [annealRun, List.foldl_cons, ← annealRun, k2, he]
        simp [asksOf]
      · have he : Owns (annealExec w (.ask j iter)) i c a ∧ (annealExec w (.ask j iter)).cells c = w.cells c := by
          simp only [annealExec]
          cases hj : w.objs[j]? with
          | none => exact ⟨⟨h1, h2, h3, h4⟩, rfl⟩
          | some o =>
            refine ⟨⟨h1, h2, h3, h4⟩, ?_⟩
            apply Function.update_of_ne
            intro hc
            exact hji (h4 j o hj hc.symm)
        obtain ⟨k1, k2⟩ := ih _ he.1
        refine ⟨k1, ?_⟩
        rw [annealRun, List.foldl_cons, ← annealRun, k2, he.2]
        simp [asksOf, hji]

/-- The temperature of an optimiser created with its own dictionary, after any history of creations and asks of this and other
optimisers, is obtained by applying its schedule once per own ask. -/
private theorem own_history (pre post : List AnnealOp) (t0 : ℝ) (a : Anneal) (i : ℕ)
    (hi : i = (annealRun annealWorld0 pre).objs.length) :
    annealTemp (annealRun annealWorld0 (pre ++ .create true t0 a :: post)) i =
      some ((asksOf i post).foldl (fun t iter => annealStep a iter t) t0) := by
  have hw := run_ok pre annealWorld0 ⟨le_rfl, by simp [annealWorld0]⟩
  set w := annealRun annealWorld0 pre with hwd
  have hown : Owns (annealExec w (.create true t0 a)) i w.fresh a := by
    refine ⟨?_, ?_, ?_, ?_⟩
    · have := hw.1; omega
    · simp [annealExec]
    · simp [annealExec, hi]
    · intro j o hj ho
      simp only [annealExec, if_true] at hj
      by_cases hjl : j < w.objs.length
      · rw [List.getElem?_append_left hjl] at hj
        have := hw.2 o (List.mem_of_getElem? hj)
        omega
      · by_contra hne
        rw [List.getElem?_eq_none (by simp; omega)] at hj
        cases hj
  obtain ⟨k1, k2⟩ := run_owned i w.fresh a post _ hown
  have hrun : annealRun annealWorld0 (pre ++ .create true t0 a :: post) =
      annealRun (annealExec w (.create true t0 a)) post := by
    rw [hwd]; simp [annealRun, List.foldl_append]
  rw [hrun]
  unfold annealTemp
  rw [k1.2.2.1, Option.map_some, k2]
  simp [annealExec]

private theorem exp_fold (alpha t0 : ℝ) (l : List ℕ) :
    l.foldl (fun t iter => annealStep (.exp alpha) iter t) t0 = t0 * alpha ^ l.length := by
  induction l generalizing t0 with
  | nil => simp
  | cons x l ih => rw [List.foldl_cons, ih]; simp only [annealStep, List.length_cons, pow_succ]; ring

private theorem linear_fold (eta t0 : ℝ) (l : List ℕ) :
    l.foldl (fun t iter => annealStep (.linear eta) iter t) t0 = t0 - l.length * eta := by
  induction l generalizing t0 with
  | nil => simp
  | cons x l ih => rw [List.foldl_cons, ih]; simp only [annealStep, List.length_cons]; push_cast; ring

/-- C35, partial (the optimiser has its own parameter dictionary, see `c35_default_dictionary_shared`): with the schedule `exp`,
after any history of creations and asks, the temperature is the geometric interpolation at the number of own asks. -/
theorem c35_exp_partial (t0 tf N : ℝ) (h0 : 0 < tf) (h1 : tf < t0) (hN : 0 < N) (pre post : List AnnealOp) (i : ℕ)
    (hi : i = (annealRun annealWorld0 pre).objs.length) :
    ∃ a, annealInit .exp t0 tf N = .ok a ∧
      annealTemp (annealRun annealWorld0 (pre ++ .create true t0 a :: post)) i =
        some (geometric t0 tf N (asksOf i post).length) := by
  refine ⟨_, if_neg hN.ne', ?_⟩
  rw [own_history pre post t0 _ i hi, exp_fold]
  have hr : 0 ≤ tf / t0 := (div_pos h0 (h0.trans h1)).le
  unfold geometric
  rw [← Real.rpow_natCast, ← Real.rpow_mul hr, one_div, mul_comm (N⁻¹), ← div_eq_mul_inv]

/-- C35, partial: the same for the schedule `linear` and the straight line. -/
theorem c35_linear_partial (t0 tf N : ℝ) (hN : 0 < N) (pre post : List AnnealOp) (i : ℕ)
    (hi : i = (annealRun annealWorld0 pre).objs.length) :
    ∃ a, annealInit .linear t0 tf N = .ok a ∧
      annealTemp (annealRun annealWorld0 (pre ++ .create true t0 a :: post)) i =
        some (straight t0 tf N (asksOf i post).length) := by
  refine ⟨_, if_neg hN.ne', ?_⟩
  rw [own_history pre post t0 _ i hi, linear_fold]
  unfold straight
  rw [Option.some.injEq]
  field_simp
  ring

/-- C35: both interpolations start at `t0`, decrease strictly, reach `tf` exactly when the number of asks is the number of
iterations in the budget, and are above `tf` before. -/
theorem c35_endpoints (t0 tf N : ℝ) (h0 : 0 < tf) (h1 : tf < t0) (hN : 0 < N) :
    (geometric t0 tf N 0 = t0 ∧ straight t0 tf N 0 = t0) ∧
    (∀ k l : ℕ, k < l → geometric t0 tf N l < geometric t0 tf N k ∧ straight t0 tf N l < straight t0 tf N k) ∧
    (∀ k : ℕ, (k : ℝ) = N → geometric t0 tf N k = tf ∧ straight t0 tf N k = tf) ∧
    (∀ k : ℕ, (k : ℝ) < N → tf < geometric t0 tf N k ∧ tf < straight t0 tf N k) := by
  have ht0 : 0 < t0 := h0.trans h1
  have hr0 : 0 < tf / t0 := div_pos h0 ht0
  have hr1 : tf / t0 < 1 := (div_lt_one ht0).mpr h1
  have hend : t0 * (tf / t0) ^ (1 : ℝ) = tf := by rw [Real.rpow_one]; field_simp
  refine ⟨⟨by simp [geometric], by simp [straight]⟩, ?_, ?_, ?_⟩
  · intro k l hkl
    have hc : (k : ℝ) / N < (l : ℝ) / N := by
      rw [div_lt_div_iff_of_pos_right hN]
      exact_mod_cast hkl
    refine ⟨mul_lt_mul_of_pos_left (Real.rpow_lt_rpow_of_exponent_gt hr0 hr1 hc) ht0, ?_⟩
    unfold straight
    nlinarith
  · intro k hk
    unfold geometric straight
    rw [hk, div_self hN.ne']
    exact ⟨hend, by ring⟩
  · intro k hk
    have hc : (k : ℝ) / N < 1 := (div_lt_one hN).mpr hk
    constructor
    · have := mul_lt_mul_of_pos_left (Real.rpow_lt_rpow_of_exponent_gt hr0 hr1 hc) ht0
      rwa [hend] at this
    · unfold straight
      nlinarith

/-- C35: if the budget allows `N` full batches after the initial design, the number of iterations used by the schedules is `N`. -/
theorem c35_max_iter (doe nPoint N : ℕ) (hp : 0 < nPoint) : annealMaxIter (doe + N * nPoint) doe nPoint = N := by
  have : (nPoint : ℝ) ≠ 0 := by exact_mod_cast hp.ne'
  unfold annealMaxIter
  push_cast
  field_simp
  ring

/-- C35 refuted without an own dictionary: the parameter dictionary is a default argument, shared by all optimisers.  Creating a
second optimiser with another start temperature changes the temperature of the first one, and every ask of the
second one cools the first one. -/
theorem c35_default_dictionary_shared (t0 t0' : ℝ) (a b : Anneal) (iter : ℕ) :
    annealTemp (annealRun annealWorld0 [.create false t0 a]) 0 = some t0 ∧
    annealTemp (annealRun annealWorld0 [.create false t0 a, .create false t0' b]) 0 = some t0' ∧
    annealTemp (annealRun annealWorld0 [.create false t0 a, .create false t0' b, .ask 1 iter]) 0 =
      some (annealStep b iter t0') := by
  refine ⟨?_, ?_, ?_⟩ <;> simp [annealTemp, annealRun, annealExec, annealWorld0]

/-- C35 refuted for the schedule `log`: the new temperature is multiplied by the old one.  With a budget of one iteration the
final temperature is `t0 * tf` instead of `tf`. -/
theorem c35_log_misses_end (t0 tf : ℝ) (h0 : 0 < tf) (h1 : t0 ≠ 1) :
    ∃ a, annealInit .log t0 tf 1 = .ok a ∧
      annealTemp (annealRun annealWorld0 [.create true t0 a, .ask 0 0]) 0 = some (t0 * tf) ∧ t0 * tf ≠ tf := by
  refine ⟨_, rfl, ?_, ?_⟩
  · have h2 : Real.log 2 ≠ 0 := (Real.log_pos (by norm_num)).ne'
    simp only [annealTemp, annealRun, annealExec, annealWorld0, List.foldl_cons, List.foldl_nil, List.nil_append,
      if_true, List.getElem?_cons_zero, Option.map_some, Function.update_self, annealStep, Nat.cast_zero]
    norm_num
    field_simp
  · intro h
    exact h1 (mul_right_cancel₀ h0.ne' (h.trans (one_mul tf).symm))

/-- C35: if the budget is used up by the initial design the constructor fails. -/
theorem c35_no_budget (t0 tf : ℝ) (doe nPoint : ℕ) :
    annealInit .exp t0 tf (annealMaxIter doe doe nPoint) = .error .zeroDivision ∧
    annealInit .linear t0 tf (annealMaxIter doe doe nPoint) = .error .zeroDivision := by
  simp [annealInit, annealMaxIter]

/-- The hypotheses are met by the default temperatures and a budget of 10 batches; another optimiser is used in between. -/
example (a b : Anneal) : (0 : ℝ) < 1 / 10 ∧ (1 / 10 : ℝ) < 2 ∧ (0 : ℝ) < annealMaxIter 35 5 3 ∧
    1 = (annealRun annealWorld0 [.create false 3 b]).objs.length ∧
    asksOf 1 [.ask 1 0, .ask 0 7, .create true 1 a, .ask 1 1] = [0, 1] := by
  refine ⟨by norm_num, by norm_num, by norm_num [annealMaxIter], rfl, by simp [asksOf]⟩

end Verif.Props
