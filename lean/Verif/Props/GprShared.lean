import Verif.Spec.GprShared
import Verif.Props.Likelihood
import Verif.Props.Gpr

/-!
# C169: Gaussian processes do not influence each other
-/
namespace Verif.Props

open Matrix Verif.Model Verif.Spec Verif.Proofs

section

variable {k : ℕ} {P : Type*} {chol : ∀ N, Matrix (Fin N) (Fin N) ℝ → Option (Matrix (Fin N) (Fin N) ℝ)}
  {qr : ∀ N, Matrix (Fin N) (Fin k) ℝ → Matrix (Fin N) (Fin k) ℝ × Matrix (Fin k) (Fin k) ℝ}

private theorem history_inv {w w' : GpWorld k P} {h : List (GpOp k P)} (hrun : gpHistory chol qr w h = some w')
    {I : GpWorld k P → Prop} (h0 : I w) (hs : ∀ o ∈ h, ∀ u u', I u → gpOp chol qr u o = some u' → I u') : I w' := by
  induction h generalizing w with
  | nil => simp only [gpHistory, List.foldlM_nil, Option.pure_def, Option.some.injEq] at hrun; exact hrun ▸ h0
  | cons o h ih =>
    simp only [gpHistory, List.foldlM_cons, Option.bind_eq_bind, Option.bind_eq_some_iff] at hrun
    obtain ⟨u, h1, h2⟩ := hrun
    exact ih h2 (hs o List.mem_cons_self w u h0 h1) fun o' ho' => hs o' (List.mem_cons_of_mem _ ho')

private theorem history_append {w w' : GpWorld k P} {h1 h2 : List (GpOp k P)} (hrun : gpHistory chol qr w (h1 ++ h2) = some w') :
    ∃ u, gpHistory chol qr w h1 = some u ∧ gpHistory chol qr u h2 = some w' := by
  simpa only [gpHistory, List.foldlM_append, Option.bind_eq_bind, Option.bind_eq_some_iff] using hrun

private theorem history_cons {w w' : GpWorld k P} {o : GpOp k P} {h : List (GpOp k P)} (hrun : gpHistory chol qr w (o :: h) = some w') :
    ∃ u, gpOp chol qr w o = some u ∧ gpHistory chol qr u h = some w' := by
  simpa only [gpHistory, List.foldlM_cons, Option.bind_eq_bind, Option.bind_eq_some_iff] using hrun

private theorem fit_cases {u u' : GpWorld k P} {n : ℕ} {d : FitInput k P} (h : gpFit chol qr u n d = some u') :
    ∃ m a, u.models n = some m ∧
      computeAux (chol d.N) (qr d.N) (gpMatrix (d.search (usedBeta u m)).mode (d.search (usedBeta u m)).R0) d.F (usedBeta u m) d.y = some a ∧
      u' = { beta := if m.estimate then Function.update u.beta m.trend (some (gpBeta a none)) else u.beta
             models := Function.update u.models n (some { m with fitted := some ⟨d.N, a, (d.search (usedBeta u m)).sigma2, (d.search (usedBeta u m)).r⟩ }) } := by
  simp only [gpFit, Option.bind_eq_some_iff, Option.map_eq_some_iff] at h
  obtain ⟨m, hm, a, ha, he⟩ := h
  exact ⟨m, a, hm, ha, he.symm⟩

/-- Before the model is built: no model works with the trend object. -/
private def Unused (t : ℕ) (b0 : Option (Fin k → ℝ)) (w : GpWorld k P) : Prop :=
  w.beta t = b0 ∧ ∀ n m, w.models n = some m → m.trend ≠ t

/-- After it is built: only this model does. -/
private def Owned (n t : ℕ) (b0 : Option (Fin k → ℝ)) (w : GpWorld k P) : Prop :=
  (∀ n' m, w.models n' = some m → m.trend = t → n' = n) ∧
  (∃ m, w.models n = some m ∧ m.trend = t ∧ m.estimate = b0.isNone) ∧ (b0 ≠ none → w.beta t = b0)

/-- After it is trained with the outcome `q`. -/
private def Holds (n t : ℕ) (b0 : Option (Fin k → ℝ)) (q : FittedPart k P) (w : GpWorld k P) : Prop :=
  Owned n t b0 w ∧ (∃ m, w.models n = some m ∧ m.fitted = some q) ∧ w.beta t = some (gpBeta q.aux b0)

private theorem unused_step {t : ℕ} {b0 : Option (Fin k → ℝ)} {u u' : GpWorld k P} {o : GpOp k P} (hu : Unused t b0 u)
    (ho : ¬BuildsOn t o) (h : gpOp chol qr u o = some u') : Unused t b0 u' := by
  obtain ⟨h1, h2⟩ := hu
  cases o with
  | make n t' =>
    simp only [gpOp, gpMake, Option.some.injEq] at h
    subst h
    refine ⟨h1, fun n' m hm => ?_⟩
    by_cases hn : n' = n
    · subst hn
      simp only [Function.update_self, Option.some.injEq] at hm
      subst hm; exact ho
    · simp only [Function.update_of_ne hn] at hm
      exact h2 n' m hm
  | fit n d =>
    obtain ⟨m, a, hm, -, rfl⟩ := fit_cases (show gpFit chol qr u n d = some u' from h)
    have hne := h2 n m hm
    refine ⟨?_, fun n' m' hm' => ?_⟩
    · dsimp only
      split_ifs
      · rw [Function.update_of_ne (Ne.symm hne)]; exact h1
      · exact h1
    · by_cases hn : n' = n
      · subst hn
        simp only [Function.update_self, Option.some.injEq] at hm'
        subst hm'; exact hne
      · simp only [Function.update_of_ne hn] at hm'
        exact h2 n' m' hm'

private theorem make_owned {n t : ℕ} {b0 : Option (Fin k → ℝ)} {u u' : GpWorld k P} (hu : Unused t b0 u)
    (h : gpOp chol qr u (.make n t) = some u') : Owned n t b0 u' := by
  obtain ⟨h1, h2⟩ := hu
  simp only [gpOp, gpMake, Option.some.injEq] at h
  subst h
  refine ⟨fun n' m hm ht => ?_, ⟨{ trend := t, estimate := (u.beta t).isNone, fitted := none }, by simp, rfl, by rw [h1]⟩, fun _ => h1⟩
  by_contra hn
  simp only [Function.update_of_ne hn] at hm
  exact h2 n' m hm ht

private theorem owned_step {n t : ℕ} {b0 : Option (Fin k → ℝ)} {u u' : GpWorld k P} {o : GpOp k P} (hu : Owned n t b0 u)
    (ho : ¬BuildsOn t o) (ho' : ¬BuildsAs n o) (h : gpOp chol qr u o = some u') : Owned n t b0 u' := by
  obtain ⟨h1, ⟨m0, hm0, ht0, he0⟩, h3⟩ := hu
  cases o with
  | make n1 t1 =>
    simp only [gpOp, gpMake, Option.some.injEq] at h
    subst h
    have hne : n ≠ n1 := fun e => ho' e.symm
    refine ⟨fun n' m hm ht => ?_, ⟨m0, by simp only [Function.update_of_ne hne, hm0], ht0, he0⟩, h3⟩
    by_cases hn : n' = n1
    · subst hn
      simp only [Function.update_self, Option.some.injEq] at hm
      subst hm; exact absurd ht ho
    · simp only [Function.update_of_ne hn] at hm
      exact h1 n' m hm ht
  | fit n1 d =>
    obtain ⟨m, a, hm, -, rfl⟩ := fit_cases (show gpFit chol qr u n1 d = some u' from h)
    refine ⟨fun n' m' hm' ht => ?_, ?_, fun hb => ?_⟩
    · by_cases hn : n' = n1
      · subst hn
        simp only [Function.update_self, Option.some.injEq] at hm'
        subst hm'; exact h1 _ m hm ht
      · simp only [Function.update_of_ne hn] at hm'
        exact h1 n' m' hm' ht
    · by_cases hn : n = n1
      · subst hn
        obtain rfl : m0 = m := by rw [hm0] at hm; exact Option.some.inj hm
        exact ⟨_, Function.update_self .., ht0, he0⟩
      · exact ⟨m0, by simp only [Function.update_of_ne hn, hm0], ht0, he0⟩
    · dsimp only
      split_ifs with he
      · by_cases ht : m.trend = t
        · obtain rfl := h1 n1 m hm ht
          obtain rfl : m0 = m := by rw [hm0] at hm; exact Option.some.inj hm
          rw [he0] at he
          exact absurd (Option.isNone_iff_eq_none.1 he) hb
        · rw [Function.update_of_ne (Ne.symm ht)]; exact h3 hb
      · exact h3 hb

private theorem owned_used {n t : ℕ} {b0 : Option (Fin k → ℝ)} {u : GpWorld k P} (hu : Owned n t b0 u) {m : GpModel k P}
    (hm : u.models n = some m) : m.trend = t ∧ m.estimate = b0.isNone ∧ usedBeta u m = b0 := by
  obtain ⟨-, ⟨m0, hm0, ht0, he0⟩, h3⟩ := hu
  obtain rfl : m0 = m := by rw [hm0] at hm; exact Option.some.inj hm
  refine ⟨ht0, he0, ?_⟩
  unfold usedBeta
  rw [he0, ht0]
  cases b0 with
  | none => simp
  | some b => simpa using h3 (by simp)

private theorem fit_holds {n t : ℕ} {b0 : Option (Fin k → ℝ)} {u u' : GpWorld k P} {d : FitInput k P} (hu : Owned n t b0 u)
    (h : gpOp chol qr u (.fit n d) = some u') :
    ∃ a, computeAux (chol d.N) (qr d.N) (gpMatrix (d.search b0).mode (d.search b0).R0) d.F b0 d.y = some a ∧
      Holds n t b0 { N := d.N, aux := a, sigma2 := (d.search b0).sigma2, r := (d.search b0).r } u' := by
  have ho := owned_step hu (o := .fit n d) (by simp [BuildsOn]) (by simp [BuildsAs]) h
  obtain ⟨m, a, hm, ha, rfl⟩ := fit_cases (show gpFit chol qr u n d = some u' from h)
  obtain ⟨ht, he, hb⟩ := owned_used hu hm
  rw [hb] at ha
  refine ⟨a, ha, ho, ⟨_, Function.update_self .., by rw [hb]⟩, ?_⟩
  dsimp only
  cases b0 with
  | none => rw [if_pos (by simpa using he), ht, Function.update_self]
  | some b =>
    rw [if_neg (by simp [he])]
    exact hu.2.2 (by simp)

private theorem holds_step {n t : ℕ} {b0 : Option (Fin k → ℝ)} {q : FittedPart k P} {u u' : GpWorld k P} {o : GpOp k P}
    (hu : Holds n t b0 q u) (ho : ¬BuildsOn t o) (ho' : ¬BuildsAs n o) (ht : ¬TrainsModel n o) (h : gpOp chol qr u o = some u') :
    Holds n t b0 q u' := by
  obtain ⟨h1, ⟨m0, hm0, hf⟩, h3⟩ := hu
  refine ⟨owned_step h1 ho ho' h, ?_⟩
  cases o with
  | make n1 t1 =>
    simp only [gpOp, gpMake, Option.some.injEq] at h
    subst h
    exact ⟨⟨m0, by simp only [Function.update_of_ne (show n ≠ n1 from fun e => ho' e.symm), hm0], hf⟩, h3⟩
  | fit n1 d =>
    obtain ⟨m, a, hm, -, rfl⟩ := fit_cases (show gpFit chol qr u n1 d = some u' from h)
    have hne : n ≠ n1 := fun e => ht e.symm
    refine ⟨⟨m0, by simp only [Function.update_of_ne hne, hm0], hf⟩, ?_⟩
    dsimp only
    split_ifs
    · have : m.trend ≠ t := fun e => hne (h1.1 n1 m hm e).symm
      rw [Function.update_of_ne (Ne.symm this)]; exact h3
    · exact h3

private theorem holds_ask {n t : ℕ} {b0 : Option (Fin k → ℝ)} {q : FittedPart k P} {u : GpWorld k P} (hu : Holds n t b0 q u)
    (f : P → Fin k → ℝ) (p : P) :
    gpAsk u n f p = some (gpMean q.aux b0 (f p) (q.r p), gpMse q.aux b0 q.sigma2 (f p) (q.r p)) := by
  obtain ⟨h1, ⟨m, hm, hf⟩, h3⟩ := hu
  obtain ⟨ht, he, -⟩ := owned_used h1 hm
  simp only [gpAsk, hm, hf, ht, h3, Option.bind_some, Option.map_some, gpMean]
  cases b0 with
  | none => simp [he]
  | some b => simp [he, gpBeta]

/-- **C169** (the part that holds).  Take any program that builds Gaussian processes and trains them in any order, in which model `n`
is the only one built on its trend object `t`.  Then `n` predicts what a single model predicts that was built with the coefficients
which `t` had at the start, and trained once, on the data that `n` was trained on last. -/
theorem c169_own_trend_partial (beta : ℕ → Option (Fin k → ℝ)) (h1 h2 h3 : List (GpOp k P)) (n t : ℕ) (d : FitInput k P)
    (ht : ∀ o ∈ h1 ++ h2 ++ h3, ¬BuildsOn t o) (hn : ∀ o ∈ h2 ++ h3, ¬BuildsAs n o) (hlast : ∀ o ∈ h3, ¬TrainsModel n o)
    (w : GpWorld k P)
    (hrun : gpHistory chol qr { beta := beta, models := fun _ => none } (h1 ++ .make n t :: (h2 ++ .fit n d :: h3)) = some w)
    (f : P → Fin k → ℝ) (p : P) :
    gpAsk w n f p = trainedAlone chol qr (beta t) d f p ∧ (gpAsk w n f p).isSome := by
  obtain ⟨w1, r1, r⟩ := history_append hrun
  obtain ⟨w2, r2, r⟩ := history_cons r
  obtain ⟨w3, r3, r⟩ := history_append r
  obtain ⟨w4, r4, r5⟩ := history_cons r
  have i1 : Unused t (beta t) w1 := history_inv r1 (I := Unused t (beta t)) ⟨rfl, by simp⟩
    fun o ho u u' hu => unused_step hu (ht o (by simp [ho]))
  have i2 := make_owned i1 r2
  have i3 : Owned n t (beta t) w3 := history_inv r3 (I := Owned n t (beta t)) i2
    fun o ho u u' hu => owned_step hu (ht o (by simp [ho])) (hn o (by simp [ho]))
  obtain ⟨a, ha, i4⟩ := fit_holds i3 r4
  have i5 : Holds n t (beta t) _ w := history_inv r5 (I := Holds n t (beta t) _) i4
    fun o ho u u' hu => holds_step hu (ht o (by simp [ho])) (hn o (by simp [ho])) (hlast o ho)
  have hask := holds_ask i5 f p
  refine ⟨?_, by rw [hask]; rfl⟩
  rw [hask]
  simp only [trainedAlone, gpPredict, ha, Option.map_some]

private theorem best_beta {d : FitInput k P} (hc : CholeskyRoutine (chol d.N)) (hq : QrRoutine (qr d.N)) (hF : FullRank d.F)
    {b : Fin k → ℝ} (hb : BestTrend d b) {a : GpAux d.N k}
    (h : computeAux (chol d.N) (qr d.N) (gpMatrix (d.search none).mode (d.search none).R0) d.F none d.y = some a) : gpBeta a none = b := by
  unfold BestTrend at hb
  generalize gpMatrix (d.search none).mode (d.search none).R0 = R at h hb
  simp only [computeAux, Option.map_eq_some_iff] at h
  obtain ⟨L, hL, rfl⟩ := h
  have hch := hc R L hL
  have hdet := chol_det hch
  have hqr := hq (L⁻¹ * d.F)
  have hG := qr_unit hdet hqr hF
  simp only [gpBeta]
  generalize (qr d.N (L⁻¹ * d.F)).1 = Q at *
  generalize (qr d.N (L⁻¹ * d.F)).2 = G at *
  have e : L⁻¹ *ᵥ (d.F *ᵥ b) = Q *ᵥ (G *ᵥ b) := by rw [mulVec_mulVec, mulVec_mulVec, hqr.mul]
  have eR : R⁻¹ = L⁻¹ᵀ * L⁻¹ := by rw [← hch.mul, Matrix.mul_inv_rev, transpose_nonsing_inv]
  have h0 : Gᵀ *ᵥ (Qᵀ *ᵥ (L⁻¹ *ᵥ (d.y - d.F *ᵥ b))) = 0 := by
    rw [mulVec_mulVec _ Gᵀ, ← transpose_mul, hqr.mul, transpose_mul, ← mulVec_mulVec, mulVec_mulVec _ L⁻¹ᵀ, ← eR]
    exact hb
  have hGt : IsUnit Gᵀ.det := by rwa [det_transpose]
  have h1 : Qᵀ *ᵥ (L⁻¹ *ᵥ (d.y - d.F *ᵥ b)) = 0 := by
    have := congrArg (fun v => Gᵀ⁻¹ *ᵥ v) h0
    simpa only [mulVec_mulVec _ Gᵀ⁻¹, nonsing_inv_mul _ hGt, one_mulVec, mulVec_zero] using this
  rw [mulVec_sub, mulVec_sub, e, mulVec_mulVec _ Qᵀ Q, hqr.orth, one_mulVec, sub_eq_zero] at h1
  rw [h1, mulVec_mulVec, nonsing_inv_mul _ hG, one_mulVec]

private theorem beta_none_set {u u' : GpWorld k P} {n t : ℕ} {d : FitInput k P} {m : GpModel k P} (hm : u.models n = some m)
    (ht : m.trend = t) (he : m.estimate = true) (h : gpOp chol qr u (.fit n d) = some u') :
    ∃ a, computeAux (chol d.N) (qr d.N) (gpMatrix (d.search none).mode (d.search none).R0) d.F none d.y = some a ∧
      u' = { beta := Function.update u.beta t (some (gpBeta a none))
             models := Function.update u.models n (some { m with fitted := some ⟨d.N, a, (d.search none).sigma2, (d.search none).r⟩ }) } := by
  obtain ⟨m', a, hm', ha, rfl⟩ := fit_cases (show gpFit chol qr u n d = some u' from h)
  obtain rfl : m = m' := by rw [hm] at hm'; exact Option.some.inj hm'
  have hb : usedBeta u m = none := by simp [usedBeta, he]
  rw [hb] at ha
  exact ⟨a, ha, by rw [hb, if_pos he, ht]⟩

/-- **C169**, what sharing does to the model that was trained first.  Two models are built on one trend object with coefficients to be
estimated, the first is trained on `d1`, the second on `d2`.  Training the second one shifts every prediction of the first: the
difference is the trend that fits `d2` best minus the one that fits `d1` best.  The predicted error stays the same. -/
theorem c169_shared_shift (beta : ℕ → Option (Fin k → ℝ)) (n1 n2 t : ℕ) (hn : n1 ≠ n2) (ht : beta t = none) (d1 d2 : FitInput k P)
    (hc : ∀ N, CholeskyRoutine (chol N)) (hq1 : QrRoutine (qr d1.N)) (hq2 : QrRoutine (qr d2.N)) (hF1 : FullRank d1.F)
    (hF2 : FullRank d2.F) (b1 b2 : Fin k → ℝ) (hb1 : BestTrend d1 b1) (hb2 : BestTrend d2 b2) (w : GpWorld k P)
    (hrun : gpHistory chol qr { beta := beta, models := fun _ => none } [.make n1 t, .make n2 t, .fit n1 d1, .fit n2 d2] = some w)
    (f : P → Fin k → ℝ) (p : P) :
    ∃ m v, trainedAlone chol qr none d1 f p = some (m, v) ∧ gpAsk w n1 f p = some (m + f p ⬝ᵥ (b2 - b1), v) := by
  obtain ⟨w1, r1, hrun⟩ := history_cons hrun
  obtain ⟨w2, r2, hrun⟩ := history_cons hrun
  obtain ⟨w3, r3, hrun⟩ := history_cons hrun
  obtain ⟨w4, r4, hrun⟩ := history_cons hrun
  simp only [gpHistory, List.foldlM_nil, Option.pure_def, Option.some.injEq] at hrun
  subst hrun
  simp only [gpOp, gpMake, Option.some.injEq] at r1
  subst r1
  simp only [gpOp, gpMake, Option.some.injEq, ht, Option.isNone_none] at r2
  subst r2
  obtain ⟨a, ha, rfl⟩ := beta_none_set (m := { trend := t, estimate := true, fitted := none }) (by simp [Function.update_of_ne hn]) rfl rfl r3
  obtain ⟨a', ha', rfl⟩ := beta_none_set (m := { trend := t, estimate := true, fitted := none })
    (by simp [Function.update_of_ne hn.symm]) rfl rfl r4
  rw [best_beta (hc _) hq2 hF2 hb2 ha']
  refine ⟨gpMean a none (f p) ((d1.search none).r p), gpMse a none (d1.search none).sigma2 (f p) ((d1.search none).r p), ?_, ?_⟩
  · simp only [trainedAlone, gpPredict, ha, Option.map_some]
  simp only [gpAsk, Function.update_of_ne hn, Function.update_self, Option.bind_some, Option.map_some, if_true, Option.some.injEq, Prod.mk.injEq]
  refine ⟨?_, trivial⟩
  rw [gpMean, best_beta (hc _) hq1 hF1 hb1 ha, dotProduct_sub]
  ring

private theorem later_ask (beta : ℕ → Option (Fin k → ℝ)) (models : ℕ → Option (GpModel k P)) (n t : ℕ) (b : Fin k → ℝ)
    (hb : beta t = some b) {N : ℕ} (a : GpAux N k) (sigma2 : ℝ) (r : P → Fin N → ℝ) (f : P → Fin k → ℝ) (p : P) :
    gpAsk { beta := beta, models := Function.update models n (some { trend := t, estimate := false, fitted := some ⟨N, a, sigma2, r⟩ }) } n f p =
      some (f p ⬝ᵥ b + r p ⬝ᵥ gpGamma a, gpMse a (some b) sigma2 (f p) (r p)) := by
  simp only [gpAsk, Function.update_self, hb, Option.bind_some, Option.map_some, Bool.false_eq_true, if_false]

/-- **C169**, what sharing does to the model that was built later.  A model is trained on `d1`; another one is then built on the same
trend object.  The coefficients count as given there: whatever the second model is trained on, it predicts what a single model
predicts that was built with the coefficients `b` which fit `d1` best and, at every point that is uncorrelated with its data, the
trend of the first data set. -/
theorem c169_shared_later (beta : ℕ → Option (Fin k → ℝ)) (n1 n2 t : ℕ) (ht : beta t = none) (d1 d2 : FitInput k P)
    (b : Fin k → ℝ) (hc : ∀ N, CholeskyRoutine (chol N)) (hq : QrRoutine (qr d1.N)) (hF : FullRank d1.F) (hb : BestTrend d1 b)
    (w : GpWorld k P) (hrun : gpHistory chol qr { beta := beta, models := fun _ => none }
      [.make n1 t, .fit n1 d1, .make n2 t, .fit n2 d2] = some w) (f : P → Fin k → ℝ) (p : P) :
    gpAsk w n2 f p = trainedAlone chol qr (some b) d2 f p ∧
    ((d2.search (some b)).r p = 0 → ∃ v, gpAsk w n2 f p = some (f p ⬝ᵥ b, v)) := by
  obtain ⟨w1, r1, hrun⟩ := history_cons hrun
  obtain ⟨w2, r2, hrun⟩ := history_cons hrun
  obtain ⟨w3, r3, hrun⟩ := history_cons hrun
  obtain ⟨w4, r4, hrun⟩ := history_cons hrun
  simp only [gpHistory, List.foldlM_nil, Option.pure_def, Option.some.injEq] at hrun
  subst hrun
  simp only [gpOp, gpMake, Option.some.injEq, ht, Option.isNone_none] at r1
  subst r1
  obtain ⟨a, ha, rfl⟩ := beta_none_set (m := { trend := t, estimate := true, fitted := none }) (by simp) rfl rfl r2
  rw [best_beta (hc _) hq hF hb ha] at r3
  simp only [gpOp, gpMake, Option.some.injEq, Function.update_self, Option.isNone_some] at r3
  subst r3
  obtain ⟨m, a', hm, ha', rfl⟩ := fit_cases (show gpFit chol qr _ n2 d2 = some w4 from r4)
  simp only [Function.update_self, Option.some.injEq] at hm
  subst hm
  simp only [usedBeta, Bool.false_eq_true, if_false, Function.update_self] at ha'
  simp only [usedBeta, Bool.false_eq_true, if_false, Function.update_self]
  rw [later_ask _ _ n2 t b (by simp)]
  refine ⟨?_, fun hr => ⟨_, by rw [hr, zero_dotProduct, add_zero]⟩⟩
  simp only [trainedAlone, gpPredict, ha', Option.map_some, gpMean, gpBeta]

end

section

/-- Two observations at 0 and 1, with the squared exponential correlation and a constant trend. -/
noncomputable def twoAt (y0 y1 : ℝ) : FitInput 1 (Fin 1 → ℝ) where
  N := 2
  F := of fun _ _ => 1
  y := ![y0, y1]
  search := fun _ =>
    { mode := .noiseless, R0 := of (correlationMatrix sq1 fun i _ => (i.val : ℝ)), sigma2 := 2,
      r := corrVector sq1 fun (i : Fin 2) _ => (i.val : ℝ) }

private theorem two_ideal : (idealChol (of (correlationMatrix sq1 fun (i : Fin 2) _ => (i.val : ℝ)))).isSome := by
  obtain ⟨L, hL⟩ := Option.isSome_iff_exists.1 sq1_chol
  exact idealChol_complete ⟨L, anyChol_routine _ _ hL⟩

private theorem two_aux (b : Option (Fin 1 → ℝ)) (y : Fin 2 → ℝ) :
    ∃ a, computeAux idealChol idealQr (gpMatrix .noiseless (of (correlationMatrix sq1 fun (i : Fin 2) _ => (i.val : ℝ))))
      (of fun _ _ => 1 : Matrix (Fin 2) (Fin 1) ℝ) b y = some a := by
  obtain ⟨L, hL⟩ := Option.isSome_iff_exists.1 two_ideal
  exact ⟨_, by simp only [computeAux, gpMatrix, hL, Option.map_some]; rfl⟩

private theorem two_best (y0 y1 : ℝ) : BestTrend (twoAt y0 y1) fun _ => (y0 + y1) / 2 := by
  obtain ⟨L, hL⟩ := Option.isSome_iff_exists.1 two_ideal
  have hch := idealChol_routine _ _ hL
  set R := of (correlationMatrix sq1 fun (i : Fin 2) _ => (i.val : ℝ)) with hR
  have h00 : R 0 0 = 1 := by simp [hR, correlationMatrix_apply]
  have h11 : R 1 1 = 1 := by simp [hR, correlationMatrix_apply]
  have hs : R 1 0 = R 0 1 := by
    rw [← hch.mul]
    simp [Matrix.mul_apply, mul_comm]
  have hdet : IsUnit R.det := by
    have := chol_det hch
    rw [← hch.mul, det_mul, det_transpose]
    exact this.mul this
  have he : ∀ e : ℝ, R *ᵥ ![-e, e] = (1 - R 0 1) • ![-e, e] := by
    intro e
    ext i
    fin_cases i
    · simp [mulVec, dotProduct, Fin.sum_univ_two, h00]; ring
    · simp [mulVec, dotProduct, Fin.sum_univ_two, h11, hs]; ring
  have hne : 1 - R 0 1 ≠ 0 := by
    intro h0
    have h1 := he 1
    rw [h0, zero_smul] at h1
    have h2 := congrArg (fun v => R⁻¹ *ᵥ v) h1
    simp only [mulVec_mulVec, nonsing_inv_mul _ hdet, one_mulVec, mulVec_zero] at h2
    have := congrFun h2 1
    simp at this
  have hv : (twoAt y0 y1).y - (twoAt y0 y1).F *ᵥ (fun _ => (y0 + y1) / 2) = ![-((y1 - y0) / 2), (y1 - y0) / 2] := by
    have hc : (of fun _ _ => 1 : Matrix (Fin 2) (Fin 1) ℝ) *ᵥ (fun _ => (y0 + y1) / 2) = ![(y0 + y1) / 2, (y0 + y1) / 2] := by
      ext i
      fin_cases i <;> simp [mulVec, dotProduct]
    change ![y0, y1] - (of fun _ _ => 1 : Matrix (Fin 2) (Fin 1) ℝ) *ᵥ (fun _ => (y0 + y1) / 2) = _
    rw [hc]
    ext i
    fin_cases i
    · change y0 - (y0 + y1) / 2 = -((y1 - y0) / 2); ring
    · change y1 - (y0 + y1) / 2 = (y1 - y0) / 2; ring
  have hinv : R⁻¹ *ᵥ ![-((y1 - y0) / 2), (y1 - y0) / 2] = (1 - R 0 1)⁻¹ • ![-((y1 - y0) / 2), (y1 - y0) / 2] := by
    have h1 := congrArg (fun v => (1 - R 0 1)⁻¹ • (R⁻¹ *ᵥ v)) (he ((y1 - y0) / 2))
    simp only [mulVec_mulVec, nonsing_inv_mul _ hdet, one_mulVec, mulVec_smul, smul_smul, inv_mul_cancel₀ hne, one_smul] at h1
    exact h1.symm
  unfold BestTrend
  rw [hv]
  change (of fun _ _ => 1 : Matrix (Fin 2) (Fin 1) ℝ)ᵀ *ᵥ (R⁻¹ *ᵥ ![-((y1 - y0) / 2), (y1 - y0) / 2]) = 0
  rw [hinv]
  ext i
  simp [mulVec, dotProduct, Fin.sum_univ_two]

/-- **C169** is false in general: two models on one constant trend, trained on the observations 0, 2 and 10, 12.  Before the second
one is trained the first predicts its own observation 0 with error 0; afterwards it predicts 10, still with error 0. -/
theorem c169_refuted : ∃ w1 w2 : GpWorld 1 (Fin 1 → ℝ),
    gpHistory (fun _ => idealChol) (fun _ => idealQr) { beta := fun _ => none, models := fun _ => none }
      [.make 0 0, .make 1 0, .fit 0 (twoAt 0 2)] = some w1 ∧
    gpOp (fun _ => idealChol) (fun _ => idealQr) w1 (.fit 1 (twoAt 10 12)) = some w2 ∧
    gpAsk w1 0 (fun _ _ => 1) (fun _ => 0) = some (0, 0) ∧ gpAsk w2 0 (fun _ _ => 1) (fun _ => 0) = some (10, 0) := by
  obtain ⟨a1, ha1⟩ := two_aux none ![0, 2]
  obtain ⟨a2, ha2⟩ := two_aux none ![10, 12]
  have hq : ∀ y0 y1, QrRoutine (idealQr (N := (twoAt y0 y1).N) (k := 1)) := fun y0 y1 => idealQr_routine (N := 2) (k := 1) (by norm_num)
  have hF : ∀ y0 y1, FullRank (twoAt y0 y1).F := fun y0 y1 => const_rank
  have halone : trainedAlone (fun _ => idealChol) (fun _ => idealQr) none (twoAt 0 2) (fun _ _ => 1) (fun _ => 0) = some (0, 0) := by
    have := c97_interpolates idealChol_routine (idealQr_routine (N := 2) (k := 1) (by norm_num)) .squaredExponential [1] (by simp) sq1 sq1_corr
      (fun (i : Fin 2) _ => (i.val : ℝ)) (fun _ _ => 1) none (fun _ => const_rank) two_ideal 2 ![0, 2] 0
    simpa [trainedAlone, twoAt] using this
  obtain ⟨w1, h1⟩ : ∃ w, gpHistory (fun _ => idealChol) (fun _ => idealQr) { beta := fun _ => none, models := fun _ => none }
      [.make 0 0, .make 1 0, .fit 0 (twoAt 0 2)] = some w := by
    simp [gpHistory, gpOp, gpMake, gpFit, usedBeta, twoAt, ha1]
  obtain ⟨w2, h2⟩ : ∃ w, gpHistory (fun _ => idealChol) (fun _ => idealQr) { beta := fun _ => none, models := fun _ => none }
      [.make 0 0, .make 1 0, .fit 0 (twoAt 0 2), .fit 1 (twoAt 10 12)] = some w := by
    simp [gpHistory, gpOp, gpMake, gpFit, usedBeta, twoAt, ha1, ha2]
  have h12 : gpOp (fun _ => idealChol) (fun _ => idealQr) w1 (.fit 1 (twoAt 10 12)) = some w2 := by
    obtain ⟨u, hu1, hu2⟩ := history_append (h1 := [.make 0 0, .make 1 0, .fit 0 (twoAt 0 2)]) (h2 := [.fit 1 (twoAt 10 12)]) h2
    rw [h1] at hu1
    cases hu1
    obtain ⟨v, hv1, hv2⟩ := history_cons hu2
    simp only [gpHistory, List.foldlM_nil, Option.pure_def, Option.some.injEq] at hv2
    rw [hv1, hv2]
  refine ⟨w1, w2, h1, h12, ?_, ?_⟩
  · rw [← halone]
    simp [gpHistory, gpOp, gpMake, gpFit, usedBeta, twoAt, ha1] at h1
    subst h1
    simp [gpAsk, trainedAlone, twoAt, gpPredict, ha1, gpMean]
    exact (Fin.sum_univ_two fun i => corrVector sq1 (fun (i : Fin 2) _ => (i.val : ℝ)) (fun _ => 0) i * gpGamma a1 i).symm
  · obtain ⟨m, v, hm, hask⟩ := c169_shared_shift (fun _ => none) 0 1 0 (by decide) rfl (twoAt 0 2) (twoAt 10 12)
      (fun _ => idealChol_routine) (hq _ _) (hq _ _) (hF _ _) (hF _ _) _ _ (two_best 0 2) (two_best 10 12) w2 h2 (fun _ _ => 1) (fun _ => 0)
    rw [halone, Option.some.injEq, Prod.mk.injEq] at hm
    rw [hask, ← hm.1, ← hm.2]
    norm_num [dotProduct]

/-- The hypotheses of the positive part are met by two models on different trend objects, with training interleaved and repeated. -/
example : ∃ w, gpHistory (fun _ => idealChol) (fun _ => idealQr) { beta := fun _ => none, models := fun _ => none }
      ([.make 0 0] ++ .make 1 5 :: ([.fit 1 (twoAt 3 4), .fit 0 (twoAt 0 2)] ++ .fit 1 (twoAt 10 12) :: [.fit 0 (twoAt 7 7)])) = some w ∧
    gpAsk w 1 (fun _ _ => 1) (fun _ => 0) =
      trainedAlone (fun _ => idealChol) (fun _ => idealQr) none (twoAt 10 12) (fun _ _ => 1) (fun _ => 0) := by
  obtain ⟨a1, ha1⟩ := two_aux none ![0, 2]
  obtain ⟨a2, ha2⟩ := two_aux none ![10, 12]
  obtain ⟨a3, ha3⟩ := two_aux none ![3, 4]
  obtain ⟨a4, ha4⟩ := two_aux none ![7, 7]
  obtain ⟨w, hw⟩ : ∃ w, gpHistory (fun _ => idealChol) (fun _ => idealQr) { beta := fun _ => none, models := fun _ => none }
      ([.make 0 0] ++ .make 1 5 :: ([.fit 1 (twoAt 3 4), .fit 0 (twoAt 0 2)] ++ .fit 1 (twoAt 10 12) :: [.fit 0 (twoAt 7 7)])) = some w := by
    simp [gpHistory, gpOp, gpMake, gpFit, usedBeta, twoAt, ha1, ha2, ha3, ha4, Function.update_of_ne]
  exact ⟨w, hw, (c169_own_trend_partial (fun _ => none) _ _ _ 1 5 _ (by simp [BuildsOn]) (by simp [BuildsAs]) (by simp [TrainsModel]) w hw _ _).1⟩

end

end Verif.Props
