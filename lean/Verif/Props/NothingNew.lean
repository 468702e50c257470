import Verif.Spec.NothingNew
import Verif.Props.DesignSize

/-!
# C200: `ask` gives up only if nothing new was found
-/
namespace Verif.Props

open Verif.Model Verif.Spec Verif.Proofs

private theorem check_known {ks : List Kind} {data : List Row} {x : Row} (h : AlreadyRecorded ks data x) : preEvalCheck ks data [x] = [] := by
  rw [List.eq_nil_iff_forall_not_mem]
  intro y hy
  obtain ⟨i, h1, h2, -⟩ := mem_preEvalCheck.mp hy
  obtain ⟨d, hd, hn⟩ := h
  have : y = x := List.mem_singleton.mp (List.mem_of_getElem? h1)
  subst this
  exact hn (differs_of_not_matches (h2 d hd))

private theorem check_new {ks : List Kind} {data : List Row} {x : Row} (h : ¬ AlreadyRecorded ks data x) : preEvalCheck ks data [x] = [x] := by
  apply check_all
  intro i hi y hy
  have h0 : i = 0 := by simpa using hi
  subst h0
  have : x = y := by simpa using hy
  subst this
  refine ⟨fun d hd => ?_, fun j z hz hj => ?_⟩
  · by_contra hc
    exact h ⟨d, hd, hc⟩
  · have := (List.getElem?_eq_some_iff.mp hz).1
    simp at this
    omega

private theorem round_one (vars : Vars) (data : List Row) (sample : ℕ → ℤ → List Row) (k : ℕ) (r : Row) (hr : sample k 1 = [r]) (hp : PointOf (vars.map Prod.snd) r) :
    doeLoop vars [] data sample (k + 1) 1 [] = doeLoop vars [] data sample k (1 - (preEvalCheck (vars.map Prod.snd) data [roundRow (vars.map Prod.snd) r]).length)
      (preEvalCheck (vars.map Prod.snd) data [roundRow (vars.map Prod.snd) r]) := by
  rw [doeLoop, if_neg one_ne_zero, hr, fillin_all _ _ (fun x hx => by rw [List.mem_singleton.mp hx]; simpa using hp.1), Option.bind_some]
  rfl

private theorem loop_one (vars : Vars) (data : List Row) (sample : ℕ → ℤ → List Row) (hs : SamplerOk vars [] sample) : ∀ k,
    ((∀ j < k, ∀ r ∈ sample j 1, AlreadyRecorded (vars.map Prod.snd) data (roundRow (vars.map Prod.snd) r)) → doeLoop vars [] data sample k 1 [] = some []) ∧
    ((¬ ∀ j < k, ∀ r ∈ sample j 1, AlreadyRecorded (vars.map Prod.snd) data (roundRow (vars.map Prod.snd) r)) → ∃ x, doeLoop vars [] data sample k 1 [] = some [x]) := by
  intro k
  induction k with
  | zero => exact ⟨fun _ => rfl, fun h => absurd (fun j hj => absurd hj (Nat.not_lt_zero j)) h⟩
  | succ k ih =>
    have hlast : ∀ P : ℕ → Prop, P k → ((∀ j < k + 1, P j) ↔ ∀ j < k, P j) := by
      intro P hP
      refine ⟨fun h j hj => h j (by omega), fun h j hj => ?_⟩
      rcases Nat.lt_succ_iff_lt_or_eq.mp hj with hj | rfl
      · exact h j hj
      · exact hP
    obtain ⟨hl, hp⟩ := hs k 1 one_pos
    have hfree : freeVars vars [] = vars := by simp [freeVars]
    rw [hfree] at hp
    match hsk : sample k 1, hl with
    | [], _ =>
      rw [hlast _ (by rw [hsk]; simp)]
      have e : doeLoop vars [] data sample (k + 1) 1 [] = doeLoop vars [] data sample k 1 [] := by
        rw [doeLoop, if_neg one_ne_zero, hsk]
        rfl
      rw [e]
      exact ih
    | [r], _ =>
      rw [round_one vars data sample k r hsk (hp r (by rw [hsk]; simp))]
      by_cases hk : AlreadyRecorded (vars.map Prod.snd) data (roundRow (vars.map Prod.snd) r)
      · rw [check_known hk, hlast _ (by rw [hsk]; simpa using hk)]
        simpa using ih
      · rw [check_new hk]
        refine ⟨fun h => absurd (h k (by omega) r (by rw [hsk]; simp)) hk, fun _ => ⟨roundRow (vars.map Prod.snd) r, ?_⟩⟩
        cases k with
        | zero => rfl
        | succ k => simp [doeLoop]
    | _ :: _ :: _, hl => simp at hl; omega

/-- **C200, partial: single points.** A request for one point raises `AskEmptyError` exactly if the search (when there is a surrogate) found nothing or a recorded point, and the points of all four random samples are
recorded as well.  A sample may also be empty, as under constraints. -/
theorem c200_single_partial (s : AskState) (n? : Option ℤ) (hn : n?.getD (if s.fitted then s.nPoint else s.doeSize) = 1) (best : ℕ → Row) (sample : ℕ → ℤ → List Row) (hs : SamplerOk s.vars [] sample) :
    ask s n? none best sample = .error .empty ↔ (s.fitted = true → best 0 = [] ∨ AlreadyRecorded (s.vars.map Prod.snd) s.data (best 0)) ∧
      ∀ k < 4, ∀ r ∈ sample k 1, AlreadyRecorded (s.vars.map Prod.snd) s.data (roundRow (s.vars.map Prod.snd) r) := by
  obtain ⟨l1, l2⟩ := loop_one s.vars s.data sample hs 4
  have hdoe : ∀ n, n = 1 → createDoE s.vars none s.data sample n = doeLoop s.vars [] s.data sample 4 1 [] := by rintro n rfl; rfl
  cases hf : s.fitted with
  | false =>
    rw [hf] at hn
    have hn' : n?.getD s.doeSize = 1 := hn
    simp only [ask, askPoints, hf, Bool.false_eq_true, if_false, hdoe _ hn', false_imp_iff, true_and]
    by_cases h : ∀ j < 4, ∀ r ∈ sample j 1, AlreadyRecorded (s.vars.map Prod.snd) s.data (roundRow (s.vars.map Prod.snd) r)
    · rw [l1 h]
      exact ⟨fun _ => h, fun _ => rfl⟩
    · obtain ⟨x, hx⟩ := l2 h
      rw [hx]
      exact ⟨fun hc => by simp [liftShape, Except.bind] at hc, fun hc => absurd hc h⟩
  | true =>
    rw [hf] at hn
    have hn' : n?.getD s.nPoint = 1 := hn
    have hfinal : ∀ C : List Row, preEvalCheck (s.vars.map Prod.snd) s.data C = [] → argMaxAcquisition s 1 none best = .ok C →
        (ask s n? none best sample = .error .empty ↔ ∀ k < 4, ∀ r ∈ sample k 1, AlreadyRecorded (s.vars.map Prod.snd) s.data (roundRow (s.vars.map Prod.snd) r)) := by
      intro C hC hA
      simp only [ask, askPoints, hf, if_true, hn', hA]
      change Except.bind (if (((preEvalCheck (s.vars.map Prod.snd) s.data C).length : ℕ) : ℤ) < 1 then _ else _) _ = _ ↔ _
      rw [hC]
      simp only [List.length_nil, Nat.cast_zero, one_pos, if_true, hdoe (1 - 0) (by norm_num)]
      by_cases h : ∀ j < 4, ∀ r ∈ sample j 1, AlreadyRecorded (s.vars.map Prod.snd) s.data (roundRow (s.vars.map Prod.snd) r)
      · rw [l1 h]
        exact ⟨fun _ => h, fun _ => rfl⟩
      · obtain ⟨x, hx⟩ := l2 h
        rw [hx]
        exact ⟨fun hc => by simp [liftShape, Except.bind, Except.map] at hc, fun hc => absurd hc h⟩
    by_cases hb : best 0 = []
    · rw [hfinal [] (by simp [preEvalCheck]) (by simp [argMaxAcquisition, Except.bind, fillin, hb])]
      exact ⟨fun h => ⟨fun _ => Or.inl hb, h⟩, fun h => h.2⟩
    · have hA : argMaxAcquisition s 1 none best = .ok [best 0] := by simp [argMaxAcquisition, Except.bind, fillin, hb]
      by_cases hk : AlreadyRecorded (s.vars.map Prod.snd) s.data (best 0)
      · rw [hfinal _ (check_known hk) hA]
        exact ⟨fun h => ⟨fun _ => Or.inr hk, h⟩, fun h => h.2⟩
      · constructor
        · intro h
          exfalso
          simp only [ask, askPoints, hf, if_true, hn', hA] at h
          change Except.bind (if (((preEvalCheck (s.vars.map Prod.snd) s.data [best 0]).length : ℕ) : ℤ) < 1 then _ else _) _ = _ at h
          rw [check_new hk] at h
          simp [Except.bind] at h
        · rintro ⟨h, -⟩
          rcases h rfl with h | h
          · exact absurd h hb
          · exact absurd h hk

/-- **C200, partial.** A point found by the search that differs from the recorded ones and from the other points found is proposed, so that the call does not raise.  Missing: points found twice
(`c200_twins_refuted`). -/
theorem c200_kept_partial (s : AskState) (hf : s.fitted = true) (n? : Option ℤ) (hn : 0 < n?.getD s.nPoint) (hbatch : s.parallel = true ∨ n?.getD s.nPoint ≤ 1) (best : ℕ → Row)
    (sample : ℕ → ℤ → List Row) (hs : FullSampler s.vars sample) (i : ℕ) (x : Row)
    (hx : (((List.range (n?.getD s.nPoint).toNat).map best).filter (fun c => !c.isEmpty))[i]? = some x)
    (hd : StandsOut (s.vars.map Prod.snd) s.data (((List.range (n?.getD s.nPoint).toNat).map best).filter (fun c => !c.isEmpty)) i) :
    ∃ X, ask s n? none best sample = .ok X ∧ x ∈ X := by
  have hA : argMaxAcquisition s (n?.getD s.nPoint) none best = .ok (((List.range (n?.getD s.nPoint).toNat).map best).filter (fun c => !c.isEmpty)) := by
    unfold argMaxAcquisition
    by_cases h1 : n?.getD s.nPoint > 1
    · have hp : s.parallel = true := by
        rcases hbatch with h | h
        · exact h
        · omega
      simp only [if_pos h1, if_pos hp]
      rfl
    · have h2 : n?.getD s.nPoint = 1 := by omega
      simp only [h2]
      rfl
  generalize hC : ((List.range (n?.getD s.nPoint).toNat).map best).filter (fun c => !c.isEmpty) = C at hx hd hA
  obtain ⟨h1, h2⟩ := hd x hx
  have hm : x ∈ preEvalCheck (s.vars.map Prod.snd) s.data C :=
    mem_preEvalCheck.mpr ⟨i, hx, fun d hd => not_matches_of_differs (h1 d hd), fun j y hy hji => not_matches_of_differs (h2 j y hy hji)⟩
  have hne : ∀ Z : List Row, List.isEmpty (preEvalCheck (s.vars.map Prod.snd) s.data C ++ Z) = false := by
    intro Z
    rw [List.isEmpty_eq_false_iff]
    exact List.ne_nil_of_mem (List.mem_append_left Z hm)
  simp only [ask, askPoints, hf, if_true, hA]
  change ∃ X, Except.bind (if (((preEvalCheck (s.vars.map Prod.snd) s.data C).length : ℕ) : ℤ) < n?.getD s.nPoint then _ else _) _ = _ ∧ _
  split_ifs with hlt
  · obtain ⟨Z, hZ⟩ := doeLoop_keeps s.vars s.data sample hs 4 (n?.getD s.nPoint - (preEvalCheck (s.vars.map Prod.snd) s.data C).length) [] (by omega)
    have hdoe : createDoE s.vars none s.data sample (n?.getD s.nPoint - (preEvalCheck (s.vars.map Prod.snd) s.data C).length) = some Z := hZ
    rw [hdoe]
    refine ⟨preEvalCheck (s.vars.map Prod.snd) s.data C ++ Z, ?_, List.mem_append_left Z hm⟩
    simp only [liftShape, Except.map, Except.bind]
    rw [hne]
    rfl
  · refine ⟨preEvalCheck (s.vars.map Prod.snd) s.data C, ?_, hm⟩
    have := hne []
    rw [List.append_nil] at this
    simp only [Except.bind]
    rw [this]
    rfl

private def digits : List (String × Kind) := [("i", .integer { lo := 0, hi := 9 })]

private theorem digits_point (a : ℤ) (h0 : 0 ≤ a) (h9 : a ≤ 9) : PointOf (digits.map Prod.snd) [.int a] := by
  refine ⟨rfl, fun j k v hk hv => ?_⟩
  match j, hk, hv with
  | 0, hk, hv =>
    simp only [digits, List.map_cons, List.map_nil, List.getElem?_cons_zero, Option.some.injEq] at hk hv
    subst hk hv
    simp only [Kind.contains, IntVar.contains]
    exact ⟨by exact_mod_cast h0, by exact_mod_cast h9⟩

private theorem digits_differ (a b : ℤ) : Differs (digits.map Prod.snd) [.int a] [.int b] ↔ a ≠ b := by
  constructor
  · rintro ⟨j, k, hk, h, -⟩ rfl
    match j, hk with
    | 0, hk =>
      simp only [digits, List.map_cons, List.map_nil, List.getElem?_cons_zero, Option.some.injEq] at hk
      subst hk
      exact h (by simp [Kind.vtype]) rfl
  · intro h
    refine ⟨0, _, rfl, fun _ => by simpa using h.symm, fun hr => by simp [Kind.vtype] at hr⟩

private theorem digits_sampler (a : ℤ) (h0 : 0 ≤ a) (h9 : a ≤ 9) : FullSampler digits (fun _ n => List.replicate n.toNat [.int a]) := by
  intro k n hn
  refine ⟨by rw [List.length_replicate]; omega, fun r hr => ?_⟩
  rw [(List.mem_replicate.mp hr).2]
  exact digits_point a h0 h9

private theorem check_twins (data : List Row) (x : Row) (a : ℤ) (hx : x = [.int a]) : preEvalCheck (digits.map Prod.snd) data [x, x] = [] := by
  rw [List.eq_nil_iff_forall_not_mem]
  intro y hy
  obtain ⟨i, h1, -, h3⟩ := mem_preEvalCheck.mp hy
  have hi := (List.getElem?_eq_some_iff.mp h1).1
  have hy' : y = x := by
    have := List.mem_of_getElem? h1
    simpa using this
  have hd : ∀ j, [x, x][j]? = some x → j ≠ i → False := fun j hj hji => by
    have := differs_of_not_matches (h3 j x hj hji)
    rw [hy', hx] at this
    exact (digits_differ a a).mp this rfl
  match i, hi with
  | 0, _ => exact hd 1 rfl (by omega)
  | 1, _ => exact hd 0 rfl (by omega)

/-- **C200 fails for batches.** An integer between 0 and 9, of which only 0 is recorded: if the search finds 7 for both points of a batch and the sampler draws 7 twice, `ask` raises although 7 is new. -/
theorem c200_twins_refuted : ¬ AlreadyRecorded (([("i", .integer { lo := 0, hi := 9 })] : List (String × Kind)).map Prod.snd) [[.int 0]] [.int 7] ∧
    ask ⟨[("i", .integer { lo := 0, hi := 9 })], [[.int 0]], true, true, 2, 5⟩ none none (fun _ => [.int 7]) (fun _ n => List.replicate n.toNat [.int 7]) = .error .empty := by
  constructor
  · rintro ⟨d, hd, h⟩
    rw [List.mem_singleton.mp hd] at h
    exact h ((digits_differ 7 0).mpr (by norm_num))
  · have hc := check_twins [[.int 0]] [.int 7] 7 rfl
    have hloop : ∀ k, doeLoop digits [] [[.int 0]] (fun _ n => List.replicate n.toNat [.int 7]) k 2 [] = some [] := by
      intro k
      induction k with
      | zero => rfl
      | succ k ih =>
        rw [doeLoop_round digits _ _ (digits_sampler 7 (by norm_num) (by norm_num)) k 2 (by norm_num)]
        have e : (List.replicate (2 : ℤ).toNat ([.int 7] : Row)).map (roundRow (digits.map Prod.snd)) = [[.int 7], [.int 7]] := rfl
        rw [e, hc]
        simpa using ih
    have hdoe : createDoE digits none [[.int 0]] (fun _ n => List.replicate n.toNat [.int 7]) 2 = some [] := hloop 4
    have hA : argMaxAcquisition ⟨digits, [[.int 0]], true, true, 2, 5⟩ 2 none (fun _ => [.int 7]) = .ok [[.int 7], [.int 7]] := rfl
    change ask ⟨digits, [[.int 0]], true, true, 2, 5⟩ none none (fun _ => [.int 7]) (fun _ n => List.replicate n.toNat [.int 7]) = .error .empty
    simp only [ask, askPoints, if_true, Option.getD_none, hA]
    change Except.bind (if (((preEvalCheck (digits.map Prod.snd) [[.int 0]] [[.int 7], [.int 7]]).length : ℕ) : ℤ) < 2 then _ else _) _ = _
    rw [hc]
    simp only [List.length_nil, Nat.cast_zero, zero_lt_two, if_true, sub_zero, hdoe]
    rfl

/-- The hypotheses of `c200_single_partial` are met: the search finds the recorded 0, the first sample is 7, and the call does not raise. -/
theorem c200_concrete : ask ⟨[("i", .integer { lo := 0, hi := 9 })], [[.int 0]], true, false, 1, 5⟩ none none (fun _ => [.int 0]) (fun _ n => List.replicate n.toNat [.int 7]) ≠ .error .empty := by
  intro h
  obtain ⟨-, h2⟩ := (c200_single_partial ⟨digits, [[.int 0]], true, false, 1, 5⟩ none rfl (fun _ => [.int 0]) _ (fun k n hn => by
    have := digits_sampler 7 (by norm_num) (by norm_num) k n hn
    exact ⟨this.1.le, by simpa [freeVars] using this.2⟩)).mp h
  obtain ⟨d, hd, hn⟩ := h2 0 (by norm_num) [.int 7] (by simp)
  rw [List.mem_singleton.mp hd] at hn
  exact hn ((digits_differ 7 0).mpr (by norm_num))

end Verif.Props
