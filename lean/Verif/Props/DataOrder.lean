import Verif.Props.LearnSteps
import Verif.Props.GprOrder
import Verif.Proofs.DataOrder
import Verif.Proofs.Optimizer
import Verif.Spec.DataOrder
import Mathlib.Tactic.Ring

/-!
# C181: the order of the observations does not matter
-/
namespace Verif.Props

open Verif.Model Verif.Spec Verif.Proofs

variable {G : Type*}

/-! ### Statistics of the values -/

private theorem npMean_perm {y y' : List ℝ} (h : y'.Perm y) : npMean y' = npMean y := by
  unfold npMean
  rw [h.sum_eq, h.length_eq]

private theorem npStd_perm {y y' : List ℝ} (h : y'.Perm y) : npStd y' = npStd y := by
  unfold npStd
  rw [npMean_perm h, npMean_perm (h.map _)]

private theorem flat_perm {y y' : List ℝ} (h : y'.Perm y) : isFlat y' = isFlat y := by
  have hm : ∀ {z z' : List ℝ}, z'.Perm z → mean z' = mean z := fun h => by
    unfold mean
    rw [h.sum_eq, h.length_eq]
  unfold isFlat variance
  rw [hm h, hm (h.map _), h.length_eq]

private theorem isBest_perm {m : Bool} {b : ℝ} {y y' : List ℝ} (h : y'.Perm y) (hb : IsBestOf m b y) : IsBestOf m b y' :=
  ⟨h.mem_iff.2 hb.1, fun v hv => hb.2 v (h.mem_iff.1 hv)⟩

private theorem getBest_perm {m : Bool} {y y' : List ℝ} (h : y'.Perm y) : getBest m y' = getBest m y := by
  rcases eq_or_ne y [] with rfl | hne
  · rw [List.perm_nil.1 h]
  · have hne' : y' ≠ [] := fun h0 => hne (by rw [h0] at h; exact List.nil_perm.1 h)
    obtain ⟨b, hb⟩ := getBest_isSome (minimize := m) hne
    obtain ⟨b', hb'⟩ := getBest_isSome (minimize := m) hne'
    rw [hb, hb', isBestOf_unique (getBest_spec hb') (isBest_perm h (getBest_spec hb))]

private theorem incumbent_value (m : Bool) (d : List (Rec Row ℝ)) : (incumbent m d).map Rec.f = getBest m (d.map Rec.f) := by
  rcases eq_or_ne d [] with rfl | hne
  · rfl
  · obtain ⟨r, hr⟩ := incumbent_isSome m hne
    obtain ⟨b, hb⟩ := getBest_isSome (minimize := m) (fs := d.map Rec.f) (by simpa using hne)
    rw [hr, hb]
    exact congrArg some (isBestOf_unique (incumbent_spec hr).1 (getBest_spec hb))

private theorem npMin_eq (y : List ℝ) (h : y ≠ []) : getBest true y = some (npMin y) := by
  cases y with
  | nil => exact absurd rfl h
  | cons a l => rfl

private theorem npMax_eq (y : List ℝ) (h : y ≠ []) : getBest false y = some (npMax y) := by
  cases y with
  | nil => exact absurd rfl h
  | cons a l => rfl

private theorem npMin_perm {y y' : List ℝ} (h : y'.Perm y) : npMin y' = npMin y := by
  rcases eq_or_ne y [] with rfl | hne
  · rw [List.perm_nil.1 h]
  · have hne' : y' ≠ [] := fun h0 => hne (by rw [h0] at h; exact List.nil_perm.1 h)
    have := getBest_perm (m := true) h
    rwa [npMin_eq _ hne, npMin_eq _ hne', Option.some.injEq] at this

private theorem npMax_perm {y y' : List ℝ} (h : y'.Perm y) : npMax y' = npMax y := by
  rcases eq_or_ne y [] with rfl | hne
  · rw [List.perm_nil.1 h]
  · have hne' : y' ≠ [] := fun h0 => hne (by rw [h0] at h; exact List.nil_perm.1 h)
    have := getBest_perm (m := false) h
    rwa [npMax_eq _ hne, npMax_eq _ hne', Option.some.injEq] at this

private theorem standardised_perm {y y' : List ℝ} (h : y'.Perm y) : (standardised y').Perm (standardised y) := by
  unfold standardised
  rw [npStd_perm h, npMean_perm h]
  split_ifs
  · exact h
  · exact h.map _

/-! ### What the surrogate is fitted to -/

private def observation (r : Rec Row ℝ) : Row × ℝ := (r.x, r.f)

private theorem values_of {d d' : List (Rec Row ℝ)} (h : (d'.map observation).Perm (d.map observation)) : (d'.map Rec.f).Perm (d.map Rec.f) := by
  have := h.map Prod.snd
  rw [List.map_map, List.map_map] at this
  exact this

private theorem points_of {d d' : List (Rec Row ℝ)} (h : (d'.map observation).Perm (d.map observation)) : (d'.map Rec.x).Perm (d.map Rec.x) := by
  have := h.map Prod.fst
  rw [List.map_map, List.map_map] at this
  exact this

private theorem zip_maps {α β γ : Type*} (f : α → β) (g : α → γ) : ∀ l : List α, (l.map f).zip (l.map g) = l.map fun a => (f a, g a)
  | [] => rfl
  | a :: l => by simp [zip_maps f g l]

private theorem training_perm {d d' : List (Rec Row ℝ)} (h : (d'.map observation).Perm (d.map observation)) : (trainingSet d').Perm (trainingSet d) := by
  have hv := values_of h
  unfold trainingSet standardised
  rw [npStd_perm hv, npMean_perm hv]
  split_ifs
  · rw [zip_maps, zip_maps]
    exact h
  · rw [List.map_map, List.map_map, zip_maps, zip_maps]
    have := h.map (fun q => (q.1, (q.2 - npMean (d.map Rec.f)) / npStd (d.map Rec.f)))
    rw [List.map_map, List.map_map] at this
    exact this

private theorem create_model (o o' : AcqOpt) (h : o' = { o with mdl := o'.mdl }) (fn : Option AcqName) (p : Option AcqPar) : boCreate o' fn p = boCreate o fn p := by
  rw [h]
  unfold boCreate baseCreate boPar
  cases hf : fn.getD o.fn <;> cases hp : (p.getD emptyPar).plugin <;> simp [acqInit, setPlugin, hasPlugin, hp]

private theorem certain_model {m m' : AcqModel} (h : m'.sigma2 = m.sigma2) (sd : ℝ) : eiCertain m' sd = eiCertain m sd := by
  unfold eiCertain
  rw [h]

private theorem value_model {m m' : AcqModel} (h : m'.sigma2 = m.sigma2) (a : Acq) (p : AcqPred) : acqValue a m' p = acqValue a m p ∧ acqDx a m' p = acqDx a m p := by
  have hc := funext (certain_model h)
  unfold acqValue acqDx acqValueAt acqDxAt
  rw [hc]
  exact ⟨rfl, rfl⟩

private theorem criteria_perm (cfg : Cfg ℝ) (u : RunSetup) (acq : AcqName × AcqPar) {L : Learner G} (hL : OrderFree L) (i : ℕ) {d d' : List (Rec Row ℝ)}
    (h : (d'.map observation).Perm (d.map observation)) : criteriaOf cfg u acq L i d' = criteriaOf cfg u acq L i d := by
  have ht := training_perm h
  have hs := standardised_perm (values_of h)
  have ho : optOf acq.1 acq.2 cfg.minimize (d'.map Rec.f) (L.fit i (trainingSet d')) =
      { optOf acq.1 acq.2 cfg.minimize (d.map Rec.f) (L.fit i (trainingSet d)) with mdl := L.fit i (trainingSet d') } := by
    unfold optOf
    rw [npMin_perm hs, npMax_perm hs]
  have hc := create_model _ _ ho
  have hsig := hL.variance i _ _ ht
  unfold criteriaOf batchCreate singleCreate
  simp only [hc, (value_model hsig _ _).1, (value_model hsig _ _).2, hL.predict i _ _ ht]
  rw [ho]

/-! ### The points proposed -/

private theorem check_perm (ks : List Kind) {data data' : List Row} (h : data'.Perm data) (X : List Row) : preEvalCheck ks data' X = preEvalCheck ks data X := by
  classical
  have hl : ∀ (D : List Row) (i : ℕ), i < X.length → (X ++ D).getD i [] = X.getD i [] := fun D i hi => by
    rw [List.getD_eq_getElem?_getD, List.getD_eq_getElem?_getD, List.getElem?_append_left hi]
  have key : ∀ (D : List Row) (i : ℕ), i < X.length →
      ((List.range (X ++ D).length).any (fun j => decide (j ≠ i ∧ matchesRow ks ((X ++ D).getD j []) ((X ++ D).getD i []))) = true ↔
        (∃ j < X.length, j ≠ i ∧ matchesRow ks (X.getD j []) (X.getD i [])) ∨ ∃ y ∈ D, matchesRow ks y (X.getD i [])) := by
    intro D i hi
    rw [List.any_eq_true]
    simp only [List.mem_range, decide_eq_true_eq, hl D i hi]
    constructor
    · rintro ⟨j, hj, hne, hm⟩
      by_cases hjx : j < X.length
      · rw [hl D j hjx] at hm
        exact .inl ⟨j, hjx, hne, hm⟩
      · have hj2 : j - X.length < D.length := by rw [List.length_append] at hj; omega
        rw [List.getD_eq_getElem?_getD, List.getElem?_append_right (by omega), List.getElem?_eq_getElem hj2, Option.getD_some] at hm
        exact .inr ⟨_, List.getElem_mem hj2, hm⟩
    · rintro (⟨j, hj, hne, hm⟩ | ⟨y, hy, hm⟩)
      · exact ⟨j, by rw [List.length_append]; omega, hne, by rw [hl D j hj]; exact hm⟩
      · obtain ⟨k, hk, rfl⟩ := List.getElem_of_mem hy
        refine ⟨X.length + k, by rw [List.length_append]; omega, by omega, ?_⟩
        rw [List.getD_eq_getElem?_getD, List.getElem?_append_right (by omega), Nat.add_sub_cancel_left, List.getElem?_eq_getElem hk, Option.getD_some]
        exact hm
  unfold preEvalCheck
  have hf : (List.range X.length).filter (fun i => ! (List.range (X ++ data').length).any (fun j => decide (j ≠ i ∧ matchesRow ks ((X ++ data').getD j []) ((X ++ data').getD i [])))) =
      (List.range X.length).filter (fun i => ! (List.range (X ++ data).length).any (fun j => decide (j ≠ i ∧ matchesRow ks ((X ++ data).getD j []) ((X ++ data).getD i [])))) := by
    refine List.filter_congr fun i hi => ?_
    have hi := List.mem_range.1 hi
    congr 1
    rw [Bool.eq_iff_iff, key data' i hi, key data i hi]
    simp only [h.mem_iff]
  rw [hf]
  refine List.map_congr_left fun i hi => ?_
  have hi := List.mem_range.1 (List.mem_filter.1 hi).1
  rw [hl data' i hi, hl data i hi]

private theorem doe_perm (vars : Vars) (fixed : List (String × Val)) {data data' : List Row} (h : data'.Perm data) (sample : ℕ → ℤ → List Row) :
    ∀ (k : ℕ) (n : ℤ) (acc : List Row), doeLoop vars fixed data' sample k n acc = doeLoop vars fixed data sample k n acc
  | 0, _, _ => rfl
  | k + 1, n, acc => by
    unfold doeLoop
    simp only [check_perm _ h, doe_perm vars fixed h sample k]

private theorem ask_perm (s : AskState) {data' : List Row} (h : data'.Perm s.data) (n? : Option ℤ) (fixed : Option (List (String × Val))) (best : ℕ → Row)
    (sample : ℕ → ℤ → List Row) : ask { s with data := data' } n? fixed best sample = ask s n? fixed best sample := by
  unfold ask askPoints createDoE
  simp only [check_perm _ h, doe_perm _ _ h]
  rfl

/-- **C181, one step.**  Two optimisers that have recorded the same observations propose the same points, in whatever order the observations were made. -/
theorem c181_ask (cfg : Cfg ℝ) (u : RunSetup) (acq : AcqName × AcqPar) (L : Learner G) (hL : OrderFree L) (i : ℕ) (s s' : OptState Row ℝ) (h : SameObservations s s') :
    proposals cfg u acq L i s' = proposals cfg u acq L i s := by
  have hb := h.begun
  have hobs := h.observed
  have hst : askStateOf u s' = { askStateOf u s with data := (s'.data.getD []).map Rec.x } := by
    unfold askStateOf
    rw [hb]
  unfold proposals askFull
  rw [hst]
  simp only [ask_perm (askStateOf u s) (points_of hobs)]
  cases hd : s.data with
  | none =>
    rw [hd] at hb
    have hd' : s'.data = none := Option.not_isSome_iff_eq_none.1 (by rw [hb]; simp)
    rw [hd']
  | some d =>
    rw [hd] at hb
    obtain ⟨d', hd'⟩ := Option.isSome_iff_exists.1 (hb.trans rfl)
    rw [hd, hd'] at hobs
    rw [hd']
    have hc := criteria_perm cfg u acq hL i (d := d) (d' := d') hobs
    simp only [hc]

/-! ### The best point -/

/-- **C181, the best point.**  Both optimisers report a best point with the same value, and the same point if only one point has this value. -/
theorem c181_best (cfg : Cfg ℝ) (s s' : OptState Row ℝ) (h : SameObservations s s') :
    (∀ r, xopt cfg s = .ok (some r) → ∃ r', xopt cfg s' = .ok (some r') ∧ r'.f = r.f ∧
      ((∀ q ∈ s.data.getD [], q.f = r.f → q.x = r.x) → r'.x = r.x)) ∧
    (xopt cfg s = .ok none → xopt cfg s' = .ok none) ∧ ∀ e, xopt cfg s = .error e → xopt cfg s' = .error e := by
  have hb := h.begun
  have hobs := h.observed
  unfold xopt
  cases hd : s.data with
  | none =>
    rw [hd] at hb
    have hd' : s'.data = none := Option.not_isSome_iff_eq_none.1 (by rw [hb]; simp)
    rw [hd']
    simp
  | some d =>
    rw [hd] at hb
    obtain ⟨d', hd'⟩ := Option.isSome_iff_exists.1 (hb.trans rfl)
    rw [hd, hd'] at hobs
    have hobs : (d'.map observation).Perm (d.map observation) := hobs
    rw [hd']
    have hv : (incumbent cfg.minimize d').map Rec.f = (incumbent cfg.minimize d).map Rec.f := by
      rw [incumbent_value, incumbent_value, getBest_perm (values_of hobs)]
    dsimp only
    cases hi : incumbent cfg.minimize d with
    | none =>
      rw [hi] at hv
      have hi' : incumbent cfg.minimize d' = none := by simpa using hv
      rw [hi']
      simp
    | some r =>
      rw [hi] at hv
      obtain ⟨r', hi', e⟩ := Option.map_eq_some_iff.1 hv
      rw [hi']
      refine ⟨fun q hq => ?_, by simp, by simp⟩
      have hq : r = q := by simpa using hq
      subst hq
      refine ⟨r', rfl, e, fun hu => ?_⟩
      obtain ⟨-, j, hj, -⟩ := incumbent_spec hi'
      have hm : observation r' ∈ d.map observation := hobs.mem_iff.1 (List.mem_map_of_mem (List.mem_of_getElem? hj))
      obtain ⟨q, hq, hqe⟩ := List.mem_map.1 hm
      have h1 : q.x = r'.x := congrArg Prod.fst hqe
      have h2 : q.f = r'.f := congrArg Prod.snd hqe
      rw [← h1]
      exact hu q hq (h2.trans e)

/-! ### Whole runs -/

private theorem stop_same (cfg : Cfg ℝ) {s s' : OptState Row ℝ} (h : SameObservations s s') :
    SameObservations (checkStop cfg s).1 (checkStop cfg s').1 ∧ (checkStop cfg s').2 = (checkStop cfg s).2 := by
  have h1 : SameObservations (checkBudget cfg s) (checkBudget cfg s') := by
    unfold checkBudget
    cases cfg.maxFEs with
    | none => exact h
    | some m =>
      dsimp only
      rw [h.evaluations]
      split_ifs
      · exact ⟨h.begun, h.observed, rfl, rfl, h.target⟩
      · exact h
  have hflag : ∀ {q q' : OptState Row ℝ}, SameObservations q q' → stopFlag q' = stopFlag q := fun h => by
    unfold stopFlag
    rw [h.budget, h.target]
  unfold checkStop
  dsimp only
  cases cfg.ftarget with
  | none => exact ⟨h1, congrArg Except.ok (hflag h1)⟩
  | some t =>
    dsimp only
    obtain ⟨b1, b2, b3⟩ := c181_best cfg _ _ h1
    cases hx : xopt cfg (checkBudget cfg s) with
    | error e => rw [b3 e hx]; exact ⟨h1, rfl⟩
    | ok o =>
      cases o with
      | none => rw [b2 hx]; exact ⟨h1, congrArg Except.ok (hflag h1)⟩
      | some r =>
        obtain ⟨r', hx', e, -⟩ := b1 r hx
        rw [hx']
        dsimp only
        rw [e]
        split_ifs
        · have h2 : SameObservations { checkBudget cfg s with stopFtarget := some r.f } { checkBudget cfg s' with stopFtarget := some r.f } :=
            ⟨h1.begun, h1.observed, h1.evaluations, h1.budget, rfl⟩
          exact ⟨h2, congrArg Except.ok (hflag h2)⟩
        · exact ⟨h1, congrArg Except.ok (hflag h1)⟩

private theorem rest_same (cfg : Cfg ℝ) {s s' : OptState Row ℝ} (h : SameObservations s s') {d d' kept kept' : List (Rec Row ℝ)} (hd : (d'.map observation).Perm (d.map observation))
    {a a' : TellArgs Row ℝ} (hw : a'.warm = a.warm) (ho : a'.oracle = a.oracle) :
    SameObservations (tellRest cfg s d kept a).1 (tellRest cfg s' d' kept' a').1 ∧ (tellRest cfg s' d' kept' a').2 = (tellRest cfg s d kept a).2 := by
  have he : d'.isEmpty = d.isEmpty := by
    have := hd.length_eq
    rw [List.length_map, List.length_map] at this
    rw [Bool.eq_iff_iff, List.isEmpty_iff_length_eq_zero, List.isEmpty_iff_length_eq_zero, this]
  have hv : (incumbent cfg.minimize d').map Rec.f = (incumbent cfg.minimize d).map Rec.f := by
    rw [incumbent_value, incumbent_value, getBest_perm (values_of hd)]
  unfold tellRest
  dsimp only
  rw [he, flat_perm (values_of hd), hw, ho]
  have h1 : SameObservations { s with data := some d } { s' with data := some d' } := ⟨rfl, hd, h.evaluations, h.budget, h.target⟩
  split_ifs
  · exact ⟨h1, rfl⟩
  · exact ⟨h1, rfl⟩
  · exact ⟨h1, rfl⟩
  all_goals
    cases hi : incumbent cfg.minimize d with
    | none =>
      rw [hi] at hv
      rw [show incumbent cfg.minimize d' = none by simpa using hv]
      exact ⟨⟨rfl, hd, h.evaluations, h.budget, h.target⟩, rfl⟩
    | some r =>
      rw [hi] at hv
      obtain ⟨r', hi', e⟩ := Option.map_eq_some_iff.1 hv
      rw [hi']
      exact ⟨⟨rfl, hd, h.evaluations, h.budget, h.target⟩, rfl⟩

private theorem tell_same (cfg : Cfg ℝ) {s s' : OptState Row ℝ} (h : SameObservations s s') {a a' : TellArgs Row ℝ} (ha : a' = { a with oracle := a'.oracle }) (ho : a'.oracle = a.oracle) :
    SameObservations (tell cfg s a).1 (tell cfg s' a').1 ∧ (tell cfg s' a').2 = (tell cfg s a).2 := by
  have ha : a' = a := by rw [ha, ho]
  subst ha
  have hb := h.begun
  have hobs := h.observed
  unfold tell
  generalize (if cfg.evalDict then 0 else 1) = n0
  rw [h.evaluations]
  split_ifs
  · exact ⟨h, rfl⟩
  · exact ⟨h, rfl⟩
  · rcases observe a'.warm a'.X a'.vals s.evalCount with ⟨c, _ | ps⟩
    · exact ⟨⟨h.begun, h.observed, rfl, h.budget, h.target⟩, rfl⟩
    · dsimp only
      have h0 : SameObservations { s with evalCount := c } { s' with evalCount := c } := ⟨h.begun, h.observed, rfl, h.budget, h.target⟩
      cases hd : s.data with
      | none =>
        rw [hd] at hb
        have hd' : s'.data = none := Option.not_isSome_iff_eq_none.1 (by rw [hb]; simp)
        rw [hd']
        exact rest_same cfg h0 (List.Perm.refl _) rfl rfl
      | some d =>
        rw [hd] at hb
        obtain ⟨d', hd'⟩ := Option.isSome_iff_exists.1 (hb.trans rfl)
        rw [hd, hd'] at hobs
        have hobs : (d'.map observation).Perm (d.map observation) := hobs
        rw [hd']
        dsimp only
        generalize postEvalCheck n0 (ps.zip (labels a')) = kept
        have hp : ((d' ++ kept).map observation).Perm ((d ++ kept).map observation) := by
          rw [List.map_append, List.map_append]
          exact hobs.append_right _
        have he : (d' ++ kept).isEmpty = (d ++ kept).isEmpty := by
          have := hp.length_eq
          rw [List.length_map, List.length_map] at this
          rw [Bool.eq_iff_iff, List.isEmpty_iff_length_eq_zero, List.isEmpty_iff_length_eq_zero, this]
        rw [he]
        split_ifs
        · exact ⟨⟨rfl, hobs, rfl, h.budget, h.target⟩, rfl⟩
        · exact rest_same cfg h0 hp rfl rfl

private theorem oracle_same (cfg : Cfg ℝ) {L : Learner G} (hL : OrderFree L) (hc : ∀ i x, L.constraintOk i x = true) (i : ℕ) {s s' : OptState Row ℝ} (h : SameObservations s s')
    (X : List Row) : oracleOf cfg L i s' X = oracleOf cfg L i s X := by
  have hp : ((extended cfg s' X (X.map (L.objective i))).map observation).Perm ((extended cfg s X (X.map (L.objective i))).map observation) := by
    unfold extended
    rw [List.map_append, List.map_append]
    exact List.Perm.append_right _ h.observed
  unfold oracleOf
  simp only [hc, hL.fits i _ _ (training_perm hp)]
  congr 1
  cases incumbent cfg.minimize (extended cfg s X (X.map (L.objective i))) <;> cases incumbent cfg.minimize (extended cfg s' X (X.map (L.objective i))) <;> rfl

/-- **C181, the whole run.**  From two optimisers that have recorded the same observations, `run()` evaluates the same points in the same order, ends after the same number of steps in
the same way, returns a point of the same value, and leaves the same observations behind.  Constraint functions, if there are any, do not raise. -/
theorem c181_run (cfg : Cfg ℝ) (u : RunSetup) (acq : AcqName × AcqPar) (L : Learner G) (hL : OrderFree L) (hc : ∀ i x, L.constraintOk i x = true) :
    ∀ (fuel i : ℕ) (s s' : OptState Row ℝ) (log : List (ℕ × Row × Obs ℝ)), SameObservations s s' →
      (learnRun cfg u acq L fuel i s' log).log = (learnRun cfg u acq L fuel i s log).log ∧
      EndsAlike (learnRun cfg u acq L fuel i s log).ending (learnRun cfg u acq L fuel i s' log).ending ∧
      SameObservations (learnRun cfg u acq L fuel i s log).opt (learnRun cfg u acq L fuel i s' log).opt := by
  intro fuel
  induction fuel with
  | zero => intro i s s' log h; exact ⟨rfl, trivial, h⟩
  | succ fuel ih =>
    intro i s s' log h
    unfold learnRun
    obtain ⟨h1, e1⟩ := stop_same cfg h
    rcases hcs : checkStop cfg s with ⟨s1, e | b⟩ <;> rcases hcs' : checkStop cfg s' with ⟨s1', e' | b'⟩ <;> rw [hcs, hcs'] at h1 e1 <;> dsimp only at h1 e1
    · exact ⟨rfl, trivial, h1⟩
    · cases e1
    · cases e1
    · cases e1
      cases b with
      | true =>
        dsimp only
        obtain ⟨b1, b2, b3⟩ := c181_best cfg _ _ h1
        cases hx : xopt cfg s1 with
        | error e => rw [b3 e hx]; exact ⟨rfl, trivial, h1⟩
        | ok o =>
          cases o with
          | none => rw [b2 hx]; exact ⟨rfl, trivial, h1⟩
          | some r =>
            obtain ⟨r', hx', e, -⟩ := b1 r hx
            rw [hx']
            exact ⟨rfl, e, h1⟩
      | false =>
        dsimp only
        rw [c181_ask cfg u acq L hL i s1 s1' h1]
        cases proposals cfg u acq L i s1 with
        | none => exact ⟨rfl, trivial, h1⟩
        | some X =>
          dsimp only
          obtain ⟨h2, e2⟩ := tell_same cfg h1 (a := { X := X, vals := X.map (L.objective i), oracle := oracleOf cfg L i s1 X })
            (a' := { X := X, vals := X.map (L.objective i), oracle := oracleOf cfg L i s1' X }) rfl (oracle_same cfg hL hc i h1 X)
          rcases ht : tell cfg s1 { X := X, vals := X.map (L.objective i), oracle := oracleOf cfg L i s1 X } with ⟨s2, e | o⟩ <;>
            rcases ht' : tell cfg s1' { X := X, vals := X.map (L.objective i), oracle := oracleOf cfg L i s1' X } with ⟨s2', e' | o'⟩ <;>
            rw [ht, ht'] at h2 e2 <;> dsimp only at h2 e2
          · exact ⟨rfl, trivial, h2⟩
          · cases e2
          · cases e2
          · exact ih (i + 1) s2 s2' _ h2

/-! ### Histories -/

private theorem after_spec (cfg : Cfg ℝ) : ∀ (as : List (TellArgs Row ℝ)) (s t : OptState Row ℝ), afterTelling cfg s as = some t →
    pairs t = pairs s ++ as.flatMap (fun a => finitePart (a.X.zip a.vals)) ∧
    t.evalCount = s.evalCount + (as.map fun a => if a.warm then 0 else a.X.length).sum ∧
    t.stopMaxFEs = s.stopMaxFEs ∧ t.stopFtarget = s.stopFtarget ∧ ((s.data.isSome → pairs s ≠ []) → t.data.isSome → pairs t ≠ [])
  | [], s, t, h => by
    cases h
    simp
  | a :: as, s, t, h => by
    unfold afterTelling at h
    obtain ⟨h1, h2, h3, h4, -, -, h7, -⟩ := tell_spec cfg s a
    rcases ht : tell cfg s a with ⟨s', e | o⟩ <;> rw [ht] at h h1 h2 h3 h4 h7 <;> dsimp only at h h1 h2 h3 h4 h7
    · cases h
    · obtain ⟨hw, -, hne⟩ := h4 rfl
      obtain ⟨i1, i2, i3, i4, i5⟩ := after_spec cfg as s' t h
      refine ⟨?_, ?_, i3.trans h2, i4.trans h3, fun _ => i5 fun _ => hne⟩
      · rw [i1, h1, told_tell, if_pos hw, List.flatMap_cons, List.append_assoc]
      · rw [i2, h7 hw, List.map_cons, List.sum_cons, Nat.add_assoc]

/-- **C181, histories.**  Two histories of calls of `tell` - in whatever order and however grouped into calls - with the same finite observations and the same number of
evaluations lead to optimisers with the same observations. -/
theorem c181_histories (cfg : Cfg ℝ) (as bs : List (TellArgs Row ℝ)) (s s' : OptState Row ℝ) (ha : afterTelling cfg {} as = some s) (hb : afterTelling cfg {} bs = some s')
    (hsame : (bs.flatMap fun a => finitePart (a.X.zip a.vals)).Perm (as.flatMap fun a => finitePart (a.X.zip a.vals)))
    (hcount : (bs.map fun a => if a.warm then 0 else a.X.length).sum = (as.map fun a => if a.warm then 0 else a.X.length).sum) : SameObservations s s' := by
  obtain ⟨a1, a2, a3, a4, a5⟩ := after_spec cfg as {} s ha
  obtain ⟨b1, b2, b3, b4, b5⟩ := after_spec cfg bs {} s' hb
  have hp : (pairs s').Perm (pairs s) := by
    rw [a1, b1]
    exact List.Perm.append_left _ hsame
  refine ⟨?_, hp, by rw [a2, b2, hcount], by rw [a3, b3], by rw [a4, b4]⟩
  have none_iff : ∀ {q : OptState Row ℝ}, (q.data.isSome → pairs q ≠ []) → (q.data.isSome ↔ pairs q ≠ []) := fun {q} h =>
    ⟨h, fun hne => by
      cases hd : q.data with
      | none => exact absurd (by simp [pairs, hd]) hne
      | some d => rfl⟩
  have hs := none_iff (a5 (by simp))
  have hs' := none_iff (b5 (by simp))
  rw [Bool.eq_iff_iff, hs, hs']
  constructor <;> intro hne h0 <;> rw [h0] at hp
  · exact hne (List.perm_nil.1 hp)
  · exact hne (List.nil_perm.1 hp)

/-! ### Gaussian processes -/

/-- **C181, the surrogate.**  A Gaussian process - with any of the correlation functions, any basis of the trend, given or estimated coefficients, and whatever search for the
parameters - learns the same from the same observations in another order: it can be fitted or not, its variance, and its predictions with their gradients at every point. -/
theorem c181_gaussian_process {n k : ℕ} (g : GpDesign n k) (L : Learner G) (hL : LearnsByGp g L) (hc : ∀ N, CholeskyRoutine (g.chol N)) (hcc : ∀ N, CompleteCholesky (g.chol N))
    (hq : ∀ N, k ≤ N → QrRoutine (g.qr N)) : OrderFree L := by
  have hfit : ∀ (i : ℕ) (t t' : List (Row × ℝ)), t'.Perm t →
      ((g.fitted i (fun j : Fin t'.length => coordinates n t'[j].1) fun j => t'[j].2).map fun q => q.2.1) =
        (g.fitted i (fun j : Fin t.length => coordinates n t[j].1) fun j => t[j].2).map fun q => q.2.1 := by
    intro i t t' h
    obtain ⟨σ, hσ⟩ := reordered_entries (β := Option ℝ) h
    have := hσ fun M e => (g.fitted i (fun j => coordinates n (e j).1) fun j => (e j).2).map fun q => q.2.1
    refine this.trans ?_
    rcases fitted_perm (hc _) (hcc _) (fun _ => hq _) i (fun j : Fin t.length => coordinates n t[j].1) (fun j => t[j].2) σ with ⟨h1, h2⟩ | ⟨theta, sigma2, a, a', h1, h2, -⟩
    · exact (congrArg _ h1).trans (congrArg _ h2).symm
    · rw [h2]
      exact (congrArg (Option.map _) h1).trans rfl
  refine ⟨fun i t t' h => ?_, fun i t t' h => ?_, fun i t t' h => ?_⟩
  · rw [hL.variance, hL.variance, hfit i t t' h]
  · funext x j
    rw [hL.predict, hL.predict]
    obtain ⟨σ, hσ⟩ := reordered_entries (β := AcqPred) h
    refine (hσ fun M e => g.predicted i (fun j => coordinates n (e j).1) (fun j => (e j).2) (coordinates n x) j).trans ?_
    exact predicted_perm (hc _) (hcc _) (fun _ => hq _) i (fun j : Fin t.length => coordinates n t[j].1) (fun j => t[j].2) σ (coordinates n x) j
  · rw [hL.fits, hL.fits]
    have := congrArg Option.isSome (hfit i t t' h)
    simpa only [Option.isSome_map] using this

/-- **C181.**  Two optimisers with a Gaussian process that were told the same observations, in whatever order and however grouped into calls, go on alike: with the same random
numbers they evaluate the same points in the same order, end in the same way and return points of the same value. -/
theorem c181_same_course {n k : ℕ} (g : GpDesign n k) (L : Learner G) (hL : LearnsByGp g L) (hc : ∀ N, CholeskyRoutine (g.chol N)) (hcc : ∀ N, CompleteCholesky (g.chol N))
    (hq : ∀ N, k ≤ N → QrRoutine (g.qr N)) (hcon : ∀ i x, L.constraintOk i x = true) (cfg : Cfg ℝ) (u : RunSetup) (acq : AcqName × AcqPar)
    (as bs : List (TellArgs Row ℝ)) (s s' : OptState Row ℝ) (ha : afterTelling cfg {} as = some s) (hb : afterTelling cfg {} bs = some s')
    (hsame : (bs.flatMap fun a => finitePart (a.X.zip a.vals)).Perm (as.flatMap fun a => finitePart (a.X.zip a.vals)))
    (hcount : (bs.map fun a => if a.warm then 0 else a.X.length).sum = (as.map fun a => if a.warm then 0 else a.X.length).sum) (fuel i : ℕ) :
    (learnRun cfg u acq L fuel i s' []).log = (learnRun cfg u acq L fuel i s []).log ∧
      EndsAlike (learnRun cfg u acq L fuel i s []).ending (learnRun cfg u acq L fuel i s' []).ending := by
  obtain ⟨h1, h2, -⟩ := c181_run cfg u acq L (c181_gaussian_process g L hL hc hcc hq) hcon fuel i s s' [] (c181_histories cfg as bs s s' ha hb hsame hcount)
  exact ⟨h1, h2⟩

/-! ### The hypotheses are met -/

/-- Ordinary kriging of one variable with the squared exponential correlation and noise. -/
private noncomputable def orderGp : GpDesign 1 1 where
  chol := fun _ => idealChol
  qr := fun _ => idealQr
  name := .squaredExponential
  basis := fun _ _ => 1
  basisDx := fun _ => 0
  beta := none
  choose := fun _ _ => (.noisy 1 1, [1])

/-- The process as the surrogate of an optimiser. -/
private noncomputable def orderLearner : Learner Unit :=
  { stepLearner with
    fit := fun i t => { sigma2 := (orderGp.fitted i (fun j : Fin t.length => coordinates 1 t[j].1) fun j => t[j].2).map fun q => q.2.1 }
    fitOk := fun i t => (orderGp.fitted i (fun j : Fin t.length => coordinates 1 t[j].1) fun j => t[j].2).isSome
    predict := fun i t x j => orderGp.predicted i (fun j : Fin t.length => coordinates 1 t[j].1) (fun j => t[j].2) (coordinates 1 x) j }

private theorem orderLearner_gp : LearnsByGp orderGp orderLearner := ⟨fun _ _ => rfl, fun _ _ => rfl, fun _ _ _ _ => rfl⟩

private theorem orderLearner_free : OrderFree orderLearner :=
  c181_gaussian_process orderGp orderLearner orderLearner_gp (fun _ => idealChol_routine) (fun _ => idealChol_all) fun _ h => idealQr_routine h

open Matrix in
/-- It can be fitted to any two observations. -/
private theorem orderGp_fits (i : ℕ) (X : Fin 2 → Fin 1 → ℝ) (y : Fin 2 → ℝ) : (orderGp.fitted i X y).isSome := by
  obtain ⟨c, hc0, hc1, hR⟩ : ∃ c : ℝ, 0 < c ∧ c ≤ 1 ∧ gpMatrix (.noisy 1 1) (of (correlationMatrix (orderGp.correlation [1]) X)) = !![1, c / 2; c / 2, 1] := by
    have hc : ∀ d : Fin 1 → ℝ, orderGp.correlation [1] d = Real.exp (-(d 0 ^ 2)) := fun d => by
      simp [GpDesign.correlation, orderGp, corr, weightedSum]
    refine ⟨Real.exp (-((X 0 0 - X 1 0) ^ 2)), Real.exp_pos _, Real.exp_le_one_iff.2 (by nlinarith [sq_nonneg (X 0 0 - X 1 0)]), ?_⟩
    ext a b
    have hs : (X 1 0 - X 0 0) ^ 2 = (X 0 0 - X 1 0) ^ 2 := by ring
    fin_cases a <;> fin_cases b <;> simp [gpMatrix, correlationMatrix_apply, hc, absDiff, hs] <;> ring
  have hch : (idealChol (!![1, c / 2; c / 2, 1] : Matrix (Fin 2) (Fin 2) ℝ)).isSome := by
    refine idealChol_all _ (fun a b => by fin_cases a <;> fin_cases b <;> rfl) fun w hw => ?_
    have hne : w 0 ≠ 0 ∨ w 1 ≠ 0 := by
      by_contra h
      push Not at h
      exact hw (by funext a; fin_cases a <;> simp [h.1, h.2])
    have h2 : 0 < w 0 ^ 2 + w 1 ^ 2 := by rcases hne with h | h <;> positivity
    simp only [dotProduct, mulVec, Fin.sum_univ_two, of_apply, cons_val_zero, cons_val_one]
    nlinarith [sq_nonneg (w 0 + w 1), sq_nonneg (w 0 - w 1)]
  obtain ⟨Lc, hLc⟩ := Option.isSome_iff_exists.1 hch
  have hF : FullRank (of fun j => orderGp.basis (X j)) := fun b hb => by
    funext p
    have h0 := congrFun hb 0
    fin_cases p
    simpa [mulVec, dotProduct, orderGp] using h0
  have haux : ∃ a, computeAux (orderGp.chol 2) (orderGp.qr 2) (gpMatrix (.noisy 1 1) (of (correlationMatrix (orderGp.correlation [1]) X))) (of fun j => orderGp.basis (X j)) orderGp.beta y = some a ∧ a.L = Lc := by
    rw [hR]
    unfold computeAux
    show ∃ a, Option.map _ (idealChol _) = some a ∧ _
    rw [hLc]
    exact ⟨_, rfl, rfl⟩
  obtain ⟨a, ha, haL⟩ := haux
  have hlik : (orderGp.likelihood X y (.noisy 1 1, [1])).isSome := by
    unfold GpDesign.likelihood llfConcentrated rejectPositive
    dsimp only
    unfold llfNoisy
    rw [ha]
    have hdet := (log_det_chol (idealChol_routine _ _ hLc)).1
    have hd : (!![1, c / 2; c / 2, 1] : Matrix (Fin 2) (Fin 2) ℝ).det = 1 - c / 2 * (c / 2) := by rw [det_fin_two_of]; ring
    have hle : 0 ≤ 2 * Real.log (2 * Real.pi * (1 + 1)) + twiceLogDiag Lc := by
      rw [← hdet, hd, ← Real.log_rpow (by positivity), ← Real.log_mul (by positivity) (by nlinarith)]
      refine Real.log_nonneg ?_
      rw [Real.rpow_ofNat]
      nlinarith [Real.pi_gt_three, mul_nonneg hc0.le (sub_nonneg.2 hc1)]
    have hss : 0 ≤ sumSquares a.rho := Finset.sum_nonneg fun _ _ => sq_nonneg _
    simp only [Option.map_some, Option.bind_some, haL]
    rw [if_neg]
    · rfl
    · push_cast
      norm_num at hle ⊢
      linarith
  obtain ⟨q, hq⟩ := Option.isSome_iff_exists.1 hlik
  unfold GpDesign.fitted
  rw [if_pos fun _ => hF]
  show (Option.bind (orderGp.likelihood X y (.noisy 1 1, [1])) _).isSome
  rw [hq, Option.bind_some]
  show (Option.map _ (computeAux _ _ (gpMatrix (.noisy 1 1) _) _ _ y)).isSome
  rw [Option.isSome_map]
  exact Option.isSome_iff_exists.2 ⟨a, ha⟩

/-- Two observations in one call, and the same two in two calls, in the opposite order. -/
private noncomputable def orderOne : List (TellArgs Row ℝ) := [{ X := [[.real 0], [.real 1]], vals := [.fin 1, .fin 0] }]
private noncomputable def orderTwo : List (TellArgs Row ℝ) := [{ X := [[.real 1]], vals := [.fin 0] }, { X := [[.real 0]], vals := [.fin 1] }]

/-- **C181, non-vacuity.**  Different histories with the same observations; the optimisers go on alike. -/
theorem c181_concrete : ∃ s s', afterTelling stepCfg {} orderOne = some s ∧ afterTelling stepCfg {} orderTwo = some s' ∧ s.data ≠ s'.data ∧ SameObservations s s' ∧
    (∀ t, t.length = 2 → orderLearner.fitOk 0 t = true) ∧
    ∀ fuel i, (learnRun stepCfg twoSetup (.EI, emptyPar) orderLearner fuel i s' []).log = (learnRun stepCfg twoSetup (.EI, emptyPar) orderLearner fuel i s []).log := by
  have h1 : ∃ s, afterTelling stepCfg {} orderOne = some s ∧ (s.data.getD []).map Rec.f = [1, 0] := by
    simp [afterTelling, orderOne, tell, observe, tellRest, postEvalCheck, stepCfg, labels, defaultIndex, isFlat, incumbent, getBest, List.range_succ]
  have h2 : ∃ s, afterTelling stepCfg {} orderTwo = some s ∧ (s.data.getD []).map Rec.f = [0, 1] := by
    simp [afterTelling, orderTwo, tell, observe, tellRest, postEvalCheck, stepCfg, labels, defaultIndex, isFlat, incumbent, getBest, List.range_succ]
  obtain ⟨s, hs, hd⟩ := h1
  obtain ⟨s', hs', hd'⟩ := h2
  have hp : (orderTwo.flatMap fun a => finitePart (a.X.zip a.vals)).Perm (orderOne.flatMap fun a => finitePart (a.X.zip a.vals)) := by
    simp only [orderTwo, orderOne, List.flatMap_cons, List.flatMap_nil, List.zip_cons_cons, List.zip_nil_right]
    exact List.Perm.swap _ _ _
  have hcount : (orderTwo.map fun a => if a.warm then 0 else a.X.length).sum = (orderOne.map fun a => if a.warm then 0 else a.X.length).sum := by
    simp [orderTwo, orderOne]
  refine ⟨s, s', hs, hs', fun h => ?_, c181_histories stepCfg orderOne orderTwo s s' hs hs' hp hcount, fun t ht => ?_, fun fuel i => ?_⟩
  · rw [h, hd'] at hd
    norm_num at hd
  · obtain ⟨p, q, rfl⟩ := List.length_eq_two.1 ht
    exact orderGp_fits 0 _ _
  · exact (c181_same_course orderGp orderLearner orderLearner_gp (fun _ => idealChol_routine) (fun _ => idealChol_all) (fun _ h => idealQr_routine h) (fun _ _ => rfl) stepCfg twoSetup
      (.EI, emptyPar) orderOne orderTwo s s' hs hs' hp hcount fuel i).1

/-- **C181, ties.**  Only the value of the best point is free of the order: of points of equal value the one that was told first is reported. -/
theorem c181_ties : ∃ s s', afterTelling stepCfg {} [{ X := [[.real 0], [.real 1]], vals := [.fin 1, .fin 1] }] = some s ∧
    afterTelling stepCfg {} [{ X := [[.real 1], [.real 0]], vals := [.fin 1, .fin 1] }] = some s' ∧ SameObservations s s' ∧
    ∃ r r', xopt stepCfg s = .ok (some r) ∧ xopt stepCfg s' = .ok (some r') ∧ r.x = [.real 0] ∧ r'.x = [.real 1] := by
  have h : ∀ a b : ℝ, ∃ s, afterTelling stepCfg {} [{ X := [[.real a], [.real b]], vals := [.fin 1, .fin 1] }] = some s ∧ ∃ r, xopt stepCfg s = .ok (some r) ∧ r.x = [.real a] := by
    intro a b
    simp [afterTelling, tell, observe, tellRest, postEvalCheck, stepCfg, labels, defaultIndex, isFlat, incumbent, getBest, List.range_succ, xopt]
  obtain ⟨s, hs, r, hr, hx⟩ := h 0 1
  obtain ⟨s', hs', r', hr', hx'⟩ := h 1 0
  exact ⟨s, s', hs, hs', c181_histories stepCfg _ _ s s' hs hs' (List.Perm.swap _ _ _) rfl, r, r', hr, hr', hx, hx'⟩

end Verif.Props
