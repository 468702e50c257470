import Verif.Props.Learner
import Verif.Props.AskSearch

/-! # C156, C157, C158: what the surrogate learns from, and what a step maximises -/
namespace Verif.Props
open Verif.Model Verif.Spec Verif.Proofs

variable {G : Type*}

/-! ### The last step of a run -/

private theorem run_snoc (cfg : Cfg ℝ) (u : RunSetup) (acq : AcqName × AcqPar) (L : Learner G) : ∀ (n i : ℕ) (s : OptState Row ℝ) (log : List (ℕ × Row × Obs ℝ)),
    ((learnRun cfg u acq L n i s log).ending = .running →
      learnRun cfg u acq L (n + 1) i s log = learnRun cfg u acq L 1 (i + n) (learnRun cfg u acq L n i s log).opt (learnRun cfg u acq L n i s log).log) ∧
    ((learnRun cfg u acq L n i s log).ending ≠ .running → learnRun cfg u acq L (n + 1) i s log = learnRun cfg u acq L n i s log) := by
  intro n
  induction n with
  | zero => intro i s log; exact ⟨fun _ => rfl, fun h => absurd rfl h⟩
  | succ n ih =>
    intro i s log
    rw [show learnRun cfg u acq L (n + 1 + 1) i s log = _ from learnRun.eq_2 .., show learnRun cfg u acq L (n + 1) i s log = _ from learnRun.eq_2 ..]
    cases checkStop cfg s with
    | mk s1 res =>
      cases res with
      | error e => exact ⟨fun h => (by cases h), fun _ => rfl⟩
      | ok b =>
        cases b with
        | true =>
          simp only
          cases hx : xopt cfg s1 with
          | error e => exact ⟨fun h => (by cases h), fun _ => (by first | rfl | trivial)⟩
          | ok o =>
            cases o with
            | none => exact ⟨fun h => (by cases h), fun _ => (by first | rfl | trivial)⟩
            | some r => exact ⟨fun h => (by cases h), fun _ => (by first | rfl | trivial)⟩
        | false =>
          simp only
          cases proposals cfg u acq L i s1 with
          | none => exact ⟨fun h => (by cases h), fun _ => rfl⟩
          | some X =>
            simp only
            cases tell cfg s1 { X := X, vals := X.map (L.objective i), oracle := oracleOf cfg L i s1 X } with
            | mk s2 r2 =>
              cases r2 with
              | error e => exact ⟨fun h => (by cases h), fun _ => rfl⟩
              | ok _ =>
                have := ih (i + 1) s2 (log ++ X.map (fun x => (i, x, L.objective i x)))
                rw [show i + 1 + n = i + (n + 1) by omega] at this
                exact this

/-! ### The data are the log -/

private theorem succeeded_append (a b : List (ℕ × Row × Obs ℝ)) : succeeded (a ++ b) = succeeded a ++ succeeded b := by
  unfold succeeded
  rw [List.filterMap_append]

private theorem kept_pairs (n : ℕ) (f : Row → Obs ℝ) (i : ℕ) : ∀ (X : List Row) (l : List String), X.length ≤ l.length →
    (postEvalCheck n ((X.zip (X.map f)).zip l)).map (fun r => (r.x, r.f)) = succeeded (X.map (fun x => (i, x, f x)))
  | [], l, _ => by simp [postEvalCheck, succeeded]
  | x :: X, [], h => by simp at h
  | x :: X, a :: l, h => by
    have ih := kept_pairs n f i X l (by simpa using h)
    unfold succeeded at ih ⊢
    cases hf : f x <;> simp [postEvalCheck, hf, ih]

private theorem extended_pairs (cfg : Cfg ℝ) (s : OptState Row ℝ) (log : List (ℕ × Row × Obs ℝ)) (h : (s.data.getD []).map (fun r => (r.x, r.f)) = succeeded log)
    (i : ℕ) (f : Row → Obs ℝ) (X : List Row) :
    (extended cfg s X (X.map f)).map (fun r => (r.x, r.f)) = succeeded (log ++ X.map (fun x => (i, x, f x))) := by
  unfold extended
  rw [List.map_append, h, succeeded_append, kept_pairs _ f i X _ (by simp [defaultIndex])]

private theorem tell_data {cfg : Cfg ℝ} {s s2 : OptState Row ℝ} {X : List Row} {f : Row → Obs ℝ} {o : TellOracle}
    (h : tell cfg s { X := X, vals := X.map f, oracle := o } = (s2, .ok ())) : s2.data = some (extended cfg s X (X.map f)) := by
  rw [tell_points] at h
  split at h
  · cases h
  · split at h
    · cases h
    · have := tellRest_data cfg { s with evalCount := s.evalCount + X.length } (extended cfg s X (X.map f))
      rw [← show (tellRest cfg _ _ _ _).1 = s2 from congrArg Prod.fst h]
      exact this _ _

private theorem run_data (cfg : Cfg ℝ) (u : RunSetup) (acq : AcqName × AcqPar) (L : Learner G) (n : ℕ) :
    (learnRun cfg u acq L n 0 {} []).ending = .running →
      (((learnRun cfg u acq L n 0 {} []).opt.data.getD []).map (fun r => (r.x, r.f)) = succeeded (learnRun cfg u acq L n 0 {} []).log) ∧
      ((learnRun cfg u acq L n 0 {} []).opt.data = none → n = 0) := by
  induction n with
  | zero => intro _; exact ⟨rfl, fun _ => rfl⟩
  | succ n ih =>
    intro h
    obtain ⟨h1, h2⟩ := run_snoc cfg u acq L n 0 {} []
    by_cases hr : (learnRun cfg u acq L n 0 {} []).ending = .running
    · obtain ⟨ih1, ih2⟩ := ih hr
      rw [h1 hr] at h ⊢
      revert h ih1 ih2
      generalize (learnRun cfg u acq L n 0 {} []).opt = s
      generalize (learnRun cfg u acq L n 0 {} []).log = log
      intro h ih1 ih2
      have hd := (checkStop_frame cfg s).1
      rw [learnRun] at h ⊢
      revert h hd
      cases checkStop cfg s with
      | mk s1 res =>
        intro h hd
        simp only at hd
        cases res with
        | error e => cases h
        | ok b =>
          cases b with
          | true =>
            simp only at h
            split at h <;> cases h
          | false =>
            simp only at h ⊢
            cases hp : proposals cfg u acq L (0 + n) s1 with
            | none => rw [hp] at h; cases h
            | some X =>
              rw [hp] at h
              simp only at h ⊢
              cases ht : tell cfg s1 { X := X, vals := X.map (L.objective (0 + n)), oracle := oracleOf cfg L (0 + n) s1 X } with
              | mk s2 r2 =>
                rw [ht] at h
                cases r2 with
                | error e => cases h
                | ok _ =>
                  simp only [learnRun]
                  rw [tell_data ht]
                  refine ⟨?_, fun hc => by cases hc⟩
                  rw [← hd] at ih1
                  exact extended_pairs cfg s1 log ih1 (0 + n) (L.objective (0 + n)) X
    · rw [h2 hr] at h
      exact absurd h hr

private theorem npMean_eq (y : List ℝ) : npMean y = y.sum / y.length := rfl

private theorem trainingSet_eq (d : List (Rec Row ℝ)) (log : List (ℕ × Row × Obs ℝ)) (h : d.map (fun r => (r.x, r.f)) = succeeded log) :
    trainingSet d = observedData log ∧ standardised (d.map Rec.f) = (d.map Rec.f).map (inObservedUnits log) := by
  have hy : d.map Rec.f = (succeeded log).map Prod.snd := by rw [← h, List.map_map]; rfl
  have hx : d.map Rec.x = (succeeded log).map Prod.fst := by rw [← h, List.map_map]; rfl
  have hc : npMean ((succeeded log).map Prod.snd) = centre log := by unfold npMean centre; rw [List.length_map]
  have hw : npStd ((succeeded log).map Prod.snd) = width log := by
    unfold npStd width
    rw [npMean_eq, hc, List.length_map, List.length_map, List.map_map]
    rfl
  have hst : standardised ((succeeded log).map Prod.snd) = ((succeeded log).map Prod.snd).map (inObservedUnits log) := by
    unfold standardised
    rw [hw, hc]
    have hnn : 0 ≤ width log := Real.sqrt_nonneg _
    unfold inObservedUnits
    rw [abs_of_nonneg hnn]
    by_cases hle : width log ≤ 1 / 10 ^ 8
    · simp only [hle, if_true, List.map_id']
    · simp only [hle, if_false]
  refine ⟨?_, by rw [hy]; exact hst⟩
  unfold trainingSet observedData
  rw [hy, hx, hst, List.map_map, List.zip_map']
  rfl

/-! ### C156 -/

private theorem criteria_congr (cfg : Cfg ℝ) (u : RunSetup) (acq : AcqName × AcqPar) (L L' : Learner G) (hn : L'.normals = L.normals) (i : ℕ) (d : List (Rec Row ℝ))
    (h1 : L'.fit i (trainingSet d) = L.fit i (trainingSet d)) (h2 : L'.predict i (trainingSet d) = L.predict i (trainingSet d)) :
    criteriaOf cfg u acq L' i d = criteriaOf cfg u acq L i d := by
  unfold criteriaOf
  simp only [h1, h2, hn]

/-- **C156**: a run depends on the surrogate only through what it says when fitted to all the points evaluated so far, each with its own value: if another surrogate
behaves in the same way on these data, before every `ask` and in every `tell`, the two runs are the same. -/
theorem c156_learns_from_all (cfg : Cfg ℝ) (u : RunSetup) (acq : AcqName × AcqPar) (L L' : Learner G) (hn : L'.normals = L.normals) (hs : L'.search = L.search)
    (hc : L'.constraintOk = L.constraintOk) (ho : L'.objective = L.objective)
    (hask : ∀ i, L'.fit i (observedData (learnRun cfg u acq L i 0 {} []).log) = L.fit i (observedData (learnRun cfg u acq L i 0 {} []).log) ∧
      L'.predict i (observedData (learnRun cfg u acq L i 0 {} []).log) = L.predict i (observedData (learnRun cfg u acq L i 0 {} []).log))
    (htell : ∀ i, L'.fitOk i (observedData (learnRun cfg u acq L (i + 1) 0 {} []).log) = L.fitOk i (observedData (learnRun cfg u acq L (i + 1) 0 {} []).log))
    (fuel : ℕ) : learnRun cfg u acq L' fuel 0 {} [] = learnRun cfg u acq L fuel 0 {} [] := by
  induction fuel with
  | zero => rfl
  | succ n ih =>
    obtain ⟨h1, h2⟩ := run_snoc cfg u acq L n 0 {} []
    obtain ⟨h1', h2'⟩ := run_snoc cfg u acq L' n 0 {} []
    rw [ih] at h1' h2'
    by_cases hr : (learnRun cfg u acq L n 0 {} []).ending = .running
    · have ht := htell n
      have ha := hask n
      obtain ⟨hd, -⟩ := run_data cfg u acq L n hr
      rw [h1 hr] at ht
      rw [h1 hr, h1' hr]
      revert hd ht ha
      generalize (learnRun cfg u acq L n 0 {} []).opt = s
      generalize (learnRun cfg u acq L n 0 {} []).log = log
      intro ht ha hd
      have hf := (checkStop_frame cfg s).1
      rw [learnRun, learnRun]
      rw [learnRun] at ht
      revert ht hf
      cases checkStop cfg s with
      | mk s1 res =>
        intro ht hf
        simp only at hf
        cases res with
        | error e => rfl
        | ok b =>
          cases b with
          | true => rfl
          | false =>
            simp only at ht ⊢
            have hp : proposals cfg u acq L' (0 + n) s1 = proposals cfg u acq L (0 + n) s1 := by
              unfold proposals
              cases hsd : s1.data with
              | none => rw [hs]
              | some d =>
                simp only
                have hdd : d.map (fun r => (r.x, r.f)) = succeeded log := by rw [← hd, ← hf, hsd]; rfl
                rw [criteria_congr cfg u acq L L' hn, hs]
                · rw [(trainingSet_eq d log hdd).1, zero_add]; exact ha.1
                · rw [(trainingSet_eq d log hdd).1, zero_add]; exact ha.2
            rw [hp]
            cases hX : proposals cfg u acq L (0 + n) s1 with
            | none => rfl
            | some X =>
              rw [hX] at ht
              simp only at ht ⊢
              have hor : oracleOf cfg L' (0 + n) s1 X = oracleOf cfg L (0 + n) s1 X := by
                unfold oracleOf
                simp only [hc, ho]
                congr 1
                have hdd : (s1.data.getD []).map (fun r => (r.x, r.f)) = succeeded log := by rw [hf]; exact hd
                rw [(trainingSet_eq _ _ (extended_pairs cfg s1 log hdd (0 + n) (L.objective (0 + n)) X)).1]
                revert ht
                cases tell cfg s1 { X := X, vals := X.map (L.objective (0 + n)), oracle := oracleOf cfg L (0 + n) s1 X } with
                | mk s2 r2 =>
                  intro ht
                  rw [zero_add] at ht ⊢
                  cases r2 <;> exact ht
              rw [ho, hor]
              cases tell cfg s1 { X := X, vals := X.map (L.objective (0 + n)), oracle := oracleOf cfg L (0 + n) s1 X } with
              | mk s2 r2 => cases r2 <;> rfl
    · rw [h2 hr, h2' hr]

/-! ### C157 -/

private theorem ei_value (o : AcqOpt) (ho : o.fn = .EI) (hs : ∀ v, o.mdl.sigma2 = some v → 0 < v) : ∃ a, singleCreate o = .ok a ∧
    ∀ p : AcqPred, acqValue a o.mdl p = some (open Classical in
      if Real.sqrt p.mse < eiThreshold o.mdl.sigma2 then 0 else expectedImprovement o.minimize (if o.minimize then o.fmin else o.fmax) (predictive p.mean p.mse)) := by
  classical
  obtain ⟨a, ha, hname, hmin, hplug, -⟩ := c77_single_default_partial o (Or.inl ho)
  refine ⟨a, ha, fun p => ?_⟩
  have hn : a.name = .EI := hname.trans ho
  by_cases hc : Real.sqrt p.mse < eiThreshold o.mdl.sigma2
  · rw [if_pos hc]
    unfold acqValue acqValueAt
    rw [hn]
    exact if_pos ((eiCertain_iff o.mdl hs _).mpr hc)
  · rw [if_neg hc]
    push Not at hc
    have hpos : 0 < eiThreshold o.mdl.sigma2 := by
      cases h2 : o.mdl.sigma2 with
      | none => simp [eiThreshold]
      | some v => exact div_pos (Real.sqrt_pos.mpr (hs v h2)) (by norm_num)
    have hmse : 0 < p.mse := Real.sqrt_pos.mp (lt_of_lt_of_le hpos hc)
    have key := c73_ei_is_expected_improvement_partial { plugin := some (if o.minimize then o.fmin else o.fmax) } o.mdl o.minimize
      { name := .EI, par := 0, plugin := setPlugin o.mdl o.minimize (some (if o.minimize then o.fmin else o.fmax)), minimize := o.minimize }
      (if o.minimize then o.fmin else o.fmax) p (by simp [acqInit]) rfl hmse hs hc
    rw [← key]
    unfold acqValue acqValueAt
    rw [hn, hmin, hplug]
    cases o.minimize <;> simp [setPlugin]

private theorem data_nonempty {cfg : Cfg ℝ} {s s2 : OptState Row ℝ} {X : List Row} {f : Row → Obs ℝ} {o : TellOracle}
    (h : tell cfg s { X := X, vals := X.map f, oracle := o } = (s2, .ok ())) : extended cfg s X (X.map f) ≠ [] := by
  rw [tell_points] at h
  split at h
  · cases h
  · split at h
    · cases h
    · unfold tellRest at h
      intro hc
      rw [hc] at h
      simp at h

private theorem run_nonempty (cfg : Cfg ℝ) (u : RunSetup) (acq : AcqName × AcqPar) (L : Learner G) (n : ℕ) (hn : 1 ≤ n)
    (h : (learnRun cfg u acq L n 0 {} []).ending = .running) : ∃ d, (learnRun cfg u acq L n 0 {} []).opt.data = some d ∧ d ≠ [] := by
  obtain ⟨m, rfl⟩ : ∃ m, n = m + 1 := ⟨n - 1, by omega⟩
  obtain ⟨h1, h2⟩ := run_snoc cfg u acq L m 0 {} []
  by_cases hr : (learnRun cfg u acq L m 0 {} []).ending = .running
  · rw [h1 hr] at h ⊢
    revert h
    generalize (learnRun cfg u acq L m 0 {} []).opt = s
    generalize (learnRun cfg u acq L m 0 {} []).log = log
    intro h
    rw [learnRun] at h ⊢
    revert h
    cases checkStop cfg s with
    | mk s1 res =>
      intro h
      cases res with
      | error e => cases h
      | ok b =>
        cases b with
        | true =>
          simp only at h
          split at h <;> cases h
        | false =>
          simp only at h ⊢
          cases hp : proposals cfg u acq L (0 + m) s1 with
          | none => rw [hp] at h; cases h
          | some X =>
            rw [hp] at h
            simp only at h ⊢
            cases ht : tell cfg s1 { X := X, vals := X.map (L.objective (0 + m)), oracle := oracleOf cfg L (0 + m) s1 X } with
            | mk s2 r2 =>
              rw [ht] at h
              cases r2 with
              | error e => cases h
              | ok _ =>
                simp only [learnRun]
                exact ⟨_, tell_data ht, data_nonempty ht⟩
  · rw [h2 hr] at h
    exact absurd h hr

private theorem bestSoFar_of (mn : Bool) (d : List (Rec Row ℝ)) (log : List (ℕ × Row × Obs ℝ)) (hd : d.map (fun r => (r.x, r.f)) = succeeded log) (hne : d ≠ []) :
    BestSoFar mn log (if mn then npMin (standardised (d.map Rec.f)) else npMax (standardised (d.map Rec.f))) := by
  obtain ⟨-, hst⟩ := trainingSet_eq d log hd
  have hobs : (observedData log).map Prod.snd = standardised (d.map Rec.f) := by
    rw [hst, show d.map Rec.f = (succeeded log).map Prod.snd by rw [← hd, List.map_map]; rfl]
    unfold observedData
    rw [List.map_map, List.map_map]
    rfl
  have hsne : standardised (d.map Rec.f) ≠ [] := by rw [hst]; simpa using hne
  unfold BestSoFar
  rw [hobs]
  cases mn with
  | true => exact ⟨npMin_mem hsne, fun v hv => npMin_le hv⟩
  | false => exact ⟨npMax_mem hsne, fun v hv => le_npMax hv⟩

private theorem last_step (cfg : Cfg ℝ) (u : RunSetup) (acq : AcqName × AcqPar) (L : Learner G) (n : ℕ) (s : OptState Row ℝ) (log : List (ℕ × Row × Obs ℝ))
    (d : List (Rec Row ℝ)) (cs : List Criterion) (X : List Row) (hcont : (checkStop cfg s).2 = .ok false) (hdat : s.data = some d)
    (hcs : criteriaOf cfg u acq L n d = .ok cs) (hx : askFull (L.search n cs) (askStateOf u s) none none = .ok X) :
    (learnRun cfg u acq L 1 (0 + n) s log).log = log ++ X.map (fun x => (n, x, L.objective n x)) := by
  have hf := (checkStop_frame cfg s).1
  rw [learnRun]
  revert hcont hf
  cases checkStop cfg s with
  | mk s1 res =>
    intro hcont hf
    simp only at hcont hf
    subst hcont
    simp only
    have hs1 : askStateOf u s1 = askStateOf u s := by unfold askStateOf; rw [hf]
    have hprop : proposals cfg u acq L (0 + n) s1 = some X := by
      unfold proposals
      rw [hf, hdat, zero_add]
      simp only [hcs]
      rw [hs1, hx]
      rfl
    rw [hprop]
    simp only
    cases tell cfg s1 { X := X, vals := X.map (L.objective (0 + n)), oracle := oracleOf cfg L (0 + n) s1 X } with
    | mk s2 r2 => cases r2 <;> simp [learnRun]

/-- **C157**: in every step after the first of a run that proposes one point at a time by expected improvement, with the (1+1)-CMA-ES or MIES and without constraints:
among the points the search looks at, one promises the largest expected improvement on the best value observed so far, under the prediction of the surrogate fitted to
all the values observed so far; this point is evaluated next, if it is not one of the points evaluated before. -/
theorem c157_maximises_improvement_partial (cfg : Cfg ℝ) (u : RunSetup) (par : AcqPar) (L : Learner G) (n : ℕ) (hn : 1 ≤ n)
    (hrun : (learnRun cfg u (.EI, par) L n 0 {} []).ending = .running) (hcont : (checkStop cfg (learnRun cfg u (.EI, par) L n 0 {} []).opt).2 = .ok false)
    (hp : u.nPoint = 1) (hv : u.vars ≠ []) (huse : UsesCriteria L)
    (hsig : ∀ v, (L.fit n (observedData (learnRun cfg u (.EI, par) L n 0 {} []).log)).sigma2 = some v → 0 < v)
    (henv : ∀ cs, LibrariesOk (L.search n cs) (u.vars.map Prod.snd) ∧ SpaceOk (L.search n cs) (u.vars.map Prod.snd) ∧ (L.search n cs).algo ≠ .bfgs ∧
      (∀ t x, (L.search n cs).penalty t x = 0) ∧ (L.search n cs).h = none ∧ (L.search n cs).g = none ∧ 1 ≤ (L.search n cs).nRestart ∧
      1 ≤ (L.search n cs).budget) :
    ∃ (best : ℝ) (e : AskEnv G) (x : Row) (m : ℕ) (B : ℕ → ℤ), BestSoFar cfg.minimize (learnRun cfg u (.EI, par) L n 0 {} []).log best ∧
      (∃ c, e = L.search n [c]) ∧ 1 ≤ m ∧ B 0 = e.budget ∧
      (∃ k < m, x ∈ innerLog e (u.vars.map Prod.snd) 0 k (B k)) ∧
      (∀ k < m, ∀ y ∈ innerLog e (u.vars.map Prod.snd) 0 k (B k),
        worth cfg.minimize L n (learnRun cfg u (.EI, par) L n 0 {} []).log best y ≤ worth cfg.minimize L n (learnRun cfg u (.EI, par) L n 0 {} []).log best x) ∧
      ((∀ y ∈ (succeeded (learnRun cfg u (.EI, par) L n 0 {} []).log).map Prod.fst, ¬ matchesRow (u.vars.map Prod.snd) y x) →
        (learnRun cfg u (.EI, par) L (n + 1) 0 {} []).log = (learnRun cfg u (.EI, par) L n 0 {} []).log ++ [(n, x, L.objective n x)]) := by
  classical
  obtain ⟨h1, -⟩ := run_snoc cfg u (.EI, par) L n 0 {} []
  obtain ⟨hd, -⟩ := run_data cfg u (.EI, par) L n hrun
  obtain ⟨d, hdat, hne⟩ := run_nonempty cfg u (.EI, par) L n hn hrun
  rw [h1 hrun]
  clear h1
  revert hcont hsig hd hdat
  generalize (learnRun cfg u (.EI, par) L n 0 {} []).opt = s
  generalize (learnRun cfg u (.EI, par) L n 0 {} []).log = log
  intro hcont hsig hd hdat
  rw [hdat] at hd
  simp only [Option.getD_some] at hd
  obtain ⟨ht, hst⟩ := trainingSet_eq d log hd
  set o := optOf .EI par cfg.minimize (d.map Rec.f) (L.fit n (trainingSet d)) with ho
  have hmdl : o.mdl = L.fit n (observedData log) := by rw [ho, ← ht]; rfl
  obtain ⟨a, ha, hval⟩ := ei_value o rfl (by rw [hmdl]; exact hsig)
  set c : Criterion := fun x j => (acqValue a (L.fit n (trainingSet d)) (L.predict n (trainingSet d) x j),
    acqDx a (L.fit n (trainingSet d)) (L.predict n (trainingSet d) x j)) with hc
  have hcs : criteriaOf cfg u (.EI, par) L n d = .ok [c] := by
    unfold criteriaOf
    simp only [hp, lt_irrefl, if_false]
    rw [show singleCreate (optOf .EI par cfg.minimize (d.map Rec.f) (L.fit n (trainingSet d))) = .ok a from ha]
    rfl
  set best := if o.minimize then o.fmin else o.fmax with hbest
  have hworth : ∀ x, (L.search n [c]).value 0 x = worth cfg.minimize L n log best x := by
    intro x
    refine huse n [c] 0 c x _ rfl ?_
    show acqValue a (L.fit n (trainingSet d)) (L.predict n (trainingSet d) x 0) = _
    have := hval (L.predict n (trainingSet d) x 0)
    rw [show o.mdl = L.fit n (trainingSet d) from rfl] at this
    rw [this]
    unfold worth
    rw [ht]
    rfl
  obtain ⟨g1, g2, g3, g4, g5, g6, g7, g8⟩ := henv [c]
  obtain ⟨x, m, B, -, hm, hB, hmem, hmax, hask⟩ := c155_ask_partial (L.search n [c]) (askStateOf u s) g1 g2 g3 g4 g5 g6 g7 g8
    (by simp [askStateOf, hdat]) hp hv
  refine ⟨best, L.search n [c], x, m, B, ?_, ⟨c, rfl⟩, hm, hB, hmem, ?_, ?_⟩
  · exact bestSoFar_of cfg.minimize d log hd hne
  · intro k hk y hy
    rw [← hworth, ← hworth]
    exact hmax k hk y hy
  · intro hfresh
    have hx := hask (by
      intro y hy
      refine hfresh y ?_
      have : (askStateOf u s).data = (succeeded log).map Prod.fst := by
        rw [← hd, List.map_map]
        simp only [askStateOf, hdat, Option.getD_some]
        rfl
      rw [← this]
      exact hy)
    exact last_step cfg u (.EI, par) L n s log d [c] [x] hcont hdat hcs hx

/-! ### C158 -/

private theorem mgfi_value (o : AcqOpt) (t : ℝ) (ht : 0 < t) (ho : o.fn = .MGFI) (hpar : o.acqPar = { t := some t }) (zs : List ℝ) :
    ∃ as, batchCreate o zs = .ok as ∧ as.length = zs.length ∧ ∀ (i : ℕ) (z : ℝ) (a : Acq), zs[i]? = some z → as[i]? = some a →
      ∀ p : AcqPred, acqValue a o.mdl p = some (open Classical in
        if Real.sqrt p.mse ≤ 1 / 10 ^ 8 then 0
        else momentOfImprovement o.minimize (if o.minimize then o.fmin else o.fmax) (min (t * Real.exp (z / 2)) 22.36) (predictive p.mean p.mse)) := by
  classical
  obtain ⟨as, h1, h2, h3⟩ := c78_batch_mgfi_partial o t ht ho (by rw [hpar]) (by rw [hpar]) (by rw [hpar]) zs
  refine ⟨as, h1, h2, fun i z a hz ha p => ?_⟩
  obtain ⟨hn, hmin, -, hpar', hplug⟩ := h3 i z a hz ha
  rw [hpar] at hplug
  simp only [Option.getD_none] at hplug
  have habs : |Real.sqrt p.mse| = Real.sqrt p.mse := abs_of_nonneg (Real.sqrt_nonneg _)
  by_cases hc : Real.sqrt p.mse ≤ 1 / 10 ^ 8
  · rw [if_pos hc]
    unfold acqValue acqValueAt
    rw [hn]
    exact if_pos (show |Real.sqrt p.mse| ≤ _ by rw [habs]; exact hc)
  · rw [if_neg hc]
    push Not at hc
    have key := c73_mgfi_is_moment_partial { plugin := some (if o.minimize then o.fmin else o.fmax), t := some (t * Real.exp (z / 2)) } o.mdl o.minimize
      { name := .MGFI, par := min (t * Real.exp (z / 2)) 22.36, plugin := setPlugin o.mdl o.minimize (some (if o.minimize then o.fmin else o.fmax)), minimize := o.minimize }
      (if o.minimize then o.fmin else o.fmax) (t * Real.exp (z / 2)) p (by
        have hpos : 0 < t * Real.exp (z / 2) := mul_pos ht (Real.exp_pos _)
        simp only [acqInit, Option.getD_some, Option.isSome_none, Bool.or_self, Bool.false_eq_true, if_false]
        rw [if_pos hpos]
        norm_num) rfl rfl hc
    rw [← key]
    unfold acqValue acqValueAt
    rw [hn, hmin, hplug, hpar']
    cases o.minimize <;> simp [setPlugin]

/-- **C158**: in every step after the first of a run of `ParallelBO` with `MGFI`, with the (1+1)-CMA-ES or MIES and without constraints: for every point of the batch there
is a temperature, drawn for it, such that among the points its search looks at it has the largest moment-generating function of the improvement on the best value observed
so far, under the prediction of the surrogate fitted to all the values observed so far; these points are evaluated next, if they are new and different. -/
theorem c158_batch_maximises_partial (cfg : Cfg ℝ) (u : RunSetup) (t : ℝ) (ht : 0 < t) (L : Learner G) (n : ℕ) (hn : 1 ≤ n)
    (hrun : (learnRun cfg u (.MGFI, { t := some t }) L n 0 {} []).ending = .running)
    (hcont : (checkStop cfg (learnRun cfg u (.MGFI, { t := some t }) L n 0 {} []).opt).2 = .ok false)
    (hp : 1 < u.nPoint) (hpar : u.parallel = true) (hv : u.vars ≠ []) (huse : UsesCriteria L) (hz : ((L.normals n).length : ℤ) = u.nPoint)
    (henv : ∀ cs, LibrariesOk (L.search n cs) (u.vars.map Prod.snd) ∧ SpaceOk (L.search n cs) (u.vars.map Prod.snd) ∧ (L.search n cs).algo ≠ .bfgs ∧
      (∀ t x, (L.search n cs).penalty t x = 0) ∧ (L.search n cs).h = none ∧ (L.search n cs).g = none ∧ 1 ≤ (L.search n cs).nRestart ∧
      1 ≤ (L.search n cs).budget) :
    ∃ (best : ℝ) (e : AskEnv G) (X : List Row), BestSoFar cfg.minimize (learnRun cfg u (.MGFI, { t := some t }) L n 0 {} []).log best ∧
      (∃ cs, e = L.search n cs) ∧ (X.length : ℤ) = u.nPoint ∧
      (∀ (i : ℕ) (x : Row), X[i]? = some x → ∃ (z : ℝ) (m : ℕ) (B : ℕ → ℤ), (L.normals n)[i]? = some z ∧ 1 ≤ m ∧ B 0 = e.budget ∧
        (∃ k < m, x ∈ innerLog e (u.vars.map Prod.snd) i k (B k)) ∧
        ∀ k < m, ∀ y ∈ innerLog e (u.vars.map Prod.snd) i k (B k),
          momentWorth cfg.minimize L n (learnRun cfg u (.MGFI, { t := some t }) L n 0 {} []).log best (min (t * Real.exp (z / 2)) 22.36) y ≤
          momentWorth cfg.minimize L n (learnRun cfg u (.MGFI, { t := some t }) L n 0 {} []).log best (min (t * Real.exp (z / 2)) 22.36) x) ∧
      (FreshBatch (u.vars.map Prod.snd) ((succeeded (learnRun cfg u (.MGFI, { t := some t }) L n 0 {} []).log).map Prod.fst) X →
        (learnRun cfg u (.MGFI, { t := some t }) L (n + 1) 0 {} []).log =
          (learnRun cfg u (.MGFI, { t := some t }) L n 0 {} []).log ++ X.map (fun x => (n, x, L.objective n x))) := by
  classical
  obtain ⟨h1, -⟩ := run_snoc cfg u (.MGFI, { t := some t }) L n 0 {} []
  obtain ⟨hd, -⟩ := run_data cfg u (.MGFI, { t := some t }) L n hrun
  obtain ⟨d, hdat, hne⟩ := run_nonempty cfg u (.MGFI, { t := some t }) L n hn hrun
  rw [h1 hrun]
  clear h1
  revert hcont hd hdat
  generalize (learnRun cfg u (.MGFI, { t := some t }) L n 0 {} []).opt = s
  generalize (learnRun cfg u (.MGFI, { t := some t }) L n 0 {} []).log = log
  intro hcont hd hdat
  rw [hdat] at hd
  simp only [Option.getD_some] at hd
  obtain ⟨htr, hst⟩ := trainingSet_eq d log hd
  set o := optOf .MGFI { t := some t } cfg.minimize (d.map Rec.f) (L.fit n (trainingSet d)) with ho
  obtain ⟨as, ha, hlen, hval⟩ := mgfi_value o t ht rfl rfl (L.normals n)
  set cs : List Criterion := as.map (fun a x j => (acqValue a (L.fit n (trainingSet d)) (L.predict n (trainingSet d) x j),
    acqDx a (L.fit n (trainingSet d)) (L.predict n (trainingSet d) x j))) with hc
  have hcs : criteriaOf cfg u (.MGFI, { t := some t }) L n d = .ok cs := by
    unfold criteriaOf
    simp only [hp, if_true]
    rw [show batchCreate (optOf .MGFI { t := some t } cfg.minimize (d.map Rec.f) (L.fit n (trainingSet d))) (L.normals n) = .ok as from ha]
    rfl
  set best := if o.minimize then o.fmin else o.fmax with hbest
  have hworth : ∀ (i : ℕ) (z : ℝ), (L.normals n)[i]? = some z → ∀ x,
      (L.search n cs).value i x = momentWorth cfg.minimize L n log best (min (t * Real.exp (z / 2)) 22.36) x := by
    intro i z hzi x
    obtain ⟨a, hai⟩ : ∃ a, as[i]? = some a := by
      have : i < as.length := by
        rw [hlen]
        by_contra hcon
        rw [List.getElem?_eq_none (by omega)] at hzi
        cases hzi
      exact ⟨_, List.getElem?_eq_getElem this⟩
    refine huse n cs i _ x _ (by rw [hc, List.getElem?_map, hai]; rfl) ?_
    have := hval i z a hzi hai (L.predict n (trainingSet d) x 0)
    rw [show o.mdl = L.fit n (trainingSet d) from rfl] at this
    simp only
    rw [this]
    unfold momentWorth
    rw [htr]
    rfl
  obtain ⟨g1, g2, g3, g4, g5, g6, g7, g8⟩ := henv cs
  obtain ⟨X, hX, hall, hask⟩ := c155_ask_batch_partial (L.search n cs) (askStateOf u s) g1 g2 g3 g4 g5 g6 g7 g8
    (by simp [askStateOf, hdat]) hp hpar hv
  refine ⟨best, L.search n cs, X, ?_, ⟨cs, rfl⟩, hX, ?_, ?_⟩
  · exact bestSoFar_of cfg.minimize d log hd hne
  · intro i x hx
    obtain ⟨-, m, B, hm, hB, hmem, hmax⟩ := hall i x hx
    obtain ⟨z, hzi⟩ : ∃ z, (L.normals n)[i]? = some z := by
      have : i < X.length := by
        by_contra hcon
        rw [List.getElem?_eq_none (by omega)] at hx
        cases hx
      exact ⟨_, List.getElem?_eq_getElem (by rw [show (askStateOf u s).nPoint = u.nPoint from rfl] at hX; omega)⟩
    refine ⟨z, m, B, hzi, hm, hB, hmem, fun k hk y hy => ?_⟩
    rw [← hworth i z hzi, ← hworth i z hzi]
    exact hmax k hk y hy
  · intro hfresh
    refine last_step cfg u (.MGFI, { t := some t }) L n s log d cs X hcont hdat hcs (hask ?_)
    rw [show (askStateOf u s).data = (succeeded log).map Prod.fst by
      rw [← hd, List.map_map]
      simp only [askStateOf, hdat, Option.getD_some]
      rfl]
    exact hfresh

/-! ### The hypotheses are met -/

/-- The searches are made by the (1+1)-CMA-ES on the acquisition functions. -/
noncomputable def stepLearner : Learner Unit where
  fit := fun _ t => { y := some (t.map Prod.snd), sigma2 := some 1 }
  predict := fun _ t _ _ => { mean := (t.map Prod.snd).sum, mse := 1 }
  normals := fun _ => [0, 1]
  search := fun _ cs => { twoEnv with algo := .onePlusOne, value := fun k x => ((cs[k]?.bind (fun c => (c x 0).1)).getD 0) }
  objective := fun _ => demoObjective

private theorem step_first (k : ℕ) (cs : List Criterion) : askFull (stepLearner.search k cs) (askStateOf twoSetup {}) none none = .ok [[.real 0], [.real 1]] := by
  rw [← two_first]
  rfl

/-- Minimisation with three evaluations. -/
noncomputable def stepCfg : Cfg ℝ := { minimize := true, maxFEs := some 3, ftarget := none }

theorem step_run_any (m : ℤ) (hm : 0 < m) (predict : ℕ → List (Row × ℝ) → Row → ℕ → AcqPred)
    (normals : ℕ → List ℝ) (acq : AcqName × AcqPar) (b : Bool) (q : ℤ) :
    learnRun { stepCfg with maxFEs := some m } { twoSetup with parallel := b, nPoint := q } acq { stepLearner with predict, normals } 1 0 {} [] = ⟨twoState, twoLog, .running⟩ := by
  have h0 : checkStop { stepCfg with maxFEs := some m } ({} : OptState Row ℝ) = ({}, .ok false) := by
    simp [checkStop, stepCfg, checkBudget, stopFlag, not_le.mpr hm]
  have hp : proposals { stepCfg with maxFEs := some m } { twoSetup with parallel := b, nPoint := q } acq { stepLearner with predict, normals } 0 {} = some [[.real 0], [.real 1]] := by
    show (askFull (stepLearner.search 0 []) (askStateOf twoSetup {}) none none).toOption = _
    rw [step_first]
    rfl
  have hor : oracleOf { stepCfg with maxFEs := some m } { stepLearner with predict, normals } 0 {} [[.real 0], [.real 1]] = {} := demo_oracle _ _ rfl rfl _ _ _
  have t0 : tell { stepCfg with maxFEs := some m } ({} : OptState Row ℝ) { X := [[.real 0], [.real 1]], vals := [[Val.real 0], [.real 1]].map (({ stepLearner with predict, normals } : Learner Unit).objective 0), oracle := {} } =
      (twoState, .ok ()) := by
    simp [tell, observe, tellRest, postEvalCheck, stepLearner, demoObjective, stepCfg, labels, defaultIndex, isFlat, incumbent, getBest, twoState, twoWorse, twoBetter,
      List.range_succ]
  rw [learnRun, h0]
  simp only [hp, hor, t0]
  rw [learnRun]
  congr 1
  simp [stepLearner, demoObjective, twoLog]

theorem step_run (predict : ℕ → List (Row × ℝ) → Row → ℕ → AcqPred) (acq : AcqName × AcqPar) (b : Bool) (q : ℤ) :
    learnRun stepCfg { twoSetup with parallel := b, nPoint := q } acq { stepLearner with predict } 1 0 {} [] = ⟨twoState, twoLog, .running⟩ :=
  step_run_any 3 (by norm_num) predict stepLearner.normals acq b q

theorem step_env (cs : List Criterion) : LibrariesOk (stepLearner.search 1 cs) (twoSetup.vars.map Prod.snd) ∧
    SpaceOk (stepLearner.search 1 cs) (twoSetup.vars.map Prod.snd) ∧
      (stepLearner.search 1 cs).algo ≠ .bfgs ∧ (∀ t x, (stepLearner.search 1 cs).penalty t x = 0) ∧ (stepLearner.search 1 cs).h = none ∧
      (stepLearner.search 1 cs).g = none ∧ 1 ≤ (stepLearner.search 1 cs).nRestart ∧ 1 ≤ (stepLearner.search 1 cs).budget := by
  have hd := demo_ok demoObjective
  obtain ⟨h1, h2, h3, h4, h5, h6, h7, h8⟩ := hd.libraries 0
  obtain ⟨g1, g2, g3, g4, g5⟩ := hd.space 0
  have hr : (stepLearner.search 1 cs).rng.Valid := by
    refine ⟨fun g N d i j => ?_, fun g s N i hs => hs⟩
    show 0 ≤ (if i = 0 then (0 : ℝ) else 1) ∧ (if i = 0 then (0 : ℝ) else 1) ≤ 1
    split <;> norm_num
  exact ⟨⟨hr, h2, h3, h4, h5, h6, h7, h8⟩, ⟨g1, g2, g3, fun _ => g4 (by simp [demoWorld, zeroEnv]), g5⟩, by simp [stepLearner], fun _ _ => rfl, rfl, rfl,
    by simp [stepLearner, twoEnv, zeroEnv], by simp [stepLearner, twoEnv, zeroEnv]⟩

theorem step_uses : UsesCriteria stepLearner := by
  intro i cs k c x v hc hv
  simp [stepLearner, hc, hv]

/-- The hypotheses of `c157_maximises_improvement_partial` are met after the first step of a run in which the values 1 and 0 have been observed. -/
example : let o := learnRun stepCfg { twoSetup with parallel := false, nPoint := 1 } (.EI, emptyPar) stepLearner 1 0 {} []
    o.ending = .running ∧ succeeded o.log = [([.real 0], 1), ([.real 1], 0)] ∧ (checkStop stepCfg o.opt).2 = .ok false ∧ UsesCriteria stepLearner ∧
    (∀ v, (stepLearner.fit 1 (observedData o.log)).sigma2 = some v → 0 < v) ∧
    ∀ cs, LibrariesOk (stepLearner.search 1 cs) (twoSetup.vars.map Prod.snd) ∧ SpaceOk (stepLearner.search 1 cs) (twoSetup.vars.map Prod.snd) ∧
      (stepLearner.search 1 cs).algo ≠ .bfgs ∧ (∀ t x, (stepLearner.search 1 cs).penalty t x = 0) ∧ (stepLearner.search 1 cs).h = none ∧
      (stepLearner.search 1 cs).g = none ∧ 1 ≤ (stepLearner.search 1 cs).nRestart ∧ 1 ≤ (stepLearner.search 1 cs).budget := by
  intro o
  rw [show o = ⟨twoState, twoLog, .running⟩ from step_run stepLearner.predict _ _ _]
  refine ⟨rfl, rfl, ?_, step_uses, ?_, step_env⟩
  · simp [checkStop, stepCfg, checkBudget, stopFlag, twoState]
  · intro v hv
    cases hv
    norm_num

/-- The hypotheses of `c158_batch_maximises_partial` are met, for two points per step. -/
example : let u : RunSetup := { twoSetup with parallel := true, nPoint := 2 }
    let o := learnRun stepCfg u (.MGFI, { t := some 2 }) stepLearner 1 0 {} []
    o.ending = .running ∧ (checkStop stepCfg o.opt).2 = .ok false ∧ 1 < u.nPoint ∧ u.parallel = true ∧ u.vars ≠ [] ∧ ((stepLearner.normals 1).length : ℤ) = u.nPoint := by
  intro u o
  rw [show o = ⟨twoState, twoLog, .running⟩ from step_run stepLearner.predict _ _ _]
  refine ⟨rfl, ?_, by norm_num [u], rfl, by simp [u, twoSetup, demoSetup], by simp [stepLearner, u]⟩
  simp [checkStop, stepCfg, checkBudget, stopFlag, twoState]

open Classical in
/-- A surrogate that agrees with that of `stepLearner` on the data of its run only. -/
private noncomputable def otherLearner : Learner Unit :=
  { stepLearner with
    predict := fun i t x j => if t = observedData (learnRun stepCfg twoSetup (.EI, emptyPar) stepLearner i 0 {} []).log then stepLearner.predict i t x j else ⟨7, 2, 0, 0⟩ }

/-- The hypotheses of `c156_learns_from_all` are met by two surrogates that differ on all other data. -/
example (fuel : ℕ) : otherLearner.predict ≠ stepLearner.predict ∧
    learnRun stepCfg twoSetup (.EI, emptyPar) otherLearner fuel 0 {} [] = learnRun stepCfg twoSetup (.EI, emptyPar) stepLearner fuel 0 {} [] := by
  refine ⟨fun h => ?_, c156_learns_from_all stepCfg twoSetup (.EI, emptyPar) stepLearner otherLearner rfl rfl rfl rfl (fun i => ⟨rfl, ?_⟩) (fun i => rfl) fuel⟩
  · have h1 := congrFun (congrFun (congrFun (congrFun h 0) [([], 1)]) []) 0
    simp [otherLearner, learnRun, observedData, succeeded, stepLearner] at h1
  · funext x j
    simp [otherLearner]

end Verif.Props
