import Verif.Spec.Checkpoint
import Verif.Proofs.Optimizer
import Verif.Props.SaveLoad

/-! Lemmas for C184. -/
namespace Verif.Proofs

open Verif.Model Verif.Spec

variable {G F W B : Type}

/-! ### The data file does not matter for the rest -/

theorem checkStop_file (cfg : Cfg ℝ) (s : OptState Row ℝ) (c : List (Rec Row ℝ)) :
    checkStop cfg { s with csv := c } = ({ (checkStop cfg s).1 with csv := c }, (checkStop cfg s).2) := by
  have hb : checkBudget cfg { s with csv := c } = { checkBudget cfg s with csv := c } := by
    unfold checkBudget
    cases cfg.maxFEs with
    | none => rfl
    | some m =>
      simp only
      split <;> rfl
  unfold checkStop
  simp only [hb]
  generalize checkBudget cfg s = s1
  cases cfg.ftarget with
  | none => rfl
  | some t =>
    have hx : xopt cfg { s1 with csv := c } = xopt cfg s1 := rfl
    simp only [hx]
    cases xopt cfg s1 with
    | error e => rfl
    | ok r =>
      cases r with
      | none => rfl
      | some r =>
        simp only
        split <;> rfl

theorem tellRest_file (cfg : Cfg ℝ) (s : OptState Row ℝ) (d kept : List (Rec Row ℝ)) (a : TellArgs Row ℝ) (c : List (Rec Row ℝ)) :
    ∃ r, tellRest cfg s d kept a = ({ (tellRest cfg s d kept a).1 with csv := s.csv ++ r }, (tellRest cfg s d kept a).2) ∧
      tellRest cfg { s with csv := c } d kept a = ({ (tellRest cfg s d kept a).1 with csv := c ++ r }, (tellRest cfg s d kept a).2) := by
  unfold tellRest
  simp only
  by_cases h1 : d.isEmpty = true
  · exact ⟨[], by simp [h1]⟩
  by_cases h2 : isFlat (d.map Rec.f) = true
  · exact ⟨[], by simp [h1, h2]⟩
  by_cases h3 : a.oracle.fitOk = true
  · refine ⟨if cfg.dataFile then kept else [], ?_⟩
    cases incumbent cfg.minimize d with
    | none => cases cfg.dataFile <;> simp [h1, h2, h3]
    | some b =>
      by_cases h4 : a.oracle.constraintOk = true
      · cases a.warm <;> cases cfg.dataFile <;> simp [h1, h2, h3, h4]
      · cases cfg.dataFile <;> simp [h1, h2, h3, h4]
  · exact ⟨[], by simp [h1, h2, h3]⟩

theorem tell_file (cfg : Cfg ℝ) (s : OptState Row ℝ) (a : TellArgs Row ℝ) (c : List (Rec Row ℝ)) :
    ∃ r, tell cfg s a = ({ (tell cfg s a).1 with csv := s.csv ++ r }, (tell cfg s a).2) ∧
      tell cfg { s with csv := c } a = ({ (tell cfg s a).1 with csv := c ++ r }, (tell cfg s a).2) := by
  unfold tell
  by_cases h1 : a.X.isEmpty = true
  · exact ⟨[], by simp [h1]⟩
  by_cases h2 : (a.index.map List.length).any (· != a.X.length) = true
  · exact ⟨[], by simp only [h1, h2]; simp⟩
  simp only [h1, h2]
  rcases observe a.warm a.X a.vals s.evalCount with ⟨n, p⟩
  cases p with
  | none => exact ⟨[], by simp⟩
  | some pairs =>
    cases hd : s.data with
    | none =>
      simp only
      exact tellRest_file cfg { s with evalCount := n, data := none } _ _ a c
    | some d =>
      simp only
      by_cases h3 : (d ++ postEvalCheck (if cfg.evalDict = true then 0 else 1) (pairs.zip (labels a))).isEmpty = true
      · exact ⟨[], by simp only [h3]; simp⟩
      · simp only [h3]
        exact tellRest_file cfg { s with evalCount := n, data := some d } _ _ a c

theorem turn_file (K : CkSetup G F W B) (s : OptState Row ℝ) (c : List (Rec Row ℝ)) :
    ∃ r, loopTurn K s = ({ (loopTurn K s).1 with csv := s.csv ++ r }, (loopTurn K s).2) ∧
      loopTurn K { s with csv := c } = ({ (loopTurn K s).1 with csv := c ++ r }, (loopTurn K s).2) := by
  unfold loopTurn
  rw [checkStop_file K.cfg s c]
  have hcsv := (checkStop_frame K.cfg s).2.2.2.2
  rcases hc : checkStop K.cfg s with ⟨s1, b⟩
  rw [hc] at hcsv
  simp only at hcsv
  have hx : xopt K.cfg { s1 with csv := c } = xopt K.cfg s1 := rfl
  have hp : proposals K.cfg K.u K.acq K.L s.iterCount { s1 with csv := c } = proposals K.cfg K.u K.acq K.L s.iterCount s1 := rfl
  have ho : ∀ X, oracleOf K.cfg K.L s.iterCount { s1 with csv := c } X = oracleOf K.cfg K.L s.iterCount s1 X := fun _ => rfl
  cases b with
  | error e => exact ⟨[], by simp [← hcsv]⟩
  | ok b =>
    cases b with
    | true =>
      simp only [hx]
      refine ⟨[], ?_⟩
      cases xopt K.cfg s1 with
      | error e => simp [← hcsv]
      | ok r => cases r <;> simp [← hcsv]
    | false =>
      simp only [hp, ho]
      cases proposals K.cfg K.u K.acq K.L s.iterCount s1 with
      | none => exact ⟨[], by simp [← hcsv]⟩
      | some X =>
        simp only
        obtain ⟨r, h1, h2⟩ := tell_file K.cfg s1 { X := X, vals := X.map (K.L.objective s.iterCount), oracle := oracleOf K.cfg K.L s.iterCount s1 X } c
        refine ⟨r, ?_⟩
        rw [h2]
        rcases ht : tell K.cfg s1 { X := X, vals := X.map (K.L.objective s.iterCount), oracle := oracleOf K.cfg K.L s.iterCount s1 X } with ⟨s2, b⟩
        rw [ht] at h1
        rw [hcsv] at h1
        have h1' := congrArg Prod.fst h1
        simp only at h1'
        cases b with
        | error e => exact ⟨by simp only; rw [← h1'], rfl⟩
        | ok b => exact ⟨by simp only; rw [← h1'], rfl⟩

/-! ### Turns of the loop and runs -/

theorem turn_count (K : CkSetup G F W B) (s t : OptState Row ℝ) (h : loopTurn K s = (t, none)) : t.iterCount = s.iterCount + 1 := by
  unfold loopTurn at h
  have hi := (checkStop_frame K.cfg s).2.2.1
  rcases hc : checkStop K.cfg s with ⟨s1, b⟩
  rw [hc] at hi h
  simp only at hi
  cases b with
  | error e => simp at h
  | ok b =>
    cases b with
    | true =>
      simp only at h
      cases hx : xopt K.cfg s1 with
      | error e => simp [hx] at h
      | ok r => cases r <;> simp [hx] at h
    | false =>
      simp only at h
      cases hp : proposals K.cfg K.u K.acq K.L s.iterCount s1 with
      | none => simp [hp] at h
      | some X =>
        simp only [hp] at h
        have hs := tell_spec K.cfg s1 { X := X, vals := X.map (K.L.objective s.iterCount), oracle := oracleOf K.cfg K.L s.iterCount s1 X }
        rcases ht : tell K.cfg s1 { X := X, vals := X.map (K.L.objective s.iterCount), oracle := oracleOf K.cfg K.L s.iterCount s1 X } with ⟨s2, b⟩
        rw [ht] at h hs
        cases b with
        | error e => simp at h
        | ok b =>
          simp only [Prod.mk.injEq, and_true] at h
          subst h
          rw [(hs.2.2.2.2.1 ⟨rfl, rfl⟩).1, hi]

/-- One turn of `learnRun`. -/
theorem run_turn (K : CkSetup G F W B) (fuel : ℕ) (s : OptState Row ℝ) (log : List (ℕ × Row × Obs ℝ)) :
    ∃ log', learnRun K.cfg K.u K.acq K.L (fuel + 1) s.iterCount s log =
      match (loopTurn K s).2 with
      | some e => ⟨(loopTurn K s).1, log', e⟩
      | none => learnRun K.cfg K.u K.acq K.L fuel (s.iterCount + 1) (loopTurn K s).1 log' := by
  unfold loopTurn
  rw [learnRun]
  rcases checkStop K.cfg s with ⟨s1, b⟩
  cases b with
  | error e => exact ⟨log, rfl⟩
  | ok b =>
    cases b with
    | true =>
      refine ⟨log, ?_⟩
      simp only
      cases xopt K.cfg s1 with
      | error e => rfl
      | ok r => cases r <;> rfl
    | false =>
      simp only
      cases proposals K.cfg K.u K.acq K.L s.iterCount s1 with
      | none => exact ⟨log, rfl⟩
      | some X =>
        refine ⟨log ++ X.map (fun x => (s.iterCount, x, K.L.objective s.iterCount x)), ?_⟩
        simp only
        rcases tell K.cfg s1 { X := X, vals := X.map (K.L.objective s.iterCount), oracle := oracleOf K.cfg K.L s.iterCount s1 X } with ⟨s2, b⟩
        cases b <;> rfl

/-- The states between the steps of the run. -/
inductive Course (K : CkSetup G F W B) : ℕ → OptState Row ℝ → Prop
  | start : Course K 0 {}
  | next {k s t} : Course K k s → loopTurn K s = (t, none) → Course K (k + 1) t

theorem course_count {K : CkSetup G F W B} {k : ℕ} {s : OptState Row ℝ} (h : Course K k s) : s.iterCount = k := by
  induction h with
  | start => rfl
  | next _ ht ih => rw [turn_count _ _ _ ht, ih]

theorem course_run {K : CkSetup G F W B} {k : ℕ} {s : OptState Row ℝ} (h : Course K k s) :
    ∃ log, ∀ fuel, learnRun K.cfg K.u K.acq K.L (k + fuel) 0 {} [] = learnRun K.cfg K.u K.acq K.L fuel k s log := by
  induction h with
  | start => exact ⟨[], fun fuel => by rw [Nat.zero_add]⟩
  | @next k s t hc ht ih =>
    obtain ⟨log, hl⟩ := ih
    have hk := course_count hc
    obtain ⟨log', hl'⟩ := run_turn K 0 s log
    have : ∃ log', ∀ fuel, learnRun K.cfg K.u K.acq K.L (fuel + 1) s.iterCount s log = learnRun K.cfg K.u K.acq K.L fuel (s.iterCount + 1) t log' := by
      unfold loopTurn at ht
      rcases hcs : checkStop K.cfg s with ⟨s1, b⟩
      rw [hcs] at ht
      cases b with
      | error e => simp at ht
      | ok b =>
        cases b with
        | true =>
          simp only at ht
          cases hx : xopt K.cfg s1 with
          | error e => simp [hx] at ht
          | ok r => cases r <;> simp [hx] at ht
        | false =>
          simp only at ht
          cases hp : proposals K.cfg K.u K.acq K.L s.iterCount s1 with
          | none => simp [hp] at ht
          | some X =>
            simp only [hp] at ht
            refine ⟨log ++ X.map (fun x => (s.iterCount, x, K.L.objective s.iterCount x)), fun fuel => ?_⟩
            rw [learnRun, hcs]
            simp only [hp]
            rcases htl : tell K.cfg s1 { X := X, vals := X.map (K.L.objective s.iterCount), oracle := oracleOf K.cfg K.L s.iterCount s1 X } with ⟨s2, b⟩
            rw [htl] at ht
            cases b with
            | error e => simp at ht
            | ok b =>
              simp only [Prod.mk.injEq, and_true] at ht
              subst ht
              rfl
    obtain ⟨log'', h''⟩ := this
    refine ⟨log'', fun fuel => ?_⟩
    rw [show k + 1 + fuel = k + (fuel + 1) by omega, hl (fuel + 1), ← hk, h'' fuel]

theorem course_running {K : CkSetup G F W B} {k : ℕ} {s : OptState Row ℝ} (h : Course K k s) : ∃ log, uninterrupted K k = ⟨s, log, .running⟩ := by
  obtain ⟨log, hl⟩ := course_run h
  exact ⟨log, hl 0⟩

theorem course_end {K : CkSetup G F W B} {k : ℕ} {s t : OptState Row ℝ} {e : FullEnd} (h : Course K k s) (ht : loopTurn K s = (t, some e)) :
    ∃ log, uninterrupted K (k + 1) = ⟨t, log, e⟩ := by
  obtain ⟨log, hl⟩ := course_run h
  obtain ⟨log', hl'⟩ := run_turn K 0 s log
  rw [ht, course_count h] at hl'
  exact ⟨log', (hl 1).trans hl'⟩

/-! ### Optimisers -/

theorem held_holding (o : CkObj F W B) (s : OptState Row ℝ) (csv : List (Rec Row ℝ)) : heldState (holding o s) csv = { s with csv := csv } := by
  have h : ((s.data.map Sum.inl : Option (List (Rec Row ℝ) ⊕ B)).bind fun d => d.getLeft?) = s.data := by cases s.data <;> rfl
  unfold heldState holding
  simp only [h]

theorem holding_holding (o : CkObj F W B) (s t : OptState Row ℝ) : holding (holding o s) t = holding o t := rfl

theorem holding_file (o : CkObj F W B) (s : OptState Row ℝ) (c : List (Rec Row ℝ)) : holding o { s with csv := c } = holding o s := rfl

theorem turn_held (K : CkSetup G F W B) {s : OptState Row ℝ} {csv : List (Rec Row ℝ)} {t : OptState Row ℝ} {e : Option FullEnd}
    (h : loopTurn K (heldState (holding K.fresh s) csv) = (t, e)) :
    ∃ t', loopTurn K s = (t', e) ∧ SameButFile t t' ∧ holding K.fresh t = holding K.fresh t' := by
  rw [held_holding] at h
  obtain ⟨r, -, h2⟩ := turn_file K s csv
  rw [h] at h2
  obtain ⟨h3, h4⟩ := Prod.mk.injEq _ _ _ _ ▸ h2
  refine ⟨(loopTurn K s).1, ?_, ?_, ?_⟩
  · rw [h4]
  · rw [h3]
    rfl
  · rw [h3]
    rfl

theorem live_holding {K : CkSetup G F W B} {n : String} (hK : Checkpointable K n) (s : OptState Row ℝ) : LiveObj K.wrap (holding K.fresh s) n := by
  obtain ⟨-, h2, h3, h4⟩ := hK.live
  refine ⟨fun d hd => ?_, h2, h3, h4⟩
  cases hs : s.data with
  | none => simp [holding, hs] at hd
  | some x => exact ⟨x, by simpa [holding, hs] using hd.symm⟩

theorem save_holding {K : CkSetup G F W B} {n : String} (hK : Checkpointable K n) (s : OptState Row ℝ) (reg : LogRegistry) :
    (save K.codec reg (holding K.fresh s)).2.1 = holding K.fresh s ∧
      ∀ reg', ∃ reg'', load K.codec K.wrap K.canOpen K.setOrder reg' (save K.codec reg (holding K.fresh s)).2.2 = some (holding K.fresh s, reg'') := by
  obtain ⟨h1, h2⟩ := Props.c38_roundtrip_partial K.codec hK.lawful K.wrap reg (holding K.fresh s) n (live_holding hK s) (hK.writes s reg)
  exact ⟨h1, fun reg' => by obtain ⟨r, hr, -⟩ := h2 K.canOpen K.setOrder reg'; exact ⟨r, hr⟩⟩

theorem fresh_holding {K : CkSetup G F W B} {n : String} (hK : Checkpointable K n) : K.fresh = holding K.fresh {} := by
  obtain ⟨h1, h2⟩ := hK.new
  have : K.fresh = { K.fresh with rest := {}, data := none } := by
    rw [← h1, ← h2]
  exact this

theorem atStep_of {K : CkSetup G F W B} {k : ℕ} {s : OptState Row ℝ} (h : Course K k s) : AtStep K k (holding K.fresh s) := by
  obtain ⟨log, hl⟩ := course_running h
  exact ⟨⟨s, log, hl, fun csv => by rw [held_holding]; rfl⟩, rfl, rfl, rfl, rfl, rfl⟩

end Verif.Proofs
