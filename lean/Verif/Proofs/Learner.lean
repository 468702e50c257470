import Verif.Spec.Learner
import Verif.Proofs.Optimizer

/-!
# A run commutes with a change of units
-/
namespace Verif.Proofs
open Verif.Model Verif.Spec

variable {G : Type*} {T : ℝ → ℝ} {O : Obs ℝ → Obs ℝ}

/-- What a change of units has to satisfy. -/
structure UnitChange (T : ℝ → ℝ) (O : Obs ℝ → Obs ℝ) (cfg cfg' : Cfg ℝ) : Prop where
  inj : Function.Injective T
  fin : ∀ v, O (.fin v) = .fin (T v)
  failed : ∀ o, (∀ v, o ≠ .fin v) → ∀ v, O o ≠ .fin v
  best : ∀ l, getBest cfg'.minimize (l.map T) = (getBest cfg.minimize l).map T
  budget : cfg'.maxFEs = cfg.maxFEs
  dict : cfg'.evalDict = cfg.evalDict
  file : cfg'.dataFile = cfg.dataFile
  target : (cfg.ftarget = none ∧ cfg'.ftarget = none) ∨
    ∃ t t', cfg.ftarget = some t ∧ cfg'.ftarget = some t' ∧ ∀ v, Model.compare cfg'.minimize (T v) t' = Model.compare cfg.minimize v t

variable {cfg cfg' : Cfg ℝ}

theorem incumbent_in (h : UnitChange T O cfg cfg') (d : List (Rec Row ℝ)) :
    incumbent cfg'.minimize (d.map (recIn T)) = (incumbent cfg.minimize d).map (recIn T) := by
  have hm : (d.map (recIn T)).map Rec.f = (d.map Rec.f).map T := by simp [recIn, Function.comp_def]
  unfold incumbent
  rw [hm, h.best]
  cases getBest cfg.minimize (d.map Rec.f) with
  | none => rfl
  | some b =>
    simp only [Option.map_some]
    rw [List.find?_map]
    congr 1
    congr 1
    funext r
    simp only [Function.comp_apply, recIn]
    exact decide_eq_decide.2 h.inj.eq_iff

theorem xopt_in (h : UnitChange T O cfg cfg') (s : OptState Row ℝ) :
    xopt cfg' (stateIn T s) = (xopt cfg s).map (Option.map (recIn T)) := by
  unfold xopt
  cases hd : s.data with
  | none => simp [stateIn, hd, Except.map]
  | some d =>
    have : (stateIn T s).data = some (d.map (recIn T)) := by simp [stateIn, hd]
    rw [this]
    simp only [incumbent_in h]
    cases incumbent cfg.minimize d <;> rfl

theorem checkStop_in (h : UnitChange T O cfg cfg') (s : OptState Row ℝ) :
    checkStop cfg' (stateIn T s) = (stateIn T (checkStop cfg s).1, (checkStop cfg s).2) := by
  have hb : checkBudget cfg' (stateIn T s) = stateIn T (checkBudget cfg s) := by
    unfold checkBudget
    rw [h.budget]
    cases cfg.maxFEs with
    | none => rfl
    | some m =>
      simp only
      have : (stateIn T s).evalCount = s.evalCount := rfl
      rw [this]
      split <;> rfl
  have hf : ∀ s, stopFlag (stateIn T s) = stopFlag s := by
    intro s
    simp [stopFlag, stateIn]
  unfold checkStop
  rw [hb]
  rcases h.target with ⟨h1, h2⟩ | ⟨t, t', h1, h2, h3⟩
  · rw [h1, h2]
    simp only [hf]
  · rw [h1, h2]
    simp only [xopt_in h]
    generalize checkBudget cfg s = s1
    cases xopt cfg s1 with
    | error e => rfl
    | ok o =>
      cases o with
      | none => simp only [Except.map, Option.map_none, hf]
      | some r =>
        simp only [Except.map, Option.map_some]
        have hr : (recIn T r).f = T r.f := rfl
        rw [hr, h3]
        have : (if Model.compare cfg.minimize r.f t = true then { stateIn T s1 with stopFtarget := some (T r.f) } else stateIn T s1) =
            stateIn T (if Model.compare cfg.minimize r.f t = true then { s1 with stopFtarget := some r.f } else s1) := by
          split <;> rfl
        rw [this, hf]

theorem observe_points (f : Row → Obs ℝ) : ∀ (X : List Row) (c : ℕ), observe false X (X.map f) c = (c + X.length, some (X.zip (X.map f)))
  | [], c => rfl
  | x :: X, c => by
    simp only [List.map_cons, observe, observe_points f X, Option.map_some, List.zip_cons_cons, List.length_cons, Bool.false_eq_true, if_false]
    congr 1
    omega

theorem postEvalCheck_in (h : UnitChange T O cfg cfg') (n : ℕ) : ∀ l : List ((Row × Obs ℝ) × String),
    postEvalCheck n (l.map (fun e => ((e.1.1, O e.1.2), e.2))) = (postEvalCheck n l).map (recIn T)
  | [] => rfl
  | ((x, o), i) :: l => by
    have ih := postEvalCheck_in h n l
    cases o with
    | fin v => simp only [List.map_cons, h.fin, postEvalCheck, ih, recIn]
    | nan =>
      have := h.failed .nan (by simp)
      simp only [List.map_cons, postEvalCheck]
      cases ho : O .nan with
      | fin v => exact absurd ho (this v)
      | nan => exact ih
      | posInf => exact ih
      | negInf => exact ih
    | posInf =>
      have := h.failed .posInf (by simp)
      simp only [List.map_cons, postEvalCheck]
      cases ho : O .posInf with
      | fin v => exact absurd ho (this v)
      | nan => exact ih
      | posInf => exact ih
      | negInf => exact ih
    | negInf =>
      have := h.failed .negInf (by simp)
      simp only [List.map_cons, postEvalCheck]
      cases ho : O .negInf with
      | fin v => exact absurd ho (this v)
      | nan => exact ih
      | posInf => exact ih
      | negInf => exact ih

/-- The rows kept from a batch. -/
private def keptRows (cfg : Cfg ℝ) (X : List Row) (f : Row → Obs ℝ) : List (Rec Row ℝ) :=
  postEvalCheck (if cfg.evalDict then 0 else 1) ((X.zip (X.map f)).zip (defaultIndex X.length))

private theorem kept_in (h : UnitChange T O cfg cfg') (X : List Row) (f : Row → Obs ℝ) :
    keptRows cfg' X (fun x => O (f x)) = (keptRows cfg X f).map (recIn T) := by
  unfold keptRows
  rw [h.dict, ← postEvalCheck_in h]
  congr 1
  rw [show X.map (fun x => O (f x)) = (X.map f).map O by simp]
  rw [List.zip_map_right, List.zip_map_left]
  rfl

theorem extended_in (h : UnitChange T O cfg cfg') (s : OptState Row ℝ) (X : List Row) (f : Row → Obs ℝ) :
    extended cfg' (stateIn T s) X (X.map (fun x => O (f x))) = (extended cfg s X (X.map f)).map (recIn T) := by
  have h1 := kept_in h X f
  unfold keptRows at h1
  unfold extended
  rw [h1, List.map_append]
  congr 1
  cases hd : s.data <;> simp [stateIn, hd]

theorem tell_points (cfg : Cfg ℝ) (s : OptState Row ℝ) (X : List Row) (f : Row → Obs ℝ) (o : TellOracle) :
    tell cfg s { X := X, vals := X.map f, oracle := o } =
      if X.isEmpty then (s, .error .emptyInput)
      else if s.data.isSome && (extended cfg s X (X.map f)).isEmpty then ({ s with evalCount := s.evalCount + X.length }, .error .noRows)
      else tellRest cfg { s with evalCount := s.evalCount + X.length } (extended cfg s X (X.map f)) (keptRows cfg X f)
        { X := X, vals := X.map f, oracle := o } := by
  unfold tell
  by_cases hX : X.isEmpty = true
  · simp only [hX, if_true]
  · simp only [hX, Option.map_none, Option.any_none, Bool.false_eq_true, if_false, observe_points]
    cases hd : s.data with
    | none =>
      simp only [Option.isSome_none, Bool.false_and, Bool.false_eq_true, if_false, extended, hd, Option.getD_none, List.nil_append, labels, keptRows]
    | some d =>
      simp only [Option.isSome_some, Bool.true_and, extended, hd, Option.getD_some, labels, keptRows]
      rfl

theorem tellRest_data (cfg : Cfg ℝ) (s : OptState Row ℝ) (d kept : List (Rec Row ℝ)) (a : TellArgs Row ℝ) :
    (tellRest cfg s d kept a).1.data = some d := by
  unfold tellRest
  by_cases h1 : d.isEmpty = true
  · rw [if_pos h1]
  · rw [if_neg h1]
    by_cases h2 : isFlat (d.map Rec.f) = true
    · rw [if_pos h2]
    · rw [if_neg h2]
      by_cases h3 : (!a.oracle.fitOk) = true
      · rw [if_pos h3]
      · rw [if_neg h3]
        by_cases hf : cfg.dataFile = true <;> simp only [hf, if_true, Bool.false_eq_true, if_false] <;>
        · cases incumbent cfg.minimize d with
          | none => rfl
          | some r =>
            simp only
            split
            · rfl
            · split <;> rfl

theorem tellRest_in (h : UnitChange T O cfg cfg') (s : OptState Row ℝ) (d kept : List (Rec Row ℝ)) (a a' : TellArgs Row ℝ)
    (hw : a'.warm = a.warm) (ho : a'.oracle = a.oracle) (hflat : isFlat ((d.map Rec.f).map T) = isFlat (d.map Rec.f)) :
    tellRest cfg' (stateIn T s) (d.map (recIn T)) (kept.map (recIn T)) a' =
      (stateIn T (tellRest cfg s d kept a).1, (tellRest cfg s d kept a).2) := by
  have hm : (d.map (recIn T)).map Rec.f = (d.map Rec.f).map T := by simp [recIn, Function.comp_def]
  unfold tellRest
  rw [hm, hflat, hw, ho, h.file, incumbent_in h]
  by_cases h1 : d.isEmpty = true
  · have h1' : (d.map (recIn T)).isEmpty = true := by simpa using h1
    simp only [h1, h1', if_true]
    rfl
  · have h1' : ¬ (d.map (recIn T)).isEmpty = true := by simpa using h1
    simp only [h1, h1', Bool.false_eq_true, if_false]
    by_cases h2 : isFlat (d.map Rec.f) = true
    · simp only [h2, if_true]; rfl
    · simp only [h2, Bool.false_eq_true, if_false]
      by_cases h3 : (!a.oracle.fitOk) = true
      · simp only [h3, if_true]; rfl
      · simp only [h3, Bool.false_eq_true, if_false]
        by_cases hf : cfg.dataFile = true <;> simp only [hf, if_true, Bool.false_eq_true, if_false] <;>
        · cases incumbent cfg.minimize d with
          | none => simp [stateIn]
          | some r =>
            simp only [Option.map_some]
            by_cases hc : (!a.oracle.constraintOk) = true
            · simp [hc, stateIn]
            · simp only [hc, Bool.false_eq_true, if_false]
              by_cases hw2 : a.warm = true
              · simp [hw2, stateIn]
              · simp [hw2, stateIn, recIn]

theorem tell_in (h : UnitChange T O cfg cfg') (s : OptState Row ℝ) (X : List Row) (f : Row → Obs ℝ) (o : TellOracle)
    (hflat : isFlat (((extended cfg s X (X.map f)).map Rec.f).map T) = isFlat ((extended cfg s X (X.map f)).map Rec.f) ∨
      X = [] ∨ (s.data.isSome = true ∧ (extended cfg s X (X.map f)) = [])) :
    tell cfg' (stateIn T s) { X := X, vals := X.map (fun x => O (f x)), oracle := o } =
      (stateIn T (tell cfg s { X := X, vals := X.map f, oracle := o }).1, (tell cfg s { X := X, vals := X.map f, oracle := o }).2) := by
  rw [tell_points, tell_points, extended_in h]
  by_cases hX : X.isEmpty = true
  · simp only [hX, if_true]
  · have hdd : (stateIn T s).data.isSome = s.data.isSome := by cases hd : s.data <;> simp [stateIn, hd]
    simp only [hX, Bool.false_eq_true, if_false, hdd, List.isEmpty_map]
    by_cases hE : (s.data.isSome && (extended cfg s X (X.map f)).isEmpty) = true
    · simp only [hE, if_true]; rfl
    · simp only [hE, Bool.false_eq_true, if_false]
      rw [kept_in h]
      refine tellRest_in h { s with evalCount := s.evalCount + X.length } _ _ { X := X, vals := X.map f, oracle := o }
        { X := X, vals := X.map (fun x => O (f x)), oracle := o } rfl rfl ?_
      rcases hflat with hf | hf | ⟨hf1, hf2⟩
      · exact hf
      · exact absurd (by simp [hf]) hX
      · exact absurd (by simp [hf1, hf2]) hE

/-- A run in other units, if everything that the run meets agrees for the sets of records that occur in it. -/
theorem learnRun_in (h : UnitChange T O cfg cfg') (u : RunSetup) (acq acq' : AcqName × AcqPar) (L L' : Learner G) (Good : List (Rec Row ℝ) → Prop)
    (hobj : ∀ i x, L'.objective i x = O (L.objective i x)) (hcons : ∀ i x, L'.constraintOk i x = L.constraintOk i x)
    (hfit : ∀ i d, Good d → L'.fitOk i (trainingSet (d.map (recIn T))) = L.fitOk i (trainingSet d))
    (hflat : ∀ d, Good d → isFlat ((d.map Rec.f).map T) = isFlat (d.map Rec.f))
    (hprop : ∀ i s, (∀ d, s.data = some d → Good d) → proposals cfg' u acq' L' i (stateIn T s) = proposals cfg u acq L i s) :
    ∀ (fuel i : ℕ) (s : OptState Row ℝ) (log : List (ℕ × Row × Obs ℝ)),
      (∀ k d, (learnRun cfg u acq L k i s log).opt.data = some d → Good d) →
      learnRun cfg' u acq' L' fuel i (stateIn T s) (log.map (fun e => (e.1, e.2.1, O e.2.2))) =
        runIn T O (learnRun cfg u acq L fuel i s log) := by
  intro fuel
  induction fuel with
  | zero => intro i s log _; rfl
  | succ fuel ih =>
    intro i s log hgood
    have hcd : ∀ s : OptState Row ℝ, (checkStop cfg s).1.data = s.data := by
      intro s
      have hb : (checkBudget cfg s).data = s.data := by
        unfold checkBudget
        cases cfg.maxFEs with
        | none => rfl
        | some m => simp only; split <;> rfl
      unfold checkStop
      cases cfg.ftarget with
      | none => exact hb
      | some t =>
        simp only
        cases xopt cfg (checkBudget cfg s) with
        | error e => exact hb
        | ok o =>
          cases o with
          | none => exact hb
          | some r => simp only; split <;> exact hb
    have hg0 : ∀ d, s.data = some d → Good d := fun d hd => hgood 0 d hd
    rw [learnRun, checkStop_in h]
    rw [show learnRun cfg u acq L (fuel + 1) i s log = _ from rfl, learnRun]
    have hg1 : ∀ d, (checkStop cfg s).1.data = some d → Good d := fun d hd => hg0 d (by rw [← hcd]; exact hd)
    have hk : ∀ k, learnRun cfg u acq L (k + 1) i s log = _ := fun k => by rw [learnRun]
    revert hg1 hk
    cases hcs : checkStop cfg s with
    | mk s1 res =>
      intro hg1 hk
      cases res with
      | error e => rfl
      | ok b =>
        cases b with
        | true =>
          simp only [xopt_in h]
          cases xopt cfg s1 with
          | error e => rfl
          | ok o => cases o <;> rfl
        | false =>
          simp only [hprop i s1 hg1]
          simp only at hk
          cases hp : proposals cfg u acq L i s1 with
          | none => rfl
          | some X =>
            simp only
            have hbase : (∀ d, (tell cfg s1 { X := X, vals := X.map (L.objective i), oracle := oracleOf cfg L i s1 X }).1.data = some d → Good d) := by
              intro d hd
              apply hgood 1 d
              rw [hk 0, hp]
              simp only
              revert hd
              cases tell cfg s1 { X := X, vals := X.map (L.objective i), oracle := oracleOf cfg L i s1 X } with
              | mk s2 r2 => cases r2 <;> exact fun hd => hd
            have hX : X = [] ∨ (s1.data.isSome = true ∧ extended cfg s1 X (X.map (L.objective i)) = []) ∨
                Good (extended cfg s1 X (X.map (L.objective i))) := by
              by_cases h1 : X = []
              · exact Or.inl h1
              · by_cases h2 : s1.data.isSome = true ∧ extended cfg s1 X (X.map (L.objective i)) = []
                · exact Or.inr (Or.inl h2)
                · refine Or.inr (Or.inr (hbase _ ?_))
                  rw [tell_points, if_neg (by simpa using h1), if_neg (by
                    rw [Bool.and_eq_true, List.isEmpty_iff]; exact h2)]
                  exact tellRest_data _ _ _ _ _
            have hobjs : X.map (L'.objective i) = X.map (fun x => O (L.objective i x)) := List.map_congr_left (fun x _ => hobj i x)
            -- the surrogate and the constraints
            have hor : tell cfg' (stateIn T s1) { X := X, vals := X.map (L'.objective i), oracle := oracleOf cfg' L' i (stateIn T s1) X } =
                tell cfg' (stateIn T s1) { X := X, vals := X.map (fun x => O (L.objective i x)), oracle := oracleOf cfg L i s1 X } := by
              rcases hX with h1 | h1 | h1
              · subst h1; simp [tell]
              · rw [hobjs, tell_points, tell_points, extended_in h, h1.2]
                have : (stateIn T s1).data.isSome = true := by
                  have := h1.1
                  cases hd : s1.data <;> simp_all [stateIn]
                simp only [this, List.map_nil, List.isEmpty_nil, Bool.and_self, if_true]
              · rw [hobjs]
                congr 2
                unfold oracleOf
                simp only [hobjs, extended_in h, incumbent_in h, hfit i _ h1, Option.map_map]
                congr 3
                funext r
                exact hcons i _
            rw [hor, tell_in h s1 X (L.objective i) _ (by
              rcases hX with h1 | h1 | h1
              · exact Or.inr (Or.inl h1)
              · exact Or.inr (Or.inr h1)
              · exact Or.inl (hflat _ h1))]
            have hlog : log.map (fun e => (e.1, e.2.1, O e.2.2)) ++ X.map (fun x => (i, x, L'.objective i x)) =
                (log ++ X.map (fun x => (i, x, L.objective i x))).map (fun e => (e.1, e.2.1, O e.2.2)) := by
              rw [List.map_append, List.map_map]
              congr 1
              exact List.map_congr_left (fun x _ => by simp only [Function.comp_apply, hobj])
            rw [hlog]
            cases ht : tell cfg s1 { X := X, vals := X.map (L.objective i), oracle := oracleOf cfg L i s1 X } with
            | mk s2 r2 =>
              cases r2 with
              | error e => rfl
              | ok _ =>
                simp only
                refine ih (i + 1) s2 _ (fun k d hd => hgood (k + 1) d ?_)
                rw [hk k, hp]
                simp only [ht]
                exact hd

end Verif.Proofs
