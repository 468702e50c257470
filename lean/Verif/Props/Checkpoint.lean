import Verif.Proofs.Checkpoint
import Verif.Props.LearnSteps

/-!
# C184: a program that saves the optimiser after every step survives crashes
-/
namespace Verif.Props

open Verif.Model Verif.Spec Verif.Proofs

variable {G F W B : Type}

/-! ### One file -/

/-- The file holds the state `s`. -/
private def Holds (K : CkSetup G F W B) (f : Option (SFile B)) (s : OptState Row ℝ) : Prop :=
  ∃ b, f = some (.complete b) ∧ ∀ reg, ∃ reg', load K.codec K.wrap K.canOpen K.setOrder reg (.complete b) = some (holding K.fresh s, reg')

private def FileAt (K : CkSetup G F W B) (f : Option (SFile B)) (k : ℕ) (s : OptState Row ℝ) : Prop := (f = none ∧ k = 0) ∨ Holds K f s

private theorem holds_saved {K : CkSetup G F W B} {n : String} (hK : Checkpointable K n) (reg : LogRegistry) (s : OptState Row ℝ) :
    Holds K (some (save K.codec reg (holding K.fresh s)).2.2) s := by
  obtain ⟨-, h2⟩ := save_holding hK s reg
  cases hf : (save K.codec reg (holding K.fresh s)).2.2 with
  | torn =>
    rw [hf] at h2
    obtain ⟨r, hr⟩ := h2 reg
    simp [load] at hr
  | complete b =>
    rw [hf] at h2
    exact ⟨b, rfl, h2⟩

private theorem course_zero {K : CkSetup G F W B} {s : OptState Row ℝ} (h : Course K 0 s) : s = {} := by
  cases h
  rfl

/-- What is true at every instant. -/
private def CkInv (K : CkSetup G F W B) : CkMoment F W B → Prop
  | .looping o _ f => ∃ k s, Course K k s ∧ o = holding K.fresh s ∧ FileAt K f k s
  | .saving o _ l => ∃ k s t c, Course K k s ∧ loopTurn K s = (t, none) ∧ o = holding K.fresh t ∧ Holds K c t ∧
      ((∃ f n, FileAt K f k s ∧ l = f :: some .torn :: (List.replicate n (some .torn) ++ [c])) ∨ ∃ n, l = List.replicate n (some .torn) ++ [c])
  | .down _ f => f = some .torn ∨ ∃ k s, Course K k s ∧ FileAt K f k s
  | .ended s e => ∃ k t log, uninterrupted K k = ⟨t, log, e⟩ ∧ SameButFile s t

private theorem inv_next {K : CkSetup G F W B} {n : String} (hK : Checkpointable K n) {x y : CkMoment F W B} (hx : CkInv K x) (h : CkNext K x y) : CkInv K y := by
  cases h with
  | step o csv f s reg m ht =>
    obtain ⟨k, s0, hc, rfl, hf⟩ := hx
    obtain ⟨t', ht', -, hh⟩ := turn_held K ht
    refine ⟨k, s0, t', _, hc, ht', by rw [holding_holding, hh], holds_saved hK reg t', Or.inl ⟨f, m, hf, ?_⟩⟩
    rw [holding_holding, hh]
    rfl
  | finish o csv f s e ht =>
    obtain ⟨k, s0, hc, rfl, hf⟩ := hx
    obtain ⟨t', ht', hsame, -⟩ := turn_held K ht
    obtain ⟨log, hl⟩ := course_end hc ht'
    exact ⟨k + 1, t', log, hl, hsame⟩
  | write o csv f g l =>
    obtain ⟨k, s0, t, c, hc, ht, rfl, hh, hl⟩ := hx
    refine ⟨k, s0, t, c, hc, ht, rfl, hh, Or.inr ?_⟩
    rcases hl with ⟨f', m, -, hl⟩ | ⟨m, hl⟩
    · simp only [List.cons.injEq] at hl
      exact ⟨m + 1, by rw [hl.2.1, hl.2.2]; rfl⟩
    · cases m with
      | zero => simp at hl
      | succ m =>
        rw [List.replicate_succ, List.cons_append] at hl
        exact ⟨m, (List.cons.inj hl).2⟩
  | saved o csv f reg hs =>
    obtain ⟨k, s0, t, c, hc, ht, rfl, hh, hl⟩ := hx
    rw [(save_holding hK t reg).1]
    refine ⟨k + 1, t, hc.next ht, rfl, Or.inr ?_⟩
    rcases hl with ⟨f', m, -, hl⟩ | ⟨m, hl⟩
    · simp at hl
    · cases m with
      | zero =>
        simp only [List.replicate_zero, List.nil_append, List.cons.injEq, and_true] at hl
        rwa [hl]
      | succ m => simp [List.replicate_succ] at hl
  | crash o csv f =>
    obtain ⟨k, s0, hc, -, hf⟩ := hx
    exact Or.inr ⟨k, s0, hc, hf⟩
  | crashSaving o csv f l =>
    obtain ⟨k, s0, t, c, hc, ht, rfl, hh, hl⟩ := hx
    rcases hl with ⟨f', m, hf, hl⟩ | ⟨m, hl⟩
    · simp only [List.cons.injEq] at hl
      exact Or.inr ⟨k, s0, hc, by rw [hl.1]; exact hf⟩
    · cases m with
      | zero =>
        simp only [List.replicate_zero, List.nil_append, List.cons.injEq] at hl
        exact Or.inr ⟨k + 1, t, hc.next ht, Or.inr (by rw [hl.1]; exact hh)⟩
      | succ m =>
        rw [List.replicate_succ, List.cons_append] at hl
        exact Or.inl (List.cons.inj hl).1
  | restart o csv f reg reg' hl =>
    rcases hx with hx | ⟨k, s0, hc, hf⟩
    · rw [Option.some.inj hx] at hl
      simp [load] at hl
    · rcases hf with ⟨hf, -⟩ | ⟨b, hb, hload⟩
      · simp at hf
      · rw [Option.some.inj hb] at hl ⊢
        obtain ⟨r, hr⟩ := hload reg
        rw [hr] at hl
        exact ⟨k, s0, hc, (congrArg Prod.fst (Option.some.inj hl)).symm, Or.inr ⟨b, rfl, hload⟩⟩
  | again csv => exact ⟨0, {}, .start, fresh_holding hK, Or.inl ⟨rfl, rfl⟩⟩

private theorem inv_reachable {K : CkSetup G F W B} {n : String} (hK : Checkpointable K n) {x : CkMoment F W B} (h : CkReachable K x) : CkInv K x := by
  induction h with
  | refl => exact ⟨0, {}, .start, fresh_holding hK, Or.inl ⟨rfl, rfl⟩⟩
  | tail _ h ih => exact inv_next hK ih h

/-- **C184**: however often and whenever the process dies, the optimiser in memory is always, apart from the data file, what the run without interruption has after
some number of steps, and when the loop ends it ends as that run does. -/
theorem c184_same_course {K : CkSetup G F W B} {n : String} (hK : Checkpointable K n) {x : CkMoment F W B} (h : CkReachable K x) :
    (∀ o csv f, x = .looping o csv f → ∃ k, AtStep K k o) ∧
      ∀ s e, x = .ended s e → ∃ k t log, uninterrupted K k = ⟨t, log, e⟩ ∧ SameButFile s t := by
  have hi := inv_reachable hK h
  constructor
  · rintro o csv f rfl
    obtain ⟨k, s, hc, rfl, -⟩ := hi
    exact ⟨k, atStep_of hc⟩
  · rintro s e rfl
    exact hi

private theorem restart_of {K : CkSetup G F W B} {n : String} (hK : Checkpointable K n) {k : ℕ} {s : OptState Row ℝ} (hc : Course K k s) {f : Option (SFile B)} (hf : FileAt K f k s)
    (csv : List (Rec Row ℝ)) {y : CkMoment F W B} : CkNext K (.down csv f) y ↔ y = .looping (holding K.fresh s) csv f := by
  constructor
  · intro h
    cases h with
    | restart o csv f reg reg' hl =>
      rcases hf with ⟨hf, -⟩ | ⟨b, hb, hload⟩
      · simp at hf
      · rw [Option.some.inj hb] at hl ⊢
        obtain ⟨r, hr⟩ := hload reg
        rw [hr] at hl
        have ho : holding K.fresh s = o := congrArg Prod.fst (Option.some.inj hl)
        rw [ho]
    | again csv =>
      rcases hf with ⟨-, rfl⟩ | ⟨b, hb, -⟩
      · rw [course_zero hc, ← fresh_holding hK]
      · simp at hb
  · rintro rfl
    rcases hf with ⟨rfl, rfl⟩ | ⟨b, rfl, hload⟩
    · rw [course_zero hc, ← fresh_holding hK]
      exact .again csv
    · obtain ⟨r, hr⟩ := hload (fun _ => [])
      exact .restart _ csv _ _ _ hr

/-- **C184**: after a crash between two calls of `save` the program goes on with the very same optimiser; after a crash during `save` at a moment when the file can be read, with an
optimiser at most one step back. -/
theorem c184_crash_elsewhere_partial {K : CkSetup G F W B} {n : String} (hK : Checkpointable K n) :
    (∀ o csv f, CkReachable K (.looping o csv f) → ∀ y, CkNext K (.down csv f) y ↔ y = .looping o csv f) ∧
      ∀ o csv f l, CkReachable K (.saving o csv (f :: l)) → f ≠ some .torn →
        ∃ k o', AtStep K (k + 1) o ∧ (AtStep K k o' ∨ o' = o) ∧ ∀ y, CkNext K (.down csv f) y ↔ y = .looping o' csv f := by
  constructor
  · intro o csv f h y
    obtain ⟨k, s, hc, rfl, hf⟩ := inv_reachable hK h
    exact restart_of hK hc hf csv
  · intro o csv f l h hne
    obtain ⟨k, s0, t, c, hc, ht, rfl, hh, hl⟩ := inv_reachable hK h
    rcases hl with ⟨f', m, hf, hl⟩ | ⟨m, hl⟩
    · rw [(List.cons.inj hl).1]
      exact ⟨k, holding K.fresh s0, atStep_of (hc.next ht), Or.inl (atStep_of hc), fun y => restart_of hK hc hf csv⟩
    · cases m with
      | zero =>
        simp only [List.replicate_zero, List.nil_append, List.cons.injEq] at hl
        rw [hl.1]
        exact ⟨k, holding K.fresh t, atStep_of (hc.next ht), Or.inr rfl, fun y => restart_of hK (hc.next ht) (Or.inr hh) csv⟩
      | succ m =>
        rw [List.replicate_succ, List.cons_append] at hl
        exact absurd (List.cons.inj hl).1 hne

/-- **C184, refuted**: whenever a step can be made, the process may die while the optimiser is saved after it; then the file cannot be read, also not what it held before, and the
program does not go on. -/
theorem c184_crash_while_saving_refuted (K : CkSetup G F W B) (o : CkObj F W B) (csv : List (Rec Row ℝ)) (f : Option (SFile B)) (h : CkReachable K (.looping o csv f))
    (s : OptState Row ℝ) (ht : loopTurn K (heldState o csv) = (s, none)) :
    CkReachable K (.down s.csv (some .torn)) ∧ ∀ y, ¬ CkNext K (.down s.csv (some .torn)) y := by
  refine ⟨((h.tail (.step o csv f s (fun _ => []) 0 ht)).tail (.write _ _ _ _ _)).tail (.crashSaving _ _ _ _), fun y hy => ?_⟩
  cases hy with
  | restart o csv f reg reg' hl => simp [load] at hl

/-- **C184, refuted**: the data file is written before the optimiser is saved.  After a crash in between the step is made again and its evaluations are in the data file twice. -/
theorem c184_data_file_refuted {K : CkSetup G F W B} {n : String} (hK : Checkpointable K n) (hfile : K.cfg.dataFile = true) (s : OptState Row ℝ) (ht : loopTurn K {} = (s, none)) :
    ∃ rows l, rows ≠ [] ∧ s.data = some rows ∧ CkReachable K (.saving (holding K.fresh s) (rows ++ rows) l) := by
  have hrows : s.data = some s.csv ∧ s.csv ≠ [] := by
    unfold loopTurn at ht
    have hfr := checkStop_frame K.cfg ({} : OptState Row ℝ)
    rcases hcs : checkStop K.cfg ({} : OptState Row ℝ) with ⟨s1, b⟩
    rw [hcs] at ht hfr
    cases b with
    | error e => simp at ht
    | ok b =>
      cases b with
      | true =>
        simp only at ht
        cases hx : xopt K.cfg s1 with
        | error e => simp [hx] at ht
        | ok r => cases r <;> simp [hx] at ht
      | false =>
        simp only at ht
        cases hp : proposals K.cfg K.u K.acq K.L 0 s1 with
        | none => simp [hp] at ht
        | some X =>
          simp only [hp] at ht
          generalize ({ X := X, vals := X.map (K.L.objective 0), oracle := oracleOf K.cfg K.L 0 s1 X } : TellArgs Row ℝ) = a at ht
          have hok : isOk (tell K.cfg s1 a).2 = true ∧ (tell K.cfg s1 a).1 = s := by
            rcases htl : tell K.cfg s1 a with ⟨s2, b⟩
            rw [htl] at ht
            cases b with
            | error e => simp at ht
            | ok b =>
              simp only [Prod.mk.injEq, and_true] at ht
              exact ⟨rfl, ht⟩
          obtain ⟨hok, rfl⟩ := hok
          simp only at hfr
          have hd : s1.data = none := hfr.1
          have hc : s1.csv = [] := hfr.2.2.2.2
          unfold tell at hok ⊢
          by_cases h1 : a.X.isEmpty = true
          · simp [h1, isOk] at hok
          by_cases h2 : (a.index.map List.length).any (· != a.X.length) = true
          · simp only [h1, h2] at hok
            simp [isOk] at hok
          simp only [h1, h2, Bool.false_eq_true, if_false] at hok ⊢
          rcases ho : observe a.warm a.X a.vals s1.evalCount with ⟨c, p⟩
          rw [ho] at hok
          cases p with
          | none => simp [isOk] at hok
          | some pairs =>
            simp only [hd] at hok ⊢
            have hs := tellRest_spec K.cfg { s1 with evalCount := c, data := none } (postEvalCheck (if K.cfg.evalDict = true then 0 else 1) (pairs.zip (labels a)))
              (postEvalCheck (if K.cfg.evalDict = true then 0 else 1) (pairs.zip (labels a))) a
            simp only at hs
            have e := (hs.2.2.2.2.2.2.2 hok).trans (by rw [hfile, if_pos rfl, hc, List.nil_append])
            refine ⟨hs.1.trans (congrArg some e.symm), ?_⟩
            rw [e]
            exact hs.2.2.2.2.1 hok
  have hheld : ∀ csv, heldState K.fresh csv = { ({} : OptState Row ℝ) with csv := csv } := by
    intro csv
    rw [fresh_holding hK, held_holding]
  have e0 : loopTurn K (heldState K.fresh []) = (s, none) := by
    rw [hheld]
    exact ht
  obtain ⟨r, h1, h2⟩ := turn_file K {} s.csv
  rw [ht] at h1 h2
  have hr : r = s.csv := by
    have := congrArg (fun p => p.1.csv) h1
    simpa using this.symm
  have e1 : loopTurn K (heldState K.fresh s.csv) = ({ s with csv := s.csv ++ s.csv }, none) := by
    rw [hheld, h2, hr]
  exact ⟨s.csv, _, hrows.2, hrows.1, (((Relation.ReflTransGen.refl.tail (.step K.fresh [] none s (fun _ => []) 0 e0)).tail (.crashSaving _ _ _ _)).tail (.again _)).tail
    (.step K.fresh s.csv none _ (fun _ => []) 0 e1)⟩

/-! ### Two files in turn -/

private def Bad (f : Option (SFile B)) : Prop := f = none ∨ f = some .torn

private def par (k : ℕ) : Bool := k % 2 == 1

private theorem par_succ (k : ℕ) : par (k + 1) = !par k := by
  unfold par
  rcases Nat.mod_two_eq_zero_or_one k with h | h <;> simp [Nat.add_mod, h]

private theorem fileOf_holding {K : CkSetup G F W B} {k : ℕ} {s : OptState Row ℝ} (h : Course K k s) : fileOf (holding K.fresh s) = par k := by
  unfold fileOf par holding
  simp only [course_count h]

private def Main (K : CkSetup G F W B) (f : Option (SFile B)) (k : ℕ) (s : OptState Row ℝ) : Prop := (k = 0 ∧ Bad f) ∨ Holds K f s

private def Other (K : CkSetup G F W B) (f : Option (SFile B)) (k : ℕ) : Prop := Bad f ∨ ∃ j r, j < k ∧ Course K j r ∧ Holds K f r

/-- What is true at every instant. -/
private def CkInv2 (K : CkSetup G F W B) : CkMoment2 F W B → Prop
  | .looping o _ fs => ∃ k s, Course K k s ∧ o = holding K.fresh s ∧ Main K (fs (par k)) k s ∧ Other K (fs (!par k)) k
  | .saving o _ fs l => ∃ k s t c, Course K k s ∧ loopTurn K s = (t, none) ∧ o = holding K.fresh t ∧ Holds K c t ∧ Main K (fs (par k)) k s ∧
      ((Other K (fs (!par k)) k ∧ ∃ m, l = fs (!par k) :: some .torn :: (List.replicate m (some .torn) ++ [c])) ∨
        ∃ m, l = List.replicate m (some .torn) ++ [c] ∧ l.head? = some (fs (!par k)))
  | .down _ fs => ∃ k s, Course K k s ∧ Main K (fs (par k)) k s ∧ Other K (fs (!par k)) k
  | .ended s e => ∃ k t log, uninterrupted K k = ⟨t, log, e⟩ ∧ SameButFile s t

private theorem read_bad (K : CkSetup G F W B) (reg : LogRegistry) {f : Option (SFile B)} (h : Bad f) : readBack K reg f = none := by
  rcases h with rfl | rfl <;> rfl

private theorem read_holds {K : CkSetup G F W B} (reg : LogRegistry) {f : Option (SFile B)} {s : OptState Row ℝ} (h : Holds K f s) :
    readBack K reg f = some (holding K.fresh s) := by
  obtain ⟨b, rfl, hl⟩ := h
  obtain ⟨r, hr⟩ := hl reg
  unfold readBack
  simp [hr]

private theorem restart2_of {K : CkSetup G F W B} {n : String} (hK : Checkpointable K n) {k : ℕ} {s : OptState Row ℝ} (hc : Course K k s) {fs : Bool → Option (SFile B)}
    (hm : Main K (fs (par k)) k s) (ho : Other K (fs (!par k)) k) (reg : LogRegistry) :
    (laterOf (readBack K reg (fs false)) (readBack K reg (fs true))).getD K.fresh = holding K.fresh s := by
  have hi : (holding K.fresh s).rest.iterCount = k := show s.iterCount = k from course_count hc
  rcases hm with ⟨rfl, hb⟩ | hm
  · have e1 := read_bad K reg hb
    have e2 : readBack K reg (fs (!par 0)) = none := by
      rcases ho with ho | ⟨j, r, hj, -⟩
      · exact read_bad K reg ho
      · omega
    have : par 0 = false := rfl
    rw [this] at e1 e2
    simp only [Bool.not_false] at e2
    rw [e1, e2, course_zero hc, ← fresh_holding hK]
    rfl
  · have e1 := read_holds reg hm
    rcases ho with ho | ⟨j, r, hj, hcj, hr⟩
    · have e2 := read_bad K reg ho
      cases hp : par k <;> rw [hp] at e1 e2 <;> simp only [Bool.not_true, Bool.not_false] at e2 <;> rw [e1, e2] <;> rfl
    · have e2 := read_holds reg hr
      have hij : (holding K.fresh r).rest.iterCount = j := show r.iterCount = j from course_count hcj
      cases hp : par k <;> rw [hp] at e1 e2 <;> simp only [Bool.not_true, Bool.not_false] at e2 <;> rw [e1, e2] <;> simp only [laterOf, hi, hij]
      · rw [if_neg (by omega)]
        rfl
      · rw [if_pos hj]
        rfl

private theorem down_of {K : CkSetup G F W B} {k : ℕ} {s t : OptState Row ℝ} {c : Option (SFile B)} {fs : Bool → Option (SFile B)} {l : List (Option (SFile B))} (hc : Course K k s)
    (hh : Holds K c t) (hm : Main K (fs (par k)) k s)
    (hl : (Other K (fs (!par k)) k ∧ ∃ m, l = fs (!par k) :: some .torn :: (List.replicate m (some .torn) ++ [c])) ∨
        ∃ m, l = List.replicate m (some .torn) ++ [c] ∧ l.head? = some (fs (!par k))) :
    (Main K (fs (par k)) k s ∧ Other K (fs (!par k)) k) ∨ (Main K (fs (par (k + 1))) (k + 1) t ∧ Other K (fs (!par (k + 1))) (k + 1)) := by
  rcases hl with ⟨ho, -⟩ | ⟨m, rfl, hl⟩
  · exact Or.inl ⟨hm, ho⟩
  · cases m with
    | zero =>
      simp only [List.replicate_zero, List.nil_append, List.head?_cons, Option.some.injEq] at hl
      refine Or.inr ?_
      rw [par_succ, Bool.not_not]
      refine ⟨Or.inr (by rw [← hl]; exact hh), ?_⟩
      rcases hm with ⟨rfl, hb⟩ | hm
      · exact Or.inl hb
      · exact Or.inr ⟨k, s, by omega, hc, hm⟩
    | succ m =>
      rw [List.replicate_succ, List.cons_append, List.head?_cons, Option.some.injEq] at hl
      exact Or.inl ⟨hm, Or.inl (Or.inr hl.symm)⟩

private theorem inv2_next {K : CkSetup G F W B} {n : String} (hK : Checkpointable K n) {x y : CkMoment2 F W B} (hx : CkInv2 K x) (h : CkNext2 K x y) : CkInv2 K y := by
  cases h with
  | step o csv fs s reg m ht =>
    obtain ⟨k, s0, hc, rfl, hm, ho⟩ := hx
    obtain ⟨t', ht', -, hh⟩ := turn_held K ht
    have hf : fileOf (holding K.fresh t') = !par k := by rw [fileOf_holding (hc.next ht'), par_succ]
    refine ⟨k, s0, t', _, hc, ht', by rw [holding_holding, hh], holds_saved hK reg t', hm, Or.inl ⟨ho, m, ?_⟩⟩
    rw [holding_holding, hh, hf]
    rfl
  | finish o csv fs s e ht =>
    obtain ⟨k, s0, hc, rfl, -⟩ := hx
    obtain ⟨t', ht', hsame, -⟩ := turn_held K ht
    obtain ⟨log, hl⟩ := course_end hc ht'
    exact ⟨k + 1, t', log, hl, hsame⟩
  | write o csv fs f g l =>
    obtain ⟨k, s0, t, c, hc, ht, rfl, hh, hm, hl⟩ := hx
    have hf : fileOf (holding K.fresh t) = !par k := by rw [fileOf_holding (hc.next ht), par_succ]
    rw [hf]
    have hne : par k ≠ !par k := by cases par k <;> simp
    refine ⟨k, s0, t, c, hc, ht, rfl, hh, ?_, Or.inr ?_⟩
    · rwa [Function.update_of_ne hne]
    · rw [Function.update_self]
      rcases hl with ⟨-, m, hl⟩ | ⟨m, hl, -⟩
      · simp only [List.cons.injEq] at hl
        exact ⟨m + 1, by rw [hl.2.1, hl.2.2]; rfl, rfl⟩
      · cases m with
        | zero => simp at hl
        | succ m =>
          rw [List.replicate_succ, List.cons_append] at hl
          exact ⟨m, (List.cons.inj hl).2, rfl⟩
  | saved o csv fs f reg hs =>
    obtain ⟨k, s0, t, c, hc, ht, rfl, hh, hm, hl⟩ := hx
    rw [(save_holding hK t reg).1]
    refine ⟨k + 1, t, hc.next ht, rfl, ?_⟩
    rcases hl with ⟨-, m, hl⟩ | ⟨m, hl, hhd⟩
    · simp at hl
    · cases m with
      | zero =>
        simp only [List.replicate_zero, List.nil_append, List.cons.injEq, and_true] at hl
        simp only [List.head?_cons, Option.some.injEq] at hhd
        rw [par_succ, Bool.not_not]
        refine ⟨Or.inr (by rw [← hhd, hl]; exact hh), ?_⟩
        rcases hm with ⟨rfl, hb⟩ | hm
        · exact Or.inl hb
        · exact Or.inr ⟨k, s0, by omega, hc, hm⟩
      | succ m => simp [List.replicate_succ] at hl
  | crash o csv fs =>
    obtain ⟨k, s0, hc, -, hf⟩ := hx
    exact ⟨k, s0, hc, hf⟩
  | crashSaving o csv fs l =>
    obtain ⟨k, s0, t, c, hc, ht, rfl, hh, hm, hl⟩ := hx
    rcases down_of hc hh hm hl with h | h
    · exact ⟨k, s0, hc, h⟩
    · exact ⟨k + 1, t, hc.next ht, h⟩
  | restart csv fs reg =>
    obtain ⟨k, s0, hc, hm, ho⟩ := hx
    exact ⟨k, s0, hc, restart2_of hK hc hm ho reg, hm, ho⟩

private theorem inv2_reachable {K : CkSetup G F W B} {n : String} (hK : Checkpointable K n) {x : CkMoment2 F W B} (h : CkReachable2 K x) : CkInv2 K x := by
  induction h with
  | refl => exact ⟨0, {}, .start, fresh_holding hK, Or.inl ⟨rfl, Or.inl rfl⟩, Or.inl (Or.inl rfl)⟩
  | tail _ h ih => exact inv2_next hK ih h

/-- **C184**: with two files written in turn the program survives every crash: a new process can always go on, with the very optimiser that was lost or, if the crash was during
`save`, one at most one step back; and it ends as the run without interruption does. -/
theorem c184_two_files {K : CkSetup G F W B} {n : String} (hK : Checkpointable K n) {x : CkMoment2 F W B} (h : CkReachable2 K x) :
    (∀ o csv fs, x = .looping o csv fs → (∃ k, AtStep K k o) ∧ ∀ y, CkNext2 K (.down csv fs) y ↔ y = .looping o csv fs) ∧
      (∀ o csv fs l, x = .saving o csv fs l → ∃ k o', AtStep K (k + 1) o ∧ (AtStep K k o' ∨ AtStep K (k + 1) o') ∧ ∀ y, CkNext2 K (.down csv fs) y ↔ y = .looping o' csv fs) ∧
      ∀ s e, x = .ended s e → ∃ k t log, uninterrupted K k = ⟨t, log, e⟩ ∧ SameButFile s t := by
  have hi := inv2_reachable hK h
  have key : ∀ k s, Course K k s → ∀ csv (fs : Bool → Option (SFile B)), Main K (fs (par k)) k s → Other K (fs (!par k)) k →
      ∀ y, CkNext2 K (.down csv fs) y ↔ y = .looping (holding K.fresh s) csv fs := by
    intro k s hc csv fs hm ho y
    constructor
    · intro hy
      cases hy with
      | restart csv fs reg => rw [restart2_of hK hc hm ho reg]
    · rintro rfl
      have := CkNext2.restart (K := K) csv fs (fun _ => [])
      rwa [restart2_of hK hc hm ho] at this
  refine ⟨?_, ?_, ?_⟩
  · rintro o csv fs rfl
    obtain ⟨k, s, hc, rfl, hm, ho⟩ := hi
    exact ⟨⟨k, atStep_of hc⟩, key k s hc csv fs hm ho⟩
  · rintro o csv fs l rfl
    obtain ⟨k, s0, t, c, hc, ht, rfl, hh, hm, hl⟩ := hi
    rcases down_of hc hh hm hl with ⟨h1, h2⟩ | ⟨h1, h2⟩
    · exact ⟨k, _, atStep_of (hc.next ht), Or.inl (atStep_of hc), key k s0 hc csv fs h1 h2⟩
    · exact ⟨k, _, atStep_of (hc.next ht), Or.inr (atStep_of (hc.next ht)), key (k + 1) t (hc.next ht) csv fs h1 h2⟩
  · rintro s e rfl
    exact hi

/-! ### Non-vacuity -/

private inductive CkBytes where
  | data (d : List (Rec Row ℝ))
  | log (c : LogConfig)
  | obj (r : OptState Row ℝ) (d : Option (List (Rec Row ℝ))) (l : LogConfig) (h g hw gw : Option ℕ)

private def ckCodec : Codec (OptState Row ℝ) (List (Rec Row ℝ)) ℕ ℕ CkBytes where
  dumpData := fun d => match d with | .inl d => some (.data d) | .inr _ => none
  loadData := fun b => match b with | .data d => some (.inl d) | _ => none
  dumpLog := fun c => some (.log c)
  loadLog := fun b => match b with | .log c => some c | _ => none
  dumpObj := fun o => match o.data, o.logger with
    | some (.inr (.data d)), .inr (.log l) => some (.obj o.rest (some d) l o.h o.g o.hWrap o.gWrap)
    | none, .inr (.log l) => some (.obj o.rest none l o.h o.g o.hWrap o.gWrap)
    | _, _ => none
  loadObj := fun b => match b with
    | .obj r d l h g hw gw => some ⟨r, d.map (fun d => .inr (.data d)), .inr (.log l), h, g, hw, gw⟩
    | _ => none

/-- A Bayesian optimisation with one constraint that makes an initial design of two points and then searches; with a data file. -/
private noncomputable def ckSetup : CkSetup Unit ℕ ℕ CkBytes where
  codec := ckCodec
  wrap := fun n => n + 1
  canOpen := fun _ => true
  setOrder := List.dedup
  cfg := { stepCfg with dataFile := true }
  u := { twoSetup with parallel := false, nPoint := 1 }
  acq := (.EI, emptyPar)
  L := stepLearner
  fresh := ⟨{}, none, .inl "BO (1)", some 3, none, some 4, none⟩

private theorem ck_ok : Checkpointable ckSetup "BO (1)" where
  lawful := by
    refine ⟨?_, ?_, ?_⟩
    · intro d b h
      cases d with
      | inl d => cases h; rfl
      | inr d => cases h
    · intro l b h; cases h; rfl
    · rintro ⟨r, d, l, h, g, hw, gw⟩ b hb
      simp only [ckSetup, ckCodec] at hb
      split at hb
      · rw [← Option.some.inj hb]; rfl
      · rw [← Option.some.inj hb]; rfl
      · cases hb
  writes := by
    intro s reg
    cases hs : s.data with
    | none => simp [save, saveData, saveLog, restoreData, holding, hs, ckSetup, ckCodec]
    | some d => simp [save, saveData, saveLog, restoreData, holding, hs, ckSetup, ckCodec]
  live := ⟨fun d hd => by simp [ckSetup] at hd, rfl, rfl, rfl⟩
  new := ⟨rfl, rfl⟩

private theorem turn_ok (K : CkSetup G F W B) (s s1 s2 : OptState Row ℝ) (X : List Row) (h0 : checkStop K.cfg s = (s1, .ok false))
    (hp : proposals K.cfg K.u K.acq K.L s.iterCount s1 = some X)
    (ht : tell K.cfg s1 { X := X, vals := X.map (K.L.objective s.iterCount), oracle := oracleOf K.cfg K.L s.iterCount s1 X } = (s2, .ok ())) :
    loopTurn K s = (s2, none) := by
  unfold loopTurn
  rw [h0]
  simp only [hp, ht]

/-- The first step succeeds: two rows are recorded and written to the data file. -/
private theorem ck_step : loopTurn ckSetup {} = ({ twoState with csv := twoState.data.getD [] }, none) := by
  have h0 : checkStop { stepCfg with dataFile := true } ({} : OptState Row ℝ) = ({}, .ok false) := by
    simp [checkStop, stepCfg, checkBudget, stopFlag]
  have hp : proposals { stepCfg with dataFile := true } { twoSetup with parallel := false, nPoint := 1 } (.EI, emptyPar) stepLearner 0 {} = some [[.real 0], [.real 1]] := by
    show (askFull (stepLearner.search 0 []) (askStateOf twoSetup {}) none none).toOption = _
    have : askFull (stepLearner.search 0 []) (askStateOf twoSetup {}) none none = .ok [[.real 0], [.real 1]] := by
      rw [← two_first]
      rfl
    rw [this]
    rfl
  have hor : oracleOf { stepCfg with dataFile := true } stepLearner 0 {} [[.real 0], [.real 1]] = {} := demo_oracle _ _ rfl rfl _ _ _
  have t0 : tell { stepCfg with dataFile := true } ({} : OptState Row ℝ) { X := [[.real 0], [.real 1]], vals := [[Val.real 0], [.real 1]].map (stepLearner.objective 0), oracle := {} } =
      ({ twoState with csv := twoState.data.getD [] }, .ok ()) := by
    simp [tell, observe, tellRest, postEvalCheck, stepLearner, demoObjective, stepCfg, labels, defaultIndex, isFlat, incumbent, getBest, twoState, twoWorse, twoBetter,
      List.range_succ]
  refine turn_ok ckSetup {} {} _ _ h0 hp ?_
  have ho : oracleOf ckSetup.cfg ckSetup.L ({} : OptState Row ℝ).iterCount {} [[.real 0], [.real 1]] = {} := hor
  rw [ho]
  exact t0

/-- The program starts, makes its first step, dies before it is saved and makes it again; and it may die while it is saved. -/
theorem c184_concrete : Checkpointable ckSetup "BO (1)" ∧ (∃ rows l, rows ≠ [] ∧ CkReachable ckSetup (.saving (holding ckSetup.fresh { twoState with csv := rows }) (rows ++ rows) l)) ∧
    CkReachable ckSetup (.down (twoState.data.getD []) (some .torn)) := by
  refine ⟨ck_ok, ?_, ?_⟩
  · obtain ⟨rows, l, h1, h2, h3⟩ := c184_data_file_refuted ck_ok rfl _ ck_step
    refine ⟨rows, l, h1, ?_⟩
    have : rows = twoState.data.getD [] := by
      simp only at h2
      rw [h2]
      rfl
    rw [this] at h3 ⊢
    exact h3
  · exact (c184_crash_while_saving_refuted ckSetup ckSetup.fresh [] none .refl _ ck_step).1

end Verif.Props
