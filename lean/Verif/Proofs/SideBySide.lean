import Verif.Spec.SideBySide

/-! Proofs for C182. -/
namespace Verif.Proofs

open Verif.Model Verif.Spec

variable {G : Type*}

/-- The dictionaries that a constructor call passes on. -/
def Given (a : BoArgs) (r : ParRef) : Prop :=
  match a.par with
  | some k => r = .user k
  | none => a.cls.batch = true ∧ r = .default

theorem given_one {a b : BoArgs} {r : ParRef} (ha : Given a r) (hb : Given b r) : OneDictionary a b := by
  unfold Given at ha hb
  unfold OneDictionary
  cases h1 : a.par <;> cases h2 : b.par <;> simp only [h1, h2] at ha hb ⊢
  · exact ⟨ha.1, hb.1⟩
  · rw [ha.2] at hb; cases hb
  · rw [hb.2] at ha; cases ha
  · rw [ha] at hb; exact ParRef.user.inj hb

theorem parRef_given (w : BoWorld) (n : ℕ) (a : BoArgs) : parRefOf w n a = .own n ∨ Given a (parRefOf w n a) := by
  unfold parRefOf Given
  cases h : a.par with
  | none => by_cases hb : a.cls.batch = true <;> simp [hb]
  | some k => by_cases hb : (w.pars (.user k)).isEmpty = true <;> simp [hb]

/-- The dictionaries and surrogates of one optimiser, against those of the others. -/
structure Footprint (j : ℕ) (D : ParRef → Prop) (S : ℕ → Prop) (h : List (ℕ × BoCall G)) : Prop where
  own : ∀ n, D (.own n) ↔ n = j
  mine : ∀ a, (j, BoCall.make a) ∈ h → S a.model ∧ ∀ r, Given a r → D r
  theirs : ∀ n b, n ≠ j → (n, BoCall.make b) ∈ h → ¬ S b.model ∧ ∀ r, Given b r → ¬ D r

/-- Two worlds look the same to the optimiser `j`, and in the first the others stay away. -/
structure Agree (j : ℕ) (D : ParRef → Prop) (S : ℕ → Prop) (w w' : BoWorld) : Prop where
  obj : w.objs j = w'.objs j
  pars : ∀ r, D r → w.pars r = w'.pars r
  models : ∀ m, S m → w.models m = w'.models m
  mine : ∀ o, w.objs j = some o → D o.par ∧ S o.model
  theirs : ∀ n o, n ≠ j → w.objs n = some o → ¬ D o.par ∧ ¬ S o.model

private theorem update_ne {α β : Type*} [DecidableEq α] {P : α → Prop} {f : α → β} {a x : α} {v : β} (ha : ¬ P a) (hx : P x) : Function.update f a v x = f x :=
  Function.update_of_ne (by rintro rfl; exact ha hx) _ _

variable {j : ℕ} {D : ParRef → Prop} {S : ℕ → Prop} {w w' : BoWorld}

private theorem make_mine (hown : ∀ n, D (.own n) ↔ n = j) (hw : Agree j D S w w') (a : BoArgs) (hS : S a.model) (hD : ∀ r, Given a r → D r) :
    (boMake w j a).2 = (boMake w' j a).2 ∧ Agree j D S (boMake w j a).1 (boMake w' j a).1 := by
  have hr : parRefOf w' j a = parRefOf w j a := by
    unfold parRefOf
    cases h : a.par with
    | none => rfl
    | some k => simp only; rw [hw.pars (.user k) (hD _ (by unfold Given; rw [h]))]
  have hDr : D (parRefOf w j a) := by
    rcases parRef_given w j a with h | h
    · rw [h]; exact (hown j).mpr rfl
    · exact hD _ h
  have hm : w'.models a.model = w.models a.model := (hw.models _ hS).symm
  have hp : w'.pars (parRefOf w j a) = w.pars (parRefOf w j a) := (hw.pars _ hDr).symm
  unfold boMake
  simp only [hr, hm, hp]
  cases initialPar a (if parRefOf w j a = .own j then emptyPar else w.pars (parRefOf w j a)) (((w.models a.model).map Fitted.attrs).getD {}) with
  | none => exact ⟨rfl, hw⟩
  | some q =>
    simp only
    by_cases hf : a.cls.failsLate = true
    · simp only [hf, if_true]
      refine ⟨trivial, hw.obj, fun r h => ?_, hw.models, hw.mine, hw.theirs⟩
      by_cases ho : parRefOf w j a = .own j
      · simp only [ho, if_true]; exact hw.pars r h
      · simp only [ho, if_false]
        by_cases hrr : r = parRefOf w j a
        · subst hrr; simp
        · rw [Function.update_of_ne hrr, Function.update_of_ne hrr]; exact hw.pars r h
    · simp only [hf]
      refine ⟨rfl, by simp, fun r h => ?_, hw.models, fun o ho => ?_, fun n o hn ho => ?_⟩
      · by_cases hrr : r = parRefOf w j a
        · subst hrr; simp
        · simp only [Bool.false_eq_true, if_false]
          rw [Function.update_of_ne hrr, Function.update_of_ne hrr]; exact hw.pars r h
      · simp only [Bool.false_eq_true, if_false, Function.update_self, Option.some.injEq] at ho
        subst ho
        exact ⟨hDr, hS⟩
      · simp only [Bool.false_eq_true, if_false] at ho
        rw [Function.update_of_ne hn] at ho
        exact hw.theirs n o hn ho

private theorem make_theirs (hown : ∀ n, D (.own n) ↔ n = j) (hw : Agree j D S w w') (n : ℕ) (hn : n ≠ j) (b : BoArgs) (hS : ¬ S b.model) (hD : ∀ r, Given b r → ¬ D r) :
    Agree j D S (boMake w n b).1 w' := by
  have hDr : ¬ D (parRefOf w n b) := by
    rcases parRef_given w n b with h | h
    · rw [h]; exact fun hc => hn ((hown n).mp hc)
    · exact hD _ h
  unfold boMake
  simp only
  cases initialPar b (if parRefOf w n b = .own n then emptyPar else w.pars (parRefOf w n b)) (((w.models b.model).map Fitted.attrs).getD {}) with
  | none => exact hw
  | some q =>
    simp only
    by_cases hf : b.cls.failsLate = true
    · simp only [hf, if_true]
      refine ⟨hw.obj, fun r h => ?_, hw.models, hw.mine, hw.theirs⟩
      by_cases ho : parRefOf w n b = .own n
      · simp only [ho, if_true]; exact hw.pars r h
      · simp only [ho, if_false]
        rw [update_ne hDr h]
        exact hw.pars r h
    · simp only [hf]
      refine ⟨?_, fun r h => ?_, hw.models, fun o ho => ?_, fun m o hm ho => ?_⟩
      · simp only [Bool.false_eq_true, if_false]
        rw [Function.update_of_ne hn.symm]; exact hw.obj
      · simp only [Bool.false_eq_true, if_false]
        rw [update_ne hDr h]; exact hw.pars r h
      · simp only [Bool.false_eq_true, if_false] at ho
        rw [Function.update_of_ne hn.symm] at ho
        exact hw.mine o ho
      · simp only [Bool.false_eq_true, if_false] at ho
        by_cases hmn : m = n
        · subst hmn
          rw [Function.update_self] at ho
          cases ho
          exact ⟨hDr, hS⟩
        · rw [Function.update_of_ne hmn] at ho
          exact hw.theirs m o hm ho

private theorem ask_mine (hw : Agree j D S w w') (o : BoObj) (ho : w.objs j = some o) (z : List ℝ) (search : List Criterion → AskEnv G) :
    (boAsk w o z search).2 = (boAsk w' o z search).2 ∧ Agree j D S (boAsk w o z search).1 (boAsk w' o z search).1 := by
  obtain ⟨hD, hS⟩ := hw.mine o ho
  have hm : w'.models o.model = w.models o.model := (hw.models _ hS).symm
  have hp : w'.pars o.par = w.pars o.par := (hw.pars _ hD).symm
  unfold boAsk boAskState
  simp only [hm, hp]
  cases w.models o.model with
  | none => exact ⟨rfl, hw⟩
  | some m =>
    simp only
    cases boCriteria o (w.pars o.par) m z with
    | none => exact ⟨rfl, hw⟩
    | some cs =>
      refine ⟨rfl, hw.obj, fun r h => ?_, hw.models, hw.mine, hw.theirs⟩
      by_cases hrr : r = o.par
      · subst hrr; simp
      · simp only
        rw [Function.update_of_ne hrr, Function.update_of_ne hrr]; exact hw.pars r h

private theorem ask_theirs (hw : Agree j D S w w') (n : ℕ) (hn : n ≠ j) (o : BoObj) (ho : w.objs n = some o) (z : List ℝ) (search : List Criterion → AskEnv G) :
    Agree j D S (boAsk w o z search).1 w' := by
  obtain ⟨hD, -⟩ := hw.theirs n o hn ho
  unfold boAsk
  cases w.models o.model with
  | none => exact hw
  | some m =>
    simp only
    cases boCriteria o (w.pars o.par) m z with
    | none => exact hw
    | some cs =>
      refine ⟨hw.obj, fun r h => ?_, hw.models, hw.mine, hw.theirs⟩
      simp only
      rw [update_ne hD h]; exact hw.pars r h

private theorem tell_mine (hw : Agree j D S w w') (o : BoObj) (ho : w.objs j = some o) (a : TellArgs Row ℝ) (fit : Option Fitted → List (Row × ℝ) → Option Fitted × Bool) :
    (boTell w j o a fit).2 = (boTell w' j o a fit).2 ∧ Agree j D S (boTell w j o a fit).1 (boTell w' j o a fit).1 := by
  obtain ⟨hD, hS⟩ := hw.mine o ho
  have hm : w'.models o.model = w.models o.model := (hw.models _ hS).symm
  unfold boTell
  cases dataToFit o.cfg o.st a with
  | none =>
    refine ⟨rfl, by simp, hw.pars, hw.models, fun o' ho' => ?_, fun n o' hn ho' => ?_⟩
    · simp only [Function.update_self, Option.some.injEq] at ho'
      subst ho'
      exact ⟨hD, hS⟩
    · simp only at ho'
      rw [Function.update_of_ne hn] at ho'
      exact hw.theirs n o' hn ho'
  | some d =>
    simp only [hm]
    refine ⟨trivial, by simp, hw.pars, fun m h => ?_, fun o' ho' => ?_, fun n o' hn ho' => ?_⟩
    · by_cases hmm : m = o.model
      · subst hmm; simp
      · simp only
        rw [Function.update_of_ne hmm, Function.update_of_ne hmm]; exact hw.models m h
    · simp only [Function.update_self, Option.some.injEq] at ho'
      subst ho'
      exact ⟨hD, hS⟩
    · simp only at ho'
      rw [Function.update_of_ne hn] at ho'
      exact hw.theirs n o' hn ho'

private theorem tell_theirs (hw : Agree j D S w w') (n : ℕ) (hn : n ≠ j) (o : BoObj) (ho : w.objs n = some o) (a : TellArgs Row ℝ)
    (fit : Option Fitted → List (Row × ℝ) → Option Fitted × Bool) : Agree j D S (boTell w n o a fit).1 w' := by
  obtain ⟨hD, hS⟩ := hw.theirs n o hn ho
  have key : ∀ (o1 : BoObj), o1.par = o.par → o1.model = o.model → ∀ m p, Function.update w.objs n (some o1) m = some p → m ≠ j → ¬ D p.par ∧ ¬ S p.model := by
    intro o1 e1 e2 m p hp hm
    by_cases hmn : m = n
    · subst hmn
      rw [Function.update_self] at hp
      cases hp
      rw [e1, e2]
      exact ⟨hD, hS⟩
    · rw [Function.update_of_ne hmn] at hp
      exact hw.theirs m p hm hp
  unfold boTell
  cases dataToFit o.cfg o.st a with
  | none =>
    refine ⟨?_, hw.pars, hw.models, fun o' ho' => ?_, fun m p hm hp => key _ ?_ ?_ m p hp hm⟩
    · simp only; rw [Function.update_of_ne hn.symm]; exact hw.obj
    · simp only at ho'
      rw [Function.update_of_ne hn.symm] at ho'
      exact hw.mine o' ho'
    · rfl
    · rfl
  | some d =>
    refine ⟨?_, hw.pars, fun m h => ?_, fun o' ho' => ?_, fun m p hm hp => key _ ?_ ?_ m p hp hm⟩
    · simp only; rw [Function.update_of_ne hn.symm]; exact hw.obj
    · simp only
      rw [update_ne hS h]; exact hw.models m h
    · simp only at ho'
      rw [Function.update_of_ne hn.symm] at ho'
      exact hw.mine o' ho'
    · rfl
    · rfl

/-- A call for the optimiser gives the same result in both worlds, which stay alike. -/
theorem call_mine (hown : ∀ n, D (.own n) ↔ n = j) (hw : Agree j D S w w') (c : BoCall G) (hc : ∀ a, c = .make a → S a.model ∧ ∀ r, Given a r → D r) :
    (boCall w j c).2 = (boCall w' j c).2 ∧ Agree j D S (boCall w j c).1 (boCall w' j c).1 := by
  unfold boCall
  cases c with
  | make a =>
    obtain ⟨h1, h2⟩ := make_mine hown hw a (hc a rfl).1 (hc a rfl).2
    exact ⟨congrArg BoResult.made h1, h2⟩
  | ask z search =>
    have ho := hw.obj
    cases h : w.objs j with
    | none => rw [h] at ho; simp only [← ho]; exact ⟨trivial, hw⟩
    | some o =>
      rw [h] at ho
      simp only [← ho]
      obtain ⟨h1, h2⟩ := ask_mine hw o h z search
      exact ⟨congrArg BoResult.points h1, h2⟩
  | tell a fit =>
    have ho := hw.obj
    cases h : w.objs j with
    | none => rw [h] at ho; simp only [← ho]; exact ⟨trivial, hw⟩
    | some o =>
      rw [h] at ho
      simp only [← ho]
      obtain ⟨h1, h2⟩ := tell_mine hw o h a fit
      exact ⟨congrArg BoResult.told h1, h2⟩

/-- A call for another optimiser changes nothing that this one can see. -/
theorem call_theirs (hown : ∀ n, D (.own n) ↔ n = j) (hw : Agree j D S w w') (n : ℕ) (hn : n ≠ j) (c : BoCall G)
    (hc : ∀ b, c = .make b → ¬ S b.model ∧ ∀ r, Given b r → ¬ D r) : Agree j D S (boCall w n c).1 w' := by
  unfold boCall
  cases c with
  | make b => exact make_theirs hown hw n hn b (hc b rfl).1 (hc b rfl).2
  | ask z search =>
    cases h : w.objs n with
    | none => exact hw
    | some o => exact ask_theirs hw n hn o h z search
  | tell a fit =>
    cases h : w.objs n with
    | none => exact hw
    | some o => exact tell_theirs hw n hn o h a fit

/-- Whole programs. -/
theorem program_agree : ∀ (h : List (ℕ × BoCall G)) (w w' : BoWorld), Footprint j D S h → Agree j D S w w' →
    concerning j (boProgram w h).2 = (boProgram w' (concerning j h)).2 ∧ Agree j D S (boProgram w h).1 (boProgram w' (concerning j h)).1
  | [], w, w', _, hw => ⟨rfl, hw⟩
  | (n, c) :: h, w, w', hf, hw => by
    have hf' : Footprint j D S h := ⟨hf.own, fun a ha => hf.mine a (List.mem_cons_of_mem _ ha), fun m b hm hb => hf.theirs m b hm (List.mem_cons_of_mem _ hb)⟩
    by_cases hn : n = j
    · replace hn := hn.symm
      subst hn
      obtain ⟨h1, h2⟩ := call_mine hf.own hw c (fun a ha => hf.mine a (by rw [ha]; exact List.mem_cons_self))
      obtain ⟨h3, h4⟩ := program_agree h _ _ hf' h2
      have e : concerning j ((j, c) :: h) = (j, c) :: concerning j h := by simp [concerning]
      rw [e]
      simp only [boProgram]
      refine ⟨?_, h4⟩
      have e2 : ∀ (x : BoResult) l, concerning j ((j, x) :: l) = (j, x) :: concerning j l := fun x l => by simp [concerning]
      rw [e2, h3, h1]
    · have h2 := call_theirs hf.own hw n hn c (fun a ha => hf.theirs n a hn (by rw [ha]; exact List.mem_cons_self))
      obtain ⟨h3, h4⟩ := program_agree h _ _ hf' h2
      have e : concerning j ((n, c) :: h) = concerning j h := by simp [concerning, hn]
      rw [e]
      simp only [boProgram]
      refine ⟨?_, h4⟩
      have e2 : ∀ (x : BoResult) l, concerning j ((n, x) :: l) = concerning j l := fun x l => by simp [concerning, hn]
      rw [e2, h3]

/-- The footprint of an optimiser that is kept apart. -/
theorem footprint_of (j : ℕ) (h : List (ℕ × BoCall G)) (hk : KeepsApart j h) :
    Footprint j (fun r => r = .own j ∨ ∃ a, (j, BoCall.make a) ∈ h ∧ Given a r) (fun m => ∃ a, (j, BoCall.make a) ∈ h ∧ a.model = m) h where
  own := fun n => by
    constructor
    · rintro (hr | ⟨a, -, hg⟩)
      · exact ParRef.own.inj hr
      · unfold Given at hg
        cases hp : a.par <;> simp [hp] at hg
    · rintro rfl; exact Or.inl rfl
  mine := fun a ha => ⟨⟨a, ha, rfl⟩, fun r hr => Or.inr ⟨a, ha, hr⟩⟩
  theirs := fun n b hn hb => by
    refine ⟨?_, ?_⟩
    · rintro ⟨a, ha, he⟩
      exact (hk a ha n b hn hb).1 he.symm
    · rintro r hr (h1 | ⟨a, ha, hg⟩)
      · subst h1
        unfold Given at hr
        cases hp : b.par <;> simp [hp] at hr
      · exact (hk a ha n b hn hb).2 (given_one hg hr)

end Verif.Proofs
