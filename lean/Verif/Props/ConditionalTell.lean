import Verif.Model.ConditionalTell
import Mathlib.Tactic.Ring
import Mathlib.Data.List.MinMax
import Mathlib.Data.Fintype.Basic

/-!
# C143: the conditional optimiser records what it is told
-/
namespace Verif.Props

open Verif.Model

/-- All evaluations of a history, in the order told. -/
def allTold {P : Type*} (H : List (Bool × List (CondEval P))) : List (CondEval P) := H.flatMap Prod.snd

/-- The evaluations that gave a finite value, as pairs. -/
def finiteOnes {P : Type*} : List (CondEval P) → List (P × ℚ)
  | [] => []
  | ⟨_, p, some v⟩ :: es => (p, v) :: finiteOnes es
  | ⟨_, _, none⟩ :: es => finiteOnes es

private theorem finite_eq {P : Type*} (es : List (CondEval P)) : condFinite es = finiteOnes es := by
  induction es with
  | nil => rfl
  | cons e es ih =>
    obtain ⟨k, p, v⟩ := e
    cases v with
    | none => simpa [condFinite, finiteOnes] using ih
    | some v => simpa [condFinite, finiteOnes] using ih

private theorem finite_append {P : Type*} (a b : List (CondEval P)) : condFinite (a ++ b) = condFinite a ++ condFinite b := by
  simp [condFinite, List.filterMap_append]

/-- The loop over the sub-optimisers when it does not raise. -/
private theorem loop_spec {P : Type*} (fit : List (P × ℚ) → Bool) (es : List (CondEval P)) (s : CondRecords P) (h : (subLoop fit s es).2 = true) :
    (∀ k, (subLoop fit s es).1.subData k = s.subData k ++ condFinite (es.filter (fun e => e.sub = k))) ∧
    (∀ k, (subLoop fit s es).1.subCount k = s.subCount k + (es.filter (fun e => e.sub = k)).length) ∧
    (subLoop fit s es).1.data = s.data ∧ (subLoop fit s es).1.evalCount = s.evalCount ∧ (subLoop fit s es).1.iterCount = s.iterCount ∧
    (subLoop fit s es).1.hist = s.hist := by
  induction es generalizing s with
  | nil => simp [subLoop, condFinite]
  | cons e es ih =>
    simp only [subLoop] at h ⊢
    by_cases hf : subFits fit ((subRecord s e).subData e.sub) = true
    · rw [if_pos hf] at h ⊢
      obtain ⟨h1, h2, h3, h4, h5, h6⟩ := ih _ h
      refine ⟨fun k => ?_, fun k => ?_, h3, h4, h5, h6⟩
      · rw [h1]
        by_cases hk : e.sub = k
        · subst hk
          simp only [subRecord, Function.update_self, decide_true, List.filter_cons_of_pos, List.append_assoc]
          rw [← finite_append]; rfl
        · have hk' : k ≠ e.sub := fun h => hk h.symm
          simp [subRecord, Function.update_of_ne hk', hk]
      · rw [h2]
        by_cases hk : e.sub = k
        · subst hk
          simp only [subRecord, Function.update_self, decide_true, List.filter_cons_of_pos, List.length_cons]
          omega
        · have hk' : k ≠ e.sub := fun h => hk h.symm
          simp [subRecord, Function.update_of_ne hk', hk]
    · rw [if_neg hf] at h
      exact absurd h (by simp)

private theorem tell_spec {P : Type*} (fit : List (P × ℚ) → Bool) (mi w : Bool) (s : CondRecords P) (es : List (CondEval P)) (h : (condTell fit mi w s es).2 = true) :
    ∃ v, condBest mi (s.data ++ condFinite es) = some v ∧
    (∀ k, (condTell fit mi w s es).1.subData k = s.subData k ++ condFinite (es.filter (fun e => e.sub = k))) ∧
    (∀ k, (condTell fit mi w s es).1.subCount k = s.subCount k + (es.filter (fun e => e.sub = k)).length) ∧
    (condTell fit mi w s es).1.data = s.data ++ condFinite es ∧ (condTell fit mi w s es).1.evalCount = s.evalCount + (condFinite es).length ∧
    (condTell fit mi w s es).1.iterCount = s.iterCount + (if w then 0 else 1) ∧ (condTell fit mi w s es).1.hist = s.hist ++ (if w then [] else [v]) := by
  simp only [condTell] at h ⊢
  by_cases hl : ((subLoop fit s es).2 && !es.isEmpty) = true
  · rw [if_pos hl] at h ⊢
    have h2 : (subLoop fit s es).2 = true := (Bool.and_eq_true _ _ ▸ hl).1
    obtain ⟨h1, h2, h3, h4, h5, h6⟩ := loop_spec fit es s h2
    simp only [condWhole] at h ⊢
    rw [h3] at h ⊢
    cases hb : condBest mi (s.data ++ condFinite es) with
    | none => rw [hb] at h; exact absurd h (by simp)
    | some v =>
      refine ⟨v, rfl, ?_⟩
      cases w <;> simp [h1, h2, h4, h5, h6]
  · rw [if_neg hl] at h
    exact absurd h (by simp)

/-- **C143, the part that holds.**  As long as no call raises: the data of the whole are the finite observations in the order told, every sub-optimiser holds exactly those of
its own proposals and counts all of these, and there is one iteration and one entry of the history per call that is not a warm start. -/
theorem c143_records_partial {P : Type*} (fit : List (P × ℚ) → Bool) (mi : Bool) (H : List (Bool × List (CondEval P)))
    (hq : condQuiet fit mi (condStart P) H = true) :
    let s := condHistory fit mi (condStart P) H
    s.data = finiteOnes (allTold H) ∧
    (∀ k, s.subData k = finiteOnes ((allTold H).filter (fun e => e.sub = k))) ∧
    (∀ k, s.subCount k = ((allTold H).filter (fun e => e.sub = k)).length) ∧
    s.iterCount = (H.filter (fun c => !c.1)).length ∧ s.hist.length = s.iterCount := by
  have key : ∀ (H : List (Bool × List (CondEval P))) (s : CondRecords P), condQuiet fit mi s H = true →
      (condHistory fit mi s H).data = s.data ++ condFinite (allTold H) ∧
      (∀ k, (condHistory fit mi s H).subData k = s.subData k ++ condFinite ((allTold H).filter (fun e => e.sub = k))) ∧
      (∀ k, (condHistory fit mi s H).subCount k = s.subCount k + ((allTold H).filter (fun e => e.sub = k)).length) ∧
      (condHistory fit mi s H).iterCount = s.iterCount + (H.filter (fun c => !c.1)).length ∧
      (condHistory fit mi s H).hist.length + s.iterCount = (condHistory fit mi s H).iterCount + s.hist.length := by
    intro H
    induction H with
    | nil => intro s _; simp [condHistory, allTold, condFinite]; omega
    | cons c cs ih =>
      intro s h
      simp only [condQuiet, Bool.and_eq_true] at h
      obtain ⟨v, -, h1, h2, h3, -, h5, h6⟩ := tell_spec fit mi c.1 s c.2 h.1
      obtain ⟨i1, i2, i3, i4, i5⟩ := ih _ h.2
      have ht : allTold (c :: cs) = c.2 ++ allTold cs := by simp [allTold]
      refine ⟨?_, fun k => ?_, fun k => ?_, ?_, ?_⟩
      · rw [condHistory, i1, h3, ht, finite_append, List.append_assoc]
      · rw [condHistory, i2, h1, ht, List.filter_append, finite_append, List.append_assoc]
      · rw [condHistory, i3, h2, ht, List.filter_append, List.length_append]; omega
      · rw [condHistory, i4, h5]
        cases hc : c.1 <;> simp [hc] <;> omega
      · rw [condHistory]
        rw [h5, h6] at i5
        cases hc : c.1 <;> simp [hc] at i5 ⊢ <;> omega
  obtain ⟨h1, h2, h3, h4, h5⟩ := key H _ hq
  refine ⟨?_, fun k => ?_, fun k => ?_, ?_, ?_⟩
  · rw [h1, finite_eq]; rfl
  · rw [h2, finite_eq]; rfl
  · rw [h3]; simp [condStart]
  · rw [h4]; simp [condStart]
  · simpa [condStart] using h5

/-- **C143, exactly what the counter holds**: the evaluations that succeeded, warm start or not. -/
theorem c143_count {P : Type*} (fit : List (P × ℚ) → Bool) (mi : Bool) (H : List (Bool × List (CondEval P)))
    (hq : condQuiet fit mi (condStart P) H = true) :
    (condHistory fit mi (condStart P) H).evalCount + (allTold H).countP (fun e => e.value.isNone) = (allTold H).length := by
  have key : ∀ (H : List (Bool × List (CondEval P))) (s : CondRecords P), condQuiet fit mi s H = true →
      (condHistory fit mi s H).evalCount = s.evalCount + (condFinite (allTold H)).length := by
    intro H
    induction H with
    | nil => intro s _; simp [condHistory, allTold, condFinite]
    | cons c cs ih =>
      intro s h
      simp only [condQuiet, Bool.and_eq_true] at h
      obtain ⟨v, -, -, -, -, h4, -, -⟩ := tell_spec fit mi c.1 s c.2 h.1
      have ht : allTold (c :: cs) = c.2 ++ allTold cs := by simp [allTold]
      rw [condHistory, ih _ h.2, h4, ht, finite_append, List.length_append]; omega
  rw [key H _ hq]
  have hlen : ∀ es : List (CondEval P), (condFinite es).length + es.countP (fun e => e.value.isNone) = es.length := by
    intro es
    induction es with
    | nil => rfl
    | cons e es ih =>
      obtain ⟨k, p, v⟩ := e
      cases v with
      | none => simp [condFinite] at ih ⊢; omega
      | some v => simp [condFinite] at ih ⊢; omega
  have := hlen (allTold H)
  simp only [condStart]
  omega

/-- **C143, refuted for the counter.**  For every number `n` there are histories of `n + 1` calls, none of which raises, with only one evaluation counted: failed ones use up no
budget.  And evaluations of a warm start are counted. -/
theorem c143_count_refuted (n : ℕ) (mi : Bool) :
    (∃ H : List (Bool × List (CondEval ℕ)), H.length = n + 1 ∧ (∀ c ∈ H, c.2.length = 1) ∧ condQuiet (fun _ => true) mi (condStart ℕ) H = true ∧
      (condHistory (fun _ => true) mi (condStart ℕ) H).evalCount = 1) ∧
    ∃ H : List (Bool × List (CondEval ℕ)), (∀ c ∈ H, c.1 = true) ∧ condQuiet (fun _ => true) mi (condStart ℕ) H = true ∧
      (condHistory (fun _ => true) mi (condStart ℕ) H).evalCount = 1 := by
  constructor
  · refine ⟨(false, [⟨0, 0, some 1⟩]) :: List.replicate n (false, [⟨0, 1, none⟩]), by simp, ?_, ?_, ?_⟩
    · intro c hc
      rcases List.mem_cons.1 hc with rfl | hc
      · rfl
      · rw [(List.mem_replicate.1 hc).2]; rfl
    all_goals
      have key : ∀ (m : ℕ) (s : CondRecords ℕ), s.subData 0 = [(0, 1)] → s.data = [(0, 1)] → s.evalCount = 1 →
          condQuiet (fun _ => true) mi s (List.replicate m (false, [⟨0, 1, none⟩])) = true ∧
          (condHistory (fun _ => true) mi s (List.replicate m (false, [⟨0, 1, none⟩]))).evalCount = 1 := by
        intro m
        induction m with
        | zero => intro s _ _ h; exact ⟨rfl, h⟩
        | succ m ih =>
          intro s h1 h2 h3
          rw [List.replicate_succ]
          have hb : condBest mi (s.data ++ condFinite [(⟨0, 1, none⟩ : CondEval ℕ)]) = some 1 := by
            cases mi <;> simp [condBest, condFinite, h2]
          have hloop : subLoop (fun _ => true) s [(⟨0, 1, none⟩ : CondEval ℕ)] = (subRecord s ⟨0, 1, none⟩, true) := by
            simp [subLoop, subFits, subRecord, condFinite, h1]
          have htell : condTell (fun _ => true) mi false s [(⟨0, 1, none⟩ : CondEval ℕ)] =
              condWhole mi false (subRecord s ⟨0, 1, none⟩) [⟨0, 1, none⟩] := by
            simp [condTell, hloop]
          have hb' : condBest mi ((subRecord s (⟨0, 1, none⟩ : CondEval ℕ)).data ++ condFinite [(⟨0, 1, none⟩ : CondEval ℕ)]) = some 1 := hb
          have h4 : (condTell (fun _ => true) mi false s [(⟨0, 1, none⟩ : CondEval ℕ)]).2 = true := by
            rw [htell]; simp only [condWhole]; rw [hb']
          obtain ⟨v, -, e1, -, e3, e4, -, -⟩ := tell_spec (fun _ => true) mi false s [(⟨0, 1, none⟩ : CondEval ℕ)] h4
          have := ih (condTell (fun _ => true) mi false s [(⟨0, 1, none⟩ : CondEval ℕ)]).1
            (by rw [e1, h1]; simp [condFinite]) (by rw [e3, h2]; simp [condFinite]) (by rw [e4, h3]; simp [condFinite])
          refine ⟨?_, ?_⟩
          · simp only [condQuiet, Bool.and_eq_true]; exact ⟨h4, this.1⟩
          · simp only [condHistory]; exact this.2
      have hf : condTell (fun _ => true) mi false (condStart ℕ) [⟨0, 0, some 1⟩] =
          (⟨Function.update (fun _ => []) 0 [(0, 1)], Function.update (fun _ => 0) 0 1, [(0, 1)], 1, 1, [1]⟩, true) := by
        cases mi <;> simp [condTell, subLoop, subFits, subRecord, condStart, condFinite, condWhole, condBest]
      simp only [condQuiet, condHistory, hf, Bool.true_and]
    · exact (key n _ (by simp) rfl rfl).1
    · exact (key n _ (by simp) rfl rfl).2
  · refine ⟨[(true, [⟨0, 0, some 1⟩])], by simp, ?_, ?_⟩
    · cases mi <;> simp [condQuiet, condTell, subLoop, subFits, subRecord, condStart, condFinite, condWhole, condBest]
    · cases mi <;> simp [condHistory, condTell, subLoop, subFits, subRecord, condStart, condFinite, condWhole, condBest]

/-- **C143, exactly when the next call returns**, if the models can be fitted to any data: every failed evaluation must belong to a sub-optimiser that already has a finite
observation. -/
theorem c143_returns_iff {P : Type*} (mi w : Bool) (H : List (Bool × List (CondEval P))) (hq : condQuiet (fun _ => true) mi (condStart P) H = true)
    (es : List (CondEval P)) (hne : es ≠ []) :
    (condTell (fun _ => true) mi w (condHistory (fun _ => true) mi (condStart P) H) es).2 = true ↔
      ∀ (a b : List (CondEval P)) (e : CondEval P), es = a ++ e :: b → e.value = none → ∃ e' ∈ allTold H ++ a, e'.sub = e.sub ∧ e'.value ≠ none := by
  obtain ⟨hd, hs, -⟩ := c143_records_partial (fun _ => true) mi H hq
  set s := condHistory (fun _ => true) mi (condStart P) H with hsdef
  have hmem : ∀ (l : List (CondEval P)) (k : ℕ), condFinite (l.filter (fun e => e.sub = k)) ≠ [] ↔ ∃ e' ∈ l, e'.sub = k ∧ e'.value ≠ none := by
    intro l k
    unfold condFinite
    rw [ne_eq, List.filterMap_eq_nil_iff]
    push Not
    constructor
    · rintro ⟨e, he, h⟩
      obtain ⟨h1, h2⟩ := List.mem_filter.1 he
      refine ⟨e, h1, by simpa using h2, fun hv => h (by simp [hv])⟩
    · rintro ⟨e, h1, h2, h3⟩
      refine ⟨e, List.mem_filter.2 ⟨h1, by simpa using h2⟩, fun hv => h3 (by simpa using hv)⟩
  -- the loop
  have hloop : ∀ (es : List (CondEval P)) (t : CondRecords P) (L : List (CondEval P)),
      (∀ k, t.subData k = condFinite (L.filter (fun e => e.sub = k))) →
      ((subLoop (fun _ => true) t es).2 = true ↔ ∀ (a b : List (CondEval P)) (e : CondEval P), es = a ++ e :: b → e.value = none →
        ∃ e' ∈ L ++ a, e'.sub = e.sub ∧ e'.value ≠ none) := by
    intro es
    induction es with
    | nil => intro t L _; simp [subLoop]
    | cons x es ih =>
      intro t L hL
      have hrec : ∀ k, (subRecord t x).subData k = condFinite ((L ++ [x]).filter (fun e => e.sub = k)) := by
        intro k
        rw [List.filter_append, finite_append, ← hL]
        by_cases hk : x.sub = k
        · subst hk; simp [subRecord]
        · have hk' : k ≠ x.sub := fun h => hk h.symm
          simp [subRecord, Function.update_of_ne hk', hk, condFinite]
      have hfit : subFits (fun _ => true) ((subRecord t x).subData x.sub) = true ↔ (x.value = none → ∃ e' ∈ L, e'.sub = x.sub ∧ e'.value ≠ none) := by
        unfold subFits
        rw [Bool.and_true, Bool.not_eq_true', List.isEmpty_eq_false_iff, hrec, hmem]
        constructor
        · rintro ⟨e', h1, h2, h3⟩ hv
          rcases List.mem_append.1 h1 with h | h
          · exact ⟨e', h, h2, h3⟩
          · rw [List.mem_singleton.1 h] at h3; exact absurd hv h3
        · intro h
          by_cases hv : x.value = none
          · obtain ⟨e', h1, h2⟩ := h hv
            exact ⟨e', List.mem_append_left _ h1, h2⟩
          · exact ⟨x, by simp, rfl, hv⟩
      simp only [subLoop]
      by_cases hf : subFits (fun _ => true) ((subRecord t x).subData x.sub) = true
      · rw [if_pos hf, ih _ _ hrec]
        constructor
        · intro h a b e he hv
          cases a with
          | nil =>
            obtain ⟨rfl, rfl⟩ : x = e ∧ es = b := by simpa using he
            simpa using hfit.1 hf hv
          | cons y a =>
            obtain ⟨rfl, rfl⟩ : x = y ∧ es = a ++ e :: b := by simpa using he
            have := h a b e rfl hv
            simpa using this
        · intro h a b e he hv
          have := h (x :: a) b e (by rw [he]; rfl) hv
          simpa using this
      · rw [if_neg hf]
        constructor
        · intro h; exact absurd h (by simp)
        · intro h
          exfalso
          apply hf
          rw [hfit]
          intro hv
          simpa using h [] es x rfl hv
  rw [← hloop es s (allTold H) (fun k => by rw [hs, finite_eq])]
  simp only [condTell]
  cases hl : (subLoop (fun _ => true) s es).2 with
  | false => simp
  | true =>
    have : es.isEmpty = false := List.isEmpty_eq_false_iff.2 hne
    rw [this]
    simp only [Bool.not_false, Bool.and_true, if_true, iff_true]
    obtain ⟨-, -, h3, -⟩ := loop_spec (fun _ => true) es s hl
    simp only [condWhole]
    rw [h3]
    -- some finite observation exists
    have hex : s.data ++ condFinite es ≠ [] := by
      obtain ⟨x, es', rfl⟩ := List.exists_cons_of_ne_nil hne
      by_cases hv : x.value = none
      · have := (hloop _ s (allTold H) (fun k => by rw [hs, finite_eq])).1 hl [] es' x rfl hv
        obtain ⟨e', h1, -, h2⟩ := this
        rw [hd]
        rw [List.append_nil] at h1
        intro hc
        have hc := (List.append_eq_nil_iff.1 hc).1
        rw [← finite_eq, condFinite, List.filterMap_eq_nil_iff] at hc
        exact h2 (by simpa using hc e' h1)
      · intro hc
        have hc := (List.append_eq_nil_iff.1 hc).2
        rw [condFinite, List.filterMap_eq_nil_iff] at hc
        exact hv (by simpa using hc x (by simp))
    have hb : ∃ v, condBest mi (s.data ++ condFinite es) = some v := by
      have hm : (s.data ++ condFinite es).map Prod.snd ≠ [] := by simpa using hex
      unfold condBest
      split_ifs
      · exact Option.isSome_iff_exists.1 (List.isSome_min?_of_ne_nil hm)
      · exact Option.isSome_iff_exists.1 (List.isSome_max?_of_ne_nil hm)
    obtain ⟨v, hv⟩ := hb
    rw [hv]

/-- **C143, refuted for failures.**  If the first evaluation in the second sub-space fails, the call raises: the good observation of the same batch is known to its sub-optimiser
but is in no record of the whole, nothing is counted; and when the caller hands it over again, the sub-optimiser holds it twice. -/
theorem c143_failure_refuted (mi : Bool) :
    let batch : List (CondEval ℕ) := [⟨0, 10, some 3⟩, ⟨1, 11, none⟩]
    let s := (condTell (fun _ => true) mi false (condStart ℕ) batch)
    s.2 = false ∧ s.1.data = [] ∧ s.1.evalCount = 0 ∧ s.1.subData 0 = [(10, 3)] ∧
      let s' := condTell (fun _ => true) mi false s.1 [⟨0, 10, some 3⟩]
      s'.2 = true ∧ s'.1.data = [(10, 3)] ∧ s'.1.subData 0 = [(10, 3), (10, 3)] := by
  cases mi <;> simp [condTell, subLoop, subFits, subRecord, condStart, condFinite, condWhole, condBest]

/-- **C143, the history of the incumbent**: in a history without exceptions each entry is the best value recorded until then. -/
theorem c143_incumbent {P : Type*} (fit : List (P × ℚ) → Bool) (mi w : Bool) (s : CondRecords P) (es : List (CondEval P)) (h : (condTell fit mi w s es).2 = true) (v : ℚ)
    (hv : (condTell fit mi w s es).1.hist = s.hist ++ [v]) :
    (∃ p, (p, v) ∈ (condTell fit mi w s es).1.data) ∧ ∀ q ∈ (condTell fit mi w s es).1.data, if mi then v ≤ q.2 else q.2 ≤ v := by
  obtain ⟨u, hu, -, -, h3, -, -, h6⟩ := tell_spec fit mi w s es h
  rw [h6] at hv
  have hvu : (if w then [] else [u]) = [v] := List.append_cancel_left hv
  cases w with
  | true => simp at hvu
  | false =>
    obtain rfl : u = v := by simpa using hvu
    rw [h3]
    unfold condBest at hu
    cases mi with
    | true =>
      obtain ⟨h1, h2⟩ := List.min?_eq_some_iff.1 hu
      obtain ⟨p, hp, rfl⟩ := List.mem_map.1 h1
      exact ⟨⟨p.1, hp⟩, fun q hq => h2 q.2 (List.mem_map_of_mem hq)⟩
    | false =>
      obtain ⟨h1, h2⟩ := List.max?_eq_some_iff.1 hu
      obtain ⟨p, hp, rfl⟩ := List.mem_map.1 h1
      exact ⟨⟨p.1, hp⟩, fun q hq => h2 q.2 (List.mem_map_of_mem hq)⟩

example : condQuiet (fun _ => true) true (condStart ℕ) [(false, [⟨0, 10, some 3⟩, ⟨1, 11, some 5⟩]), (false, [⟨1, 12, none⟩])] = true := by
  decide +kernel

end Verif.Props
