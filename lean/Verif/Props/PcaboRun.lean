import Verif.Spec.PcaboRun
import Verif.Props.PcaboTell

/-!
# C189: a whole run of PCA-BO
-/
namespace Verif.Props

open Verif.Model Verif.Spec Verif.Proofs

variable {P : Type*}

/-- The calls of `tell` made in a run. -/
private def MadeBy (W : PcaWorld P) (q : ℕ) (calls : List (PcaCall P)) : Prop :=
  ∀ (i : ℕ) (a : PcaCall P), calls[i]? = some a → a.X ≠ [] ∧ a.X.length ≤ q ∧ a.vals = a.X.map W.objective

private theorem wellFormed_of {W : PcaWorld P} {q : ℕ} {calls : List (PcaCall P)} (h : MadeBy W q calls) {a : PcaCall P} (ha : a ∈ calls) : PcaWellFormed a := by
  obtain ⟨i, hi⟩ := List.mem_iff_getElem?.mp ha
  obtain ⟨h1, -, h3⟩ := h i a hi
  exact ⟨h1, by rw [h3, List.length_map]⟩

private theorem made_snoc {W : PcaWorld P} {q : ℕ} {calls : List (PcaCall P)} (h : MadeBy W q calls) {i : ℕ} {X : List P} (h1 : X ≠ []) (h2 : X.length ≤ q) :
    MadeBy W q (calls ++ [pcaCallOf W i X]) := by
  intro j a hj
  rcases lt_or_ge j calls.length with hl | hl
  · rw [List.getElem?_append_left hl] at hj
    exact h j a hj
  · rw [List.getElem?_append_right hl] at hj
    obtain rfl : pcaCallOf W i X = a := by
      rcases Nat.eq_zero_or_pos (j - calls.length) with h0 | h0
      · rw [h0] at hj; simpa using hj
      · rw [List.getElem?_eq_none (by simp; omega)] at hj
        exact nomatch hj
    exact ⟨h1, h2, rfl⟩

private theorem counted {W : PcaWorld P} {q : ℕ} {calls : List (PcaCall P)} (h : MadeBy W q calls) :
    (pcaHistory W.minimize false calls).evalCount = (objectiveCalls calls).length ∧ (pcaHistory W.minimize false calls).iterCount = calls.length := by
  classical
  obtain ⟨h1, h2⟩ := c139_counts W.minimize calls
  have hf : calls.filter (fun a => decide (PcaWellFormed a)) = calls := List.filter_eq_self.mpr fun a ha => by simpa using wellFormed_of h ha
  refine ⟨?_, ?_⟩
  · rw [h1]
    have : (List.map (fun a => a.X.length) (calls.filter (fun a => decide (PcaWellFormed a)))) = calls.map (fun a => a.X.length) := by rw [hf]
    simp only [objectiveCalls, List.length_flatMap]
    convert congrArg List.sum this
  · rw [h2]
    convert congrArg List.length hf

private theorem finite_map (W : PcaWorld P) (X : List P) : finitePart (X.zip (X.map W.objective)) = finiteValues W X := by
  induction X with
  | nil => rfl
  | cons x X ih =>
    simp only [List.map_cons, List.zip_cons_cons, finiteValues] at ih ⊢
    cases ho : W.objective x <;> simp [finitePart, ho, ih]

private theorem told_eq {W : PcaWorld P} {q : ℕ} {calls : List (PcaCall P)} (h : MadeBy W q calls) : pcaTold calls = finiteValues W (objectiveCalls calls) := by
  have key : ∀ l : List (PcaCall P), (∀ a ∈ l, PcaWellFormed a ∧ a.vals = a.X.map W.objective) → pcaTold l = finiteValues W (objectiveCalls l) := by
    intro l hl
    induction l with
    | nil => rfl
    | cons a l ih =>
      obtain ⟨h1, h2⟩ := hl a (by simp)
      have ih := ih fun b hb => hl b (by simp [hb])
      have e1 : pcaTold (a :: l) = finitePart (a.X.zip a.vals) ++ pcaTold l := by simp [pcaTold, h1]
      have e2 : finiteValues W (objectiveCalls (a :: l)) = finiteValues W a.X ++ finiteValues W (objectiveCalls l) := by
        simp [objectiveCalls, finiteValues, List.filterMap_append]
      rw [e1, e2, ih, h2, finite_map]
  refine key calls fun a ha => ⟨wellFormed_of h ha, ?_⟩
  obtain ⟨i, hi⟩ := List.mem_iff_getElem?.mp ha
  exact (h i a hi).2.2

/-- What holds at the end of a run started after `calls`. -/
private theorem run_inv {W : PcaWorld P} {q : ℕ} (hq : AsksBetween W q) (fuel : ℕ) : ∀ (calls : List (PcaCall P)) (s : PcaState P),
    s = pcaHistory W.minimize false calls → MadeBy W q calls → s.evalCount < W.maxFEs + q →
    let r := pcaRun W fuel calls s
    r.1 = pcaHistory W.minimize false r.2.1 ∧ MadeBy W q r.2.1 ∧ r.1.evalCount < W.maxFEs + q ∧
      (r.2.2 = .running → r.2.1.length = calls.length + fuel) ∧
      (∀ b, r.2.2 = .returned b → pcaStop W r.1 = true ∧ pcaXopt W.minimize r.1 = some b) ∧
      (r.2.2 = .raised → (pcaStop W r.1 = true ∧ pcaXopt W.minimize r.1 = none) ∨ W.propose r.2.1.length r.1 = none ∨
        ∃ l a, r.2.1 = l ++ [a] ∧ a.fitOk = W.fit l.length ∧ (pcaTell W.minimize false (pcaHistory W.minimize false l) a).2 ≠ .ok ()) := by
  induction fuel with
  | zero =>
    intro calls s h1 h2 h3
    exact ⟨h1, h2, h3, fun _ => rfl, fun b h => (nomatch h), fun h => (nomatch h)⟩
  | succ fuel ih =>
    intro calls s h1 h2 h3
    unfold pcaRun
    by_cases hc : pcaStop W s = true
    · simp only [hc, ↓reduceIte]
      cases hx : pcaXopt W.minimize s with
      | none => exact ⟨h1, h2, h3, fun h => (nomatch h), fun b h => (nomatch h), fun _ => Or.inl ⟨hc, hx⟩⟩
      | some r =>
        refine ⟨h1, h2, h3, fun h => (nomatch h), fun b h => ?_, fun h => (nomatch h)⟩
        obtain rfl : r = b := by simpa using h
        exact ⟨hc, hx⟩
    · simp only [hc, Bool.false_eq_true, ↓reduceIte]
      have hlt : s.evalCount < W.maxFEs := by
        simp only [pcaStop, Bool.or_eq_true, decide_eq_true_eq, not_or] at hc
        omega
      cases hX : W.propose calls.length s with
      | none => exact ⟨h1, h2, h3, fun h => (nomatch h), fun b h => (nomatch h), fun _ => Or.inr (Or.inl hX)⟩
      | some X =>
        obtain ⟨x1, x2⟩ := hq _ _ _ hX
        have hm := made_snoc h2 (i := calls.length) x1 x2
        have hs : (pcaTell W.minimize false s (pcaCallOf W calls.length X)).1 = pcaHistory W.minimize false (calls ++ [pcaCallOf W calls.length X]) := by
          rw [h1]
          simp [pcaHistory]
        have hcnt : (pcaTell W.minimize false s (pcaCallOf W calls.length X)).1.evalCount < W.maxFEs + q := by
          have a1 := (counted hm).1
          have a2 := (counted h2).1
          rw [hs, a1]
          rw [h1, a2] at hlt
          simp only [objectiveCalls, List.flatMap_append, List.length_append, List.flatMap_cons, List.flatMap_nil, List.append_nil] at hlt ⊢
          have : (pcaCallOf W calls.length X).X.length ≤ q := x2
          omega
        simp only
        rcases ht : pcaTell W.minimize false s (pcaCallOf W calls.length X) with ⟨s', r⟩
        rw [ht] at hs hcnt
        cases r with
        | error e =>
          refine ⟨hs, hm, hcnt, fun h => (nomatch h), fun b h => (nomatch h), fun _ => Or.inr (Or.inr ⟨calls, _, rfl, rfl, ?_⟩)⟩
          rw [← h1, ht]
          exact fun h => (nomatch h)
        | ok u =>
          obtain ⟨r1, r2, r3, r4, r5, r6⟩ := ih _ s' hs hm hcnt
          refine ⟨r1, r2, r3, fun h => ?_, r5, r6⟩
          rw [r4 h]
          simp only [List.length_append, List.length_cons, List.length_nil]
          omega

private theorem run_start {W : PcaWorld P} {q : ℕ} (h0 : 0 < q) :
    MadeBy W q [] ∧ ({} : PcaState P).evalCount < W.maxFEs + q :=
  ⟨fun _ _ h => (nomatch h), Nat.lt_of_lt_of_le h0 (Nat.le_add_left q W.maxFEs)⟩

/-- **C189, records and counts**: however the run ends, also with an exception, the data are the finite values of the objective at the points it was called for, in order, and the
counters hold the calls of the objective and of `tell`. -/
theorem c189_records (W : PcaWorld P) (q : ℕ) (hq : AsksBetween W q) (h0 : 0 < q) (fuel : ℕ) :
    let r := pcaRun W fuel [] {}
    (r.1.data.getD []).map (fun a => (a.x, a.f)) = finiteValues W (objectiveCalls r.2.1) ∧ r.1.evalCount = (objectiveCalls r.2.1).length ∧ r.1.iterCount = r.2.1.length := by
  obtain ⟨h1, h2⟩ := run_start (W := W) h0
  obtain ⟨r1, r2, -⟩ := run_inv hq fuel [] {} rfl h1 h2
  obtain ⟨c1, c2⟩ := counted r2
  refine ⟨?_, ?_, ?_⟩
  · rw [← told_eq r2, r1]
    exact (c139_data _ _).1
  · rw [r1]; exact c1
  · rw [r1]; exact c2

/-- **C189, budget**: the objective is called less than one batch more often than allowed, whatever fails or raises. -/
theorem c189_budget (W : PcaWorld P) (q : ℕ) (hq : AsksBetween W q) (h0 : 0 < q) (fuel : ℕ) : (objectiveCalls (pcaRun W fuel [] {}).2.1).length < W.maxFEs + q := by
  obtain ⟨h1, h2⟩ := run_start (W := W) h0
  obtain ⟨-, -, r3, -⟩ := run_inv hq fuel [] {} rfl h1 h2
  rw [← (c189_records W q hq h0 fuel).2.1]
  exact r3

/-- **C189, end**: the run ends within as many steps as evaluations are allowed, also when evaluations fail. -/
theorem c189_ends (W : PcaWorld P) (q : ℕ) (hq : AsksBetween W q) (h0 : 0 < q) (fuel : ℕ) (hf : W.maxFEs + q ≤ fuel) : (pcaRun W fuel [] {}).2.2 ≠ .running := by
  intro h
  obtain ⟨h1, h2⟩ := run_start (W := W) h0
  obtain ⟨-, r2, -, r4, -⟩ := run_inv hq fuel [] {} rfl h1 h2
  have h3 := r4 h
  have h4 := c189_budget W q hq h0 fuel
  have h5 : (pcaRun W fuel [] {}).2.1.length ≤ (objectiveCalls (pcaRun W fuel [] {}).2.1).length := by
    have key : ∀ l : List (PcaCall P), (∀ a ∈ l, a.X ≠ []) → l.length ≤ (objectiveCalls l).length := by
      intro l hl
      induction l with
      | nil => simp
      | cons a l ih =>
        have e : objectiveCalls (a :: l) = a.X ++ objectiveCalls l := by simp [objectiveCalls]
        have := List.length_pos_iff.mpr (hl a (by simp))
        have := ih fun b hb => hl b (by simp [hb])
        rw [e, List.length_append, List.length_cons]
        omega
    exact key _ fun a ha => (wellFormed_of r2 ha).1
  simp only [List.length_nil, Nat.zero_add] at h3
  omega

/-- **C189, result**: a run that returns, returns a point at which the objective was called, with its value, and no call gave a better value; it returns because the budget is used up or
because the value is below the target (also when maximising, see C16). -/
theorem c189_returned (W : PcaWorld P) (q : ℕ) (hq : AsksBetween W q) (h0 : 0 < q) (fuel : ℕ) (b : Rec P ℝ) (h : (pcaRun W fuel [] {}).2.2 = .returned b) :
    let calls := objectiveCalls (pcaRun W fuel [] {}).2.1
    b.x ∈ calls ∧ W.objective b.x = .fin b.f ∧ (∀ x ∈ calls, ∀ v, W.objective x = .fin v → if W.minimize then b.f ≤ v else v ≤ b.f) ∧
      (W.maxFEs ≤ calls.length ∨ ∃ t, W.ftarget = some t ∧ b.f < t) := by
  obtain ⟨h1, h2⟩ := run_start (W := W) h0
  obtain ⟨r1, r2, -, -, r5, -⟩ := run_inv hq fuel [] {} rfl h1 h2
  obtain ⟨hc, hx⟩ := r5 b h
  have hne : pcaTold (pcaRun W fuel [] {}).2.1 ≠ [] := by
    intro he
    have hd := (c139_data W.minimize (pcaRun W fuel [] {}).2.1).1
    rw [he, List.map_eq_nil_iff] at hd
    rw [r1] at hx
    unfold pcaXopt at hx
    cases hdd : (pcaHistory W.minimize false (pcaRun W fuel [] {}).2.1).data with
    | none => rw [hdd] at hx; exact nomatch hx
    | some d =>
      rw [hdd] at hx hd
      simp only [Option.getD_some] at hd
      subst hd
      cases hm : W.minimize <;> simp [incumbent, getBest, hm] at hx
  obtain ⟨b', i, hb', hi, hbest, -⟩ := c139_incumbent W.minimize _ hne
  rw [← r1, hx] at hb'
  obtain rfl : b = b' := by simpa using hb'
  have hmem : ∀ p : P × ℝ, p ∈ pcaTold (pcaRun W fuel [] {}).2.1 ↔ p.1 ∈ objectiveCalls (pcaRun W fuel [] {}).2.1 ∧ W.objective p.1 = .fin p.2 := by
    intro p
    rw [told_eq r2, finiteValues, List.mem_filterMap]
    constructor
    · rintro ⟨x, hx, he⟩
      cases ho : W.objective x with
      | fin v =>
        rw [ho] at he
        obtain rfl : (x, v) = p := by simpa using he
        exact ⟨hx, ho⟩
      | _ => rw [ho] at he; exact nomatch he
    · rintro ⟨hx, ho⟩
      exact ⟨p.1, hx, by rw [ho]⟩
  obtain ⟨m1, m2⟩ := (hmem (b.x, b.f)).mp (List.mem_of_getElem? hi)
  refine ⟨m1, m2, fun x hx v hv => hbest.2 v (List.mem_map.mpr ⟨(x, v), (hmem (x, v)).mpr ⟨hx, hv⟩, rfl⟩), ?_⟩
  rw [← (c189_records W q hq h0 fuel).2.1]
  simp only [pcaStop, Bool.or_eq_true, decide_eq_true_eq] at hc
  rcases hc with hc | hc
  · exact Or.inl hc
  · rw [hx] at hc
    cases ht : W.ftarget with
    | none => rw [ht] at hc; exact absurd hc (by simp)
    | some t =>
      rw [ht] at hc
      refine Or.inr ⟨t, rfl, ?_⟩
      simp only [Model.compare] at hc
      split_ifs at hc <;> simpa using hc

/-- **C189, exceptions**: a run raises only if `ask` raises, the numerical fit fails, the budget is zero, or fewer than two evaluations have succeeded when the first batch is told. -/
theorem c189_raises (W : PcaWorld P) (q : ℕ) (hq : AsksBetween W q) (h0 : 0 < q) (fuel : ℕ) (h : (pcaRun W fuel [] {}).2.2 = .raised) :
    let r := pcaRun W fuel [] {}
    W.propose r.2.1.length r.1 = none ∨ (∃ i, W.fit i = false) ∨ (W.maxFEs = 0) ∨ (r.2.1 ≠ [] ∧ (finiteValues W (objectiveCalls r.2.1)).length < 2) := by
  obtain ⟨h1, h2⟩ := run_start (W := W) h0
  obtain ⟨r1, r2, -, -, -, r6⟩ := run_inv hq fuel [] {} rfl h1 h2
  rcases r6 h with ⟨hc, hx⟩ | hp | ⟨l, a, hl, hfit, hne⟩
  · refine Or.inr (Or.inr ?_)
    by_cases hcalls : (pcaRun W fuel [] {}).2.1 = []
    · left
      have hz := (c189_records W q hq h0 fuel).2.1
      simp only [pcaStop, hx, Bool.or_eq_true, decide_eq_true_eq] at hc
      rw [hcalls] at hz
      simp only [objectiveCalls, List.flatMap_nil, List.length_nil] at hz
      rcases hc with hc | hc
      · omega
      · cases ht : W.ftarget <;> rw [ht] at hc <;> exact absurd hc (by simp)
    · right
      refine ⟨hcalls, ?_⟩
      by_contra hlt
      have hne : pcaTold (pcaRun W fuel [] {}).2.1 ≠ [] := by
        rw [told_eq r2]
        intro he
        rw [he] at hlt
        simp at hlt
      obtain ⟨b', i, hb', -⟩ := c139_incumbent W.minimize _ hne
      rw [← r1, hx] at hb'
      exact nomatch hb'
  · exact Or.inl hp
  · have hret := c139_returns_iff W.minimize l a
    by_cases hf : W.fit l.length = false
    · exact Or.inr (Or.inl ⟨_, hf⟩)
    · refine Or.inr (Or.inr (Or.inr ⟨by rw [hl]; simp, ?_⟩))
      rw [← told_eq r2, hl]
      by_contra hlt
      have hw : PcaWellFormed a := wellFormed_of r2 (by rw [hl]; simp)
      exact hne (hret.mpr ⟨hw, by omega, by rw [hfit]; simpa using hf⟩)

/-- **C189 refuted**: with an initial design of one point, which the constructor accepts, every run with a budget raises in its first step. -/
theorem c189_single_point_refuted (W : PcaWorld P) (x : P) (hx : W.propose 0 {} = some [x]) (hb : 0 < W.maxFEs) (fuel : ℕ) : (pcaRun W (fuel + 1) [] {}).2.2 = .raised := by
  have hs : pcaStop W ({} : PcaState P) = false := by
    have : pcaXopt W.minimize ({} : PcaState P) = none := rfl
    simp only [pcaStop, this]
    cases W.ftarget <;> simp [hb.ne']
  have hret := c139_returns_iff W.minimize ([] : List (PcaCall P)) (pcaCallOf W 0 [x])
  have hno : ¬ (pcaTell W.minimize false ({} : PcaState P) (pcaCallOf W 0 [x])).2 = .ok () := by
    intro hok
    obtain ⟨hw, h2, -⟩ := hret.mp hok
    have : pcaTold ([] ++ [pcaCallOf W 0 [x]]) = finitePart ([x].zip ([x].map W.objective)) := by
      have hw' : PcaWellFormed (pcaCallOf W 0 [x]) := hw
      simp [pcaTold, hw']
      rfl
    rw [this, finite_map] at h2
    unfold finiteValues at h2
    exact absurd h2 (not_le.mpr (Nat.lt_of_le_of_lt (List.length_filterMap_le _ _) (by simp)))
  unfold pcaRun
  simp only [hs, Bool.false_eq_true, ↓reduceIte, List.length_nil, hx]
  rcases ht : pcaTell W.minimize false ({} : PcaState P) (pcaCallOf W 0 [x]) with ⟨s', r⟩
  rw [ht] at hno
  cases r with
  | error e => rfl
  | ok u => exact absurd rfl hno

/-- A world for non-vacuity: pairs of whole numbers are proposed; every third evaluation fails. -/
private noncomputable def sample189 : PcaWorld ℕ where
  maxFEs := 4
  ftarget := none
  minimize := true
  propose := fun i _ => some [2 * i, 2 * i + 1]
  objective := fun p => if p % 3 = 2 then .nan else .fin p
  fit := fun _ => true

/-- Non-vacuity: the run returns (it neither raises nor goes on), in spite of the failed evaluation. -/
theorem c189_concrete : AsksBetween sample189 2 ∧ ∃ b, (pcaRun sample189 6 [] {}).2.2 = .returned b := by
  have hq : AsksBetween sample189 2 := by
    intro i s X h
    obtain rfl : [2 * i, 2 * i + 1] = X := by simpa [sample189] using h
    simp
  refine ⟨hq, ?_⟩
  have h1 := c189_ends sample189 2 hq (by norm_num) 6 (by simp [sample189])
  have h2 := c189_raises sample189 2 hq (by norm_num) 6
  cases hr : (pcaRun sample189 6 [] {}).2.2 with
  | running => exact absurd hr h1
  | returned b => exact ⟨b, rfl⟩
  | raised =>
    exfalso
    rcases h2 hr with h | ⟨i, h⟩ | h | ⟨hne, h⟩
    · simp [sample189] at h
    · simp [sample189] at h
    · simp [sample189] at h
    · have hm : ∀ fuel (calls : List (PcaCall ℕ)) (s : PcaState ℕ), ∃ l, (pcaRun sample189 fuel calls s).2.1 = calls ++ l := by
        intro fuel
        induction fuel with
        | zero => intro calls s; exact ⟨[], by simp [pcaRun]⟩
        | succ fuel ih =>
          intro calls s
          unfold pcaRun
          split_ifs
          · cases pcaXopt sample189.minimize s <;> exact ⟨[], by simp⟩
          · cases sample189.propose calls.length s with
            | none => exact ⟨[], by simp⟩
            | some X =>
              simp only
              rcases pcaTell sample189.minimize false s (pcaCallOf sample189 calls.length X) with ⟨s', r⟩
              cases r with
              | error e => exact ⟨_, rfl⟩
              | ok u =>
                obtain ⟨l, hl⟩ := ih (calls ++ [pcaCallOf sample189 calls.length X]) s'
                exact ⟨pcaCallOf sample189 calls.length X :: l, by rw [hl]; simp⟩
      have hs : pcaStop sample189 ({} : PcaState ℕ) = false := by simp [pcaStop, sample189]
      have hfirst : ∃ l, (pcaRun sample189 6 [] {}).2.1 = [pcaCallOf sample189 0 [0, 1]] ++ l := by
        unfold pcaRun
        have hp : sample189.propose ([] : List (PcaCall ℕ)).length {} = some [0, 1] := by simp [sample189]
        simp only [hs, Bool.false_eq_true, ↓reduceIte, hp]
        rcases pcaTell sample189.minimize false ({} : PcaState ℕ) (pcaCallOf sample189 ([] : List (PcaCall ℕ)).length [0, 1]) with ⟨s', r⟩
        cases r with
        | error e => exact ⟨[], by simp⟩
        | ok u => exact hm 5 _ s'
      obtain ⟨l, hl⟩ := hfirst
      rw [hl] at h
      have e : finiteValues sample189 (objectiveCalls ([pcaCallOf sample189 0 [0, 1]] ++ l)) = (0, 0) :: (1, 1) :: finiteValues sample189 (objectiveCalls l) := by
        simp [objectiveCalls, finiteValues, pcaCallOf, sample189]
      rw [e] at h
      simp at h

end Verif.Props
