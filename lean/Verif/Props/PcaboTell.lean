import Verif.Model.PcaboTell
import Verif.Spec.Optimizer
import Verif.Proofs.Optimizer
import Verif.Proofs.Pcabo

/-!
# C139: PCA-BO records what it is told
-/
namespace Verif.Props

open Verif.Model Verif.Spec Verif.Proofs

variable {P : Type*}

/-- The call has at least one point and as many values as points. -/
def PcaWellFormed (a : PcaCall P) : Prop := a.X ≠ [] ∧ a.vals.length = a.X.length

open Classical in
/-- What the calls should have recorded, oldest first. -/
noncomputable def pcaTold (calls : List (PcaCall P)) : List (P × ℝ) :=
  calls.flatMap (fun a => if PcaWellFormed a then finitePart (a.X.zip a.vals) else [])

private def rows (s : PcaState P) : List (Rec P ℝ) := s.data.getD []

private theorem kept_pairs : ∀ (l : List (P × Obs ℝ)) (ls : List String), ls.length = l.length →
    (pcaKept (l.zip ls)).map (fun r => (r.x, r.f)) = finitePart l ∧ ∀ r ∈ pcaKept (l.zip ls), r.nEval = 1 := by
  intro l
  induction l with
  | nil => intro ls _; simp [pcaKept, finitePart]
  | cons p l ih =>
    intro ls hls
    cases ls with
    | nil => simp at hls
    | cons s ls =>
      obtain ⟨h1, h2⟩ := ih ls (by simpa using hls)
      obtain ⟨x, o⟩ := p
      cases o <;> simp [pcaKept, finitePart, h1]
      all_goals first | exact h2 | skip

private theorem malformed_step (m : Bool) (s : PcaState P) (a : PcaCall P) (h : ¬ PcaWellFormed a) :
    (pcaTell m false s a).1 = s ∧ (pcaTell m false s a).2 ≠ .ok () := by
  unfold pcaTell
  by_cases h1 : a.vals.length < a.X.length
  · simp [h1]
  · rw [if_neg h1, if_neg (by simp)]
    by_cases h2 : a.X.isEmpty = true
    · simp [h2]
    · rw [if_neg h2]
      by_cases h3 : a.vals.length ≠ a.X.length
      · simp [h3]
      · exact absurd ⟨by simpa using h2, not_not.1 h3⟩ h

private theorem wellFormed_step (m : Bool) (s : PcaState P) (a : PcaCall P) (h : PcaWellFormed a) :
    let k := pcaKept ((a.X.zip a.vals).zip (pcaLabels (rows s).length a.X.length))
    rows (pcaTell m false s a).1 = rows s ++ k ∧ (pcaTell m false s a).1.evalCount = s.evalCount + a.X.length ∧
    (pcaTell m false s a).1.iterCount = s.iterCount + 1 ∧ (pcaTell m false s a).1.histF = s.histF ∧
    ((pcaTell m false s a).2 = .ok () ↔ 2 ≤ (rows s ++ k).length ∧ a.fitOk = true) := by
  intro k
  have hc : pcaCount s = (rows s).length := by
    unfold pcaCount rows
    cases s.data <;> rfl
  have e : pcaTell m false s a = (match pcaExtend s k with
    | none => ({ s with iterCount := s.iterCount + 1, evalCount := s.evalCount + a.X.length }, .error .noRows)
    | some d => ({ s with iterCount := s.iterCount + 1, evalCount := s.evalCount + a.X.length, data := some d }, pcaRefit m a.fitOk d)) := by
    unfold pcaTell
    rw [if_neg (by have := h.2; omega), if_neg (by simp), if_neg (by simpa using h.1), if_neg (not_not.2 h.2), hc]
    rfl
  have hrefit : ∀ d : List (Rec P ℝ), pcaRefit m a.fitOk d = .ok () ↔ 2 ≤ d.length ∧ a.fitOk = true := by
    intro d
    unfold pcaRefit
    match d with
    | [] => simp
    | [r] =>
      have : (rawWeights m ([r].map (fun r => r.f))).sum = 0 := by
        cases m <;> simp [rawWeights, signedValues, avgRank]
      simp only [this, if_true]
      simp
    | r :: r' :: d =>
      have := (rawWeights_sum_pos m (ys := (r :: r' :: d).map (fun r => r.f)) (by simp)).ne'
      rw [if_neg (by simp), if_neg this]
      cases a.fitOk <;> simp
  cases hx : pcaExtend s k with
  | none =>
    rw [e, hx]
    unfold pcaExtend at hx
    cases hd : s.data with
    | none => rw [hd] at hx; simp at hx
    | some d =>
      rw [hd] at hx
      simp only at hx
      split_ifs at hx with hem
      have hem' : d ++ k = [] := by simpa using hem
      have hk := List.append_eq_nil_iff.1 hem'
      simp [rows, hd, hk.1, hk.2]
  | some d =>
    rw [e, hx]
    have hdk : d = rows s ++ k := by
      unfold pcaExtend at hx
      cases hd : s.data with
      | none => rw [hd] at hx; simp at hx; simp [rows, hd, hx]
      | some d0 =>
        rw [hd] at hx
        simp only at hx
        split_ifs at hx
        simp [rows, hd, ← Option.some.inj hx]
    refine ⟨by rw [← hdk]; rfl, rfl, rfl, rfl, ?_⟩
    rw [← hdk]
    exact hrefit d

private theorem labels_length (k n : ℕ) : (pcaLabels k n).length = n := by simp [pcaLabels]

private theorem history_snoc (m d : Bool) (calls : List (PcaCall P)) (a : PcaCall P) :
    pcaHistory m d (calls ++ [a]) = (pcaTell m d (pcaHistory m d calls) a).1 := by simp [pcaHistory]

private theorem told_snoc (calls : List (PcaCall P)) (a : PcaCall P) :
    pcaTold (calls ++ [a]) = pcaTold calls ++ (open Classical in if PcaWellFormed a then finitePart (a.X.zip a.vals) else []) := by
  simp [pcaTold]

private theorem zip_len {a : PcaCall P} (h : PcaWellFormed a) : (a.X.zip a.vals).length = a.X.length := by
  rw [List.length_zip, h.2, min_self]

private theorem kept_call (k : ℕ) {a : PcaCall P} (h : PcaWellFormed a) :
    (pcaKept ((a.X.zip a.vals).zip (pcaLabels k a.X.length))).map (fun r => (r.x, r.f)) = finitePart (a.X.zip a.vals) ∧
    ∀ r ∈ pcaKept ((a.X.zip a.vals).zip (pcaLabels k a.X.length)), r.nEval = 1 :=
  kept_pairs _ _ (by rw [labels_length, zip_len h])

/-- **C139, the data.**  After every sequence of calls, failed ones included, the data are the finite observations of the well-formed calls, in order, each with
one evaluation. -/
theorem c139_data (m : Bool) (calls : List (PcaCall P)) :
    ((pcaHistory m false calls).data.getD []).map (fun r => (r.x, r.f)) = pcaTold calls ∧
    ∀ r ∈ (pcaHistory m false calls).data.getD [], r.nEval = 1 := by
  induction calls using List.reverseRecOn with
  | nil => simp [pcaHistory, pcaTold]
  | append_singleton calls a ih =>
    rw [history_snoc, told_snoc]
    by_cases h : PcaWellFormed a
    · obtain ⟨h1, -⟩ := wellFormed_step m (pcaHistory m false calls) a h
      obtain ⟨k1, k2⟩ := kept_call (rows (pcaHistory m false calls)).length h
      change (rows _).map _ = _ ∧ ∀ r ∈ rows _, r.nEval = 1
      rw [h1, if_pos h, List.map_append, k1]
      refine ⟨by rw [← ih.1]; rfl, fun r hr => ?_⟩
      rcases List.mem_append.1 hr with hr | hr
      · exact ih.2 r hr
      · exact k2 r hr
    · rw [(malformed_step m _ a h).1, if_neg h, List.append_nil]
      exact ih

open Classical in
/-- **C139, the counters.**  `eval_count` is the number of points of the well-formed calls and `iter_count` their number, whether or not they raised in the end. -/
theorem c139_counts (m : Bool) (calls : List (PcaCall P)) :
    (pcaHistory m false calls).evalCount = ((calls.filter (fun a => decide (PcaWellFormed a))).map (fun a => a.X.length)).sum ∧
    (pcaHistory m false calls).iterCount = (calls.filter (fun a => decide (PcaWellFormed a))).length := by
  induction calls using List.reverseRecOn with
  | nil => simp [pcaHistory]
  | append_singleton calls a ih =>
    rw [history_snoc, List.filter_append]
    by_cases h : PcaWellFormed a
    · obtain ⟨-, h2, h3, -⟩ := wellFormed_step m (pcaHistory m false calls) a h
      rw [h2, h3, ih.1, ih.2]
      simp [h]
    · rw [(malformed_step m _ a h).1, ih.1, ih.2]
      simp [h]

/-- **C139, when a call returns.**  After any history a call returns normally iff it is well-formed, at least two finite observations have been told altogether, and the
numerical fit succeeds.  In particular the first call raises if it brings a single finite observation, which is recorded nevertheless. -/
theorem c139_returns_iff (m : Bool) (calls : List (PcaCall P)) (a : PcaCall P) :
    (pcaTell m false (pcaHistory m false calls) a).2 = .ok () ↔ PcaWellFormed a ∧ 2 ≤ (pcaTold (calls ++ [a])).length ∧ a.fitOk = true := by
  by_cases h : PcaWellFormed a
  · obtain ⟨-, -, -, -, h5⟩ := wellFormed_step m (pcaHistory m false calls) a h
    rw [h5, told_snoc, if_pos h]
    have e1 := (c139_data m calls).1
    have e2 := (kept_call (rows (pcaHistory m false calls)).length h).1
    have l1 : (rows (pcaHistory m false calls)).length = (pcaTold calls).length := by rw [← e1]; simp [rows]
    have l2 : (pcaKept ((a.X.zip a.vals).zip (pcaLabels (rows (pcaHistory m false calls)).length a.X.length))).length = (finitePart (a.X.zip a.vals)).length := by
      rw [← e2]; simp
    rw [List.length_append, List.length_append, l2, l1]
    simp [h]
  · simp only [h, false_and, iff_false]
    exact (malformed_step m _ a h).2

/-- **C139, the incumbent** is the best of everything recorded, the earliest if there are several. -/
theorem c139_incumbent (m : Bool) (calls : List (PcaCall P)) (hne : pcaTold calls ≠ []) :
    ∃ (r : Rec P ℝ) (i : ℕ), pcaXopt m (pcaHistory m false calls) = some r ∧ (pcaTold calls)[i]? = some (r.x, r.f) ∧
      IsBestOf m r.f ((pcaTold calls).map Prod.snd) ∧ ∀ (j : ℕ) (q : P × ℝ), j < i → (pcaTold calls)[j]? = some q → q.2 ≠ r.f := by
  have hp := (c139_data m calls).1
  cases hd : (pcaHistory m false calls).data with
  | none => rw [hd] at hp; simp at hp; exact absurd hp hne
  | some d =>
    have hpd : d.map (fun r => (r.x, r.f)) = pcaTold calls := by rw [hd] at hp; simpa using hp
    have hdne : d ≠ [] := by
      rintro rfl
      exact hne hpd.symm
    obtain ⟨r, hr⟩ := incumbent_isSome m hdne
    obtain ⟨hb, i, hi, hmin⟩ := incumbent_spec hr
    refine ⟨r, i, ?_, ?_, ?_, ?_⟩
    · simp [pcaXopt, hd, hr]
    · rw [← hpd, List.getElem?_map, hi]; rfl
    · rw [← hpd]; simpa [Function.comp_def] using hb
    · intro j q hj hq
      rw [← hpd, List.getElem?_map, Option.map_eq_some_iff] at hq
      obtain ⟨r', hr', rfl⟩ := hq
      exact hmin j r' hj hr'

private theorem kept_labels : ∀ (l : List (P × Obs ℝ)) (ls : List String), ls.length = l.length → (∀ p ∈ l, ∃ v, p.2 = .fin v) →
    (pcaKept (l.zip ls)).map (fun r => r.index) = ls := by
  intro l
  induction l with
  | nil => intro ls hls _; simp at hls; simp [pcaKept, hls]
  | cons p l ih =>
    intro ls hls hfin
    cases ls with
    | nil => simp at hls
    | cons s ls =>
      obtain ⟨v, hv⟩ := hfin p (by simp)
      obtain ⟨x, o⟩ := p
      simp only at hv
      subst hv
      simp only [List.zip_cons_cons, pcaKept, List.map_cons, List.cons.injEq, true_and]
      exact ih ls (by simpa using hls) (fun p hp => hfin p (by simp [hp]))

private theorem range_shift (k n : ℕ) : (List.range (k + n)).map toString = (List.range k).map toString ++ pcaLabels k n := by
  rw [List.range_add, List.map_append, List.map_map, pcaLabels]
  congr 1
  apply List.map_congr_left
  intro i _
  simp [Nat.add_comm]

/-- **C139, labels, the part that holds.**  As long as every value told is finite, the labels are the numbers of the rows, so all of them are different. -/
theorem c139_labels_partial (m : Bool) (calls : List (PcaCall P)) (hfin : ∀ a ∈ calls, ∀ o ∈ a.vals, ∃ v, o = Obs.fin v) :
    ((pcaHistory m false calls).data.getD []).map (fun r => r.index) =
      (List.range ((pcaHistory m false calls).data.getD []).length).map toString := by
  induction calls using List.reverseRecOn with
  | nil => simp [pcaHistory]
  | append_singleton calls a ih =>
    have ih := ih (fun a ha => hfin a (by simp [ha]))
    rw [history_snoc]
    by_cases h : PcaWellFormed a
    · obtain ⟨h1, -⟩ := wellFormed_step m (pcaHistory m false calls) a h
      change (rows _).map _ = (List.range (rows _).length).map toString
      have hk := kept_labels (a.X.zip a.vals) (pcaLabels (rows (pcaHistory m false calls)).length a.X.length)
        (by rw [labels_length, zip_len h]) (fun p hp => hfin a (by simp) p.2 (List.of_mem_zip hp).2)
      have hl : (pcaKept ((a.X.zip a.vals).zip (pcaLabels (rows (pcaHistory m false calls)).length a.X.length))).length = a.X.length := by
        rw [← List.length_map (f := fun r => r.index), hk, labels_length]
      rw [h1, List.length_append, hl, range_shift, List.map_append, hk]
      congr 1
    · rw [(malformed_step m _ a h).1]
      exact ih

/-- **C139, labels, refuted.**  A failed evaluation makes a later point carry the label of an earlier one. -/
theorem c139_labels_refuted : ∃ calls : List (PcaCall ℕ),
    ((pcaHistory true false calls).data.getD []).map (fun r => (r.x, r.index)) = [(11, "1"), (12, "2"), (13, "2")] := by
  refine ⟨[⟨[10, 11, 12], [.nan, .fin 1, .fin 2], true⟩, ⟨[13], [.fin 3], true⟩], ?_⟩
  have w1 : PcaWellFormed (⟨[10, 11, 12], [.nan, .fin 1, .fin 2], true⟩ : PcaCall ℕ) := ⟨by simp, rfl⟩
  have w2 : PcaWellFormed (⟨[13], [.fin 3], true⟩ : PcaCall ℕ) := ⟨by simp, rfl⟩
  have s1 := (wellFormed_step true ({} : PcaState ℕ) _ w1).1
  have s2 := (wellFormed_step true (pcaTell true false ({} : PcaState ℕ) ⟨[10, 11, 12], [.nan, .fin 1, .fin 2], true⟩).1 _ w2).1
  change (rows (pcaTell true false (pcaTell true false ({} : PcaState ℕ) ⟨[10, 11, 12], [.nan, .fin 1, .fin 2], true⟩).1 ⟨[13], [.fin 3], true⟩).1).map _ = _
  rw [s2, s1]
  simp [rows, pcaLabels, pcaKept, List.range_succ]
  decide

/-- **C139, the convergence history, refuted.**  `hist_f` stays empty for ever. -/
theorem c139_history_refuted (m : Bool) (calls : List (PcaCall P)) : (pcaHistory m false calls).histF = [] := by
  induction calls using List.reverseRecOn with
  | nil => rfl
  | append_singleton calls a ih =>
    rw [history_snoc]
    by_cases h : PcaWellFormed a
    · rw [(wellFormed_step m (pcaHistory m false calls) a h).2.2.2.1, ih]
    · rw [(malformed_step m _ a h).1, ih]

/-- **C139, dictionaries, refuted.**  With `eval_type="dict"` no call of `tell` ever returns and nothing is recorded. -/
theorem c139_dict_refuted (m : Bool) (calls : List (PcaCall P)) :
    (pcaHistory m true calls).data = none ∧ ∀ a, (pcaTell m true (pcaHistory m true calls) a).2 ≠ .ok () := by
  have step : ∀ (s : PcaState P) (a : PcaCall P), (pcaTell m true s a).1 = s ∧ (pcaTell m true s a).2 ≠ .ok () := by
    intro s a
    unfold pcaTell
    split_ifs <;> simp_all
  constructor
  · induction calls using List.reverseRecOn with
    | nil => rfl
    | append_singleton calls a ih => rw [history_snoc, (step _ a).1, ih]
  · exact fun a => (step _ a).2

/-- **C139, warm data, refuted.**  The constructor raises for all data that are not empty. -/
theorem c139_warm_refuted {α : Type*} (l : List α) (h : l ≠ []) : pcaWarm (some l) = .error .warmKeyword := by
  simp [pcaWarm, h]

/-- Three calls, one malformed, one with a failed evaluation: three observations are recorded and the last call returns. -/
example : pcaTold [(⟨[10, 11], [.fin 1, .nan], true⟩ : PcaCall ℕ), ⟨[1], [], true⟩, ⟨[12, 13], [.fin 2, .fin 0], true⟩] = [(10, 1), (12, 2), (13, 0)] := by
  have h1 : PcaWellFormed (⟨[10, 11], [.fin 1, .nan], true⟩ : PcaCall ℕ) := ⟨by simp, rfl⟩
  have h2 : ¬ PcaWellFormed (⟨[1], [], true⟩ : PcaCall ℕ) := by rintro ⟨-, h⟩; simp at h
  have h3 : PcaWellFormed (⟨[12, 13], [.fin 2, .fin 0], true⟩ : PcaCall ℕ) := ⟨by simp, rfl⟩
  simp [pcaTold, h1, h2, h3, finitePart]

end Verif.Props
