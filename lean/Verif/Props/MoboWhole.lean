import Verif.Props.MoboFrame
import Verif.Spec.MoboWhole

/-!
# C185: a whole multi-objective run keeps its budget and returns the Pareto front of what it evaluated
-/
namespace Verif.Props

open Verif.Model Verif.Spec Verif.Proofs

variable {X : Type*} {m : ℕ}

/-- What holds between steps: the records are the evaluated points with their outcomes, and the counter counts them. -/
private structure MoInv (L : MoLearner X m) (s : MoState X m) (log : List X) : Prop where
  count : s.evalCount = log.length * (m + 1)
  points : (s.data.getD []).map Prod.fst = log
  outcomes : ∀ p ∈ s.data.getD [], HasOutcome L p.1 p.2

/-- One turn of the loop that goes on. -/
private def MoTurn (maxFEs : Option ℤ) (L : MoLearner X m) (i : ℕ) (s : MoState X m) (xs : List X) (s' : MoState X m) : Prop :=
  maxFEs.any (fun b => decide (b ≤ (s.evalCount : ℤ))) = false ∧ L.propose i (s.data.map (moView L)) = some xs ∧
    ∃ new, allFinite (xs.map (fun x => (x, L.objectives x))) = some new ∧ s' = (moTell L.single L.minimize s (xs.map (fun x => (x, L.objectives x))) false).1

private theorem allFinite_spec {L : MoLearner X m} {xs : List X} {new : List (X × (Fin (m + 1) → ℝ))} (h : allFinite (xs.map (fun x => (x, L.objectives x))) = some new) :
    new.map Prod.fst = xs ∧ ∀ p ∈ new, HasOutcome L p.1 p.2 := by
  unfold allFinite at h
  split at h
  · next hf =>
    rw [← Option.some.inj h]
    refine ⟨by simp [Function.comp_def], fun p hp k => ?_⟩
    simp only [List.map_map, List.mem_map, Function.comp_apply] at hp
    obtain ⟨x, hx, rfl⟩ := hp
    have := hf (x, L.objectives x) (List.mem_map_of_mem hx) k
    obtain ⟨v, hv⟩ := Option.isSome_iff_exists.mp this
    simp only at hv
    simp [hv]
  · cases h

private theorem allFinite_none {L : MoLearner X m} {xs : List X} (h : allFinite (xs.map (fun x => (x, L.objectives x))) = none) :
    ∃ x ∈ xs, ∃ k, L.objectives x k = none := by
  unfold allFinite at h
  split at h
  · cases h
  · next hf =>
    push Not at hf
    obtain ⟨p, hp, k, hk⟩ := hf
    obtain ⟨x, hx, rfl⟩ := List.mem_map.mp hp
    exact ⟨x, hx, k, by simpa using hk⟩

private theorem inv_turn {maxFEs : Option ℤ} {L : MoLearner X m} {i : ℕ} {s s' : MoState X m} {xs log : List X} (hs : MoInv L s log) (h : MoTurn maxFEs L i s xs s') :
    MoInv L s' (log ++ xs) ∧ s'.evalCount = s.evalCount + xs.length * (m + 1) ∧ s'.data.isSome := by
  obtain ⟨-, -, new, hn, rfl⟩ := h
  obtain ⟨h1, h2⟩ := allFinite_spec hn
  have e : (moTell L.single L.minimize s (xs.map (fun x => (x, L.objectives x))) false).1.data = some (s.data.getD [] ++ new) ∧
      (moTell L.single L.minimize s (xs.map (fun x => (x, L.objectives x))) false).1.evalCount = s.evalCount + xs.length * (m + 1) := by
    unfold moTell
    rw [hn]
    simp
  refine ⟨⟨?_, ?_, ?_⟩, e.2, by rw [e.1]; rfl⟩
  · rw [e.2, hs.count, List.length_append, Nat.add_mul]
  · rw [e.1]
    simp [hs.points, h1]
  · rw [e.1]
    intro p hp
    rcases List.mem_append.mp hp with hp | hp
    · exact hs.outcomes p hp
    · exact h2 p hp

/-- The cases of one turn. -/
private theorem run_cases (maxFEs : Option ℤ) (L : MoLearner X m) (fuel i : ℕ) (s : MoState X m) (log : List X) :
    (maxFEs.any (fun b => decide (b ≤ (s.evalCount : ℤ))) = true ∧ ((s.data = none ∧ moRun maxFEs L (fuel + 1) i s log = ⟨s, log, .raised⟩) ∨
        ∃ d, s.data = some d ∧ moRun maxFEs L (fuel + 1) i s log = ⟨s, log, .stopped (moXopt L.single L.minimize d)⟩)) ∨
      (maxFEs.any (fun b => decide (b ≤ (s.evalCount : ℤ))) = false ∧ L.propose i (s.data.map (moView L)) = none ∧ moRun maxFEs L (fuel + 1) i s log = ⟨s, log, .raised⟩) ∨
      (∃ xs, maxFEs.any (fun b => decide (b ≤ (s.evalCount : ℤ))) = false ∧ L.propose i (s.data.map (moView L)) = some xs ∧ (∃ x ∈ xs, ∃ k, L.objectives x k = none) ∧
        moRun maxFEs L (fuel + 1) i s log = ⟨{ s with evalCount := s.evalCount + xs.length * (m + 1) }, log ++ xs, .raised⟩) ∨
      ∃ xs s', MoTurn maxFEs L i s xs s' ∧ moRun maxFEs L (fuel + 1) i s log = moRun maxFEs L fuel (i + 1) s' (log ++ xs) := by
  rw [moRun]
  by_cases hb : maxFEs.any (fun b => decide (b ≤ (s.evalCount : ℤ))) = true
  · refine Or.inl ⟨hb, ?_⟩
    rw [if_pos hb]
    cases hd : s.data with
    | none => exact Or.inl ⟨rfl, rfl⟩
    | some d => exact Or.inr ⟨d, rfl, rfl⟩
  · rw [if_neg hb]
    have hb' : maxFEs.any (fun b => decide (b ≤ (s.evalCount : ℤ))) = false := by simpa using hb
    refine Or.inr ?_
    cases hp : L.propose i (s.data.map (moView L)) with
    | none => exact Or.inl ⟨hb', rfl, rfl⟩
    | some xs =>
      refine Or.inr ?_
      cases hn : allFinite (xs.map (fun x => (x, L.objectives x))) with
      | none =>
        refine Or.inl ⟨xs, hb', rfl, allFinite_none hn, ?_⟩
        simp [moTell, hn]
      | some new =>
        refine Or.inr ⟨xs, _, ⟨hb', hp, new, hn, rfl⟩, ?_⟩
        have : (moTell L.single L.minimize s (xs.map (fun x => (x, L.objectives x))) false).2 = true := by
          simp [moTell, hn]
        rcases ht : moTell L.single L.minimize s (xs.map (fun x => (x, L.objectives x))) false with ⟨s', b⟩
        rw [ht] at this
        simp only at this
        subst this
        simp only [ht]

private theorem start_inv (L : MoLearner X m) : MoInv L ({} : MoState X m) [] := ⟨by simp, rfl, fun p hp => by simp at hp⟩

/-- **C185**: every evaluation counts: after a whole run, however it ends, `eval_count` is the number of evaluated points times the number of objectives. -/
theorem c185_count (maxFEs : Option ℤ) (L : MoLearner X m) (fuel : ℕ) :
    (moRun maxFEs L fuel 0 {} []).opt.evalCount = (moRun maxFEs L fuel 0 {} []).log.length * (m + 1) := by
  have key : ∀ (fuel i : ℕ) (s : MoState X m) (log : List X), MoInv L s log →
      (moRun maxFEs L fuel i s log).opt.evalCount = (moRun maxFEs L fuel i s log).log.length * (m + 1) := by
    intro fuel
    induction fuel with
    | zero => intro i s log hs; exact hs.count
    | succ fuel ih =>
      intro i s log hs
      rcases run_cases maxFEs L fuel i s log with ⟨-, ⟨-, h⟩ | ⟨d, -, h⟩⟩ | ⟨-, -, h⟩ | ⟨xs, -, -, -, h⟩ | ⟨xs, s', ht, h⟩
      · rw [h]; exact hs.count
      · rw [h]; exact hs.count
      · rw [h]; exact hs.count
      · rw [h]
        simp only [hs.count, List.length_append, Nat.add_mul]
      · rw [h]; exact ih _ _ _ (inv_turn hs ht).1
  exact key fuel 0 {} [] (start_inv L)

/-- **C185**: the budget is exceeded by less than one batch: before the last batch it was not used up. -/
theorem c185_budget (b : ℤ) (L : MoLearner X m) (q : ℕ) (hq : BatchAtMost L q) (fuel : ℕ) :
    (((moRun (some b) L fuel 0 {} []).opt.evalCount : ℕ) : ℤ) ≤ max 0 (b - 1 + q * (m + 1)) := by
  have key : ∀ (fuel i : ℕ) (s : MoState X m) (log : List X), ((s.evalCount : ℕ) : ℤ) ≤ max 0 (b - 1 + q * (m + 1)) →
      (((moRun (some b) L fuel i s log).opt.evalCount : ℕ) : ℤ) ≤ max 0 (b - 1 + q * (m + 1)) := by
    intro fuel
    induction fuel with
    | zero => intro i s log hs; exact hs
    | succ fuel ih =>
      intro i s log hs
      have hstep : ∀ xs : List X, (some b).any (fun b => decide (b ≤ (s.evalCount : ℤ))) = false → L.propose i (s.data.map (moView L)) = some xs →
          (((s.evalCount + xs.length * (m + 1) : ℕ)) : ℤ) ≤ max 0 (b - 1 + q * (m + 1)) := by
        intro xs hb hp
        simp only [Option.any_some, decide_eq_false_iff_not, not_le] at hb
        have h1 := Nat.mul_le_mul_right (m + 1) (hq _ _ _ hp)
        have h2 : ((xs.length * (m + 1) : ℕ) : ℤ) ≤ ((q * (m + 1) : ℕ) : ℤ) := by exact_mod_cast h1
        push_cast at h2 ⊢
        exact le_max_of_le_right (by linarith)
      rcases run_cases (some b) L fuel i s log with ⟨-, ⟨-, h⟩ | ⟨d, -, h⟩⟩ | ⟨-, -, h⟩ | ⟨xs, hb, hp, -, h⟩ | ⟨xs, s', ht, h⟩
      · rw [h]; exact hs
      · rw [h]; exact hs
      · rw [h]; exact hs
      · rw [h]; exact hstep xs hb hp
      · rw [h]
        refine ih _ _ _ ?_
        obtain ⟨hb, hp, new, hn, rfl⟩ := ht
        have e : (moTell L.single L.minimize s (xs.map (fun x => (x, L.objectives x))) false).1.evalCount = s.evalCount + xs.length * (m + 1) := by
          unfold moTell
          rw [hn]
          simp
        rw [e]
        exact hstep xs hb hp
  exact key fuel 0 {} [] (by simp)

/-- What a run that returns has recorded. -/
private theorem stopped_records {maxFEs : Option ℤ} {L : MoLearner X m} {fuel : ℕ} {front : List (X × (Fin (m + 1) → ℝ))}
    (h : (moRun maxFEs L fuel 0 {} []).ending = .stopped front) :
    (∃ b, maxFEs = some b ∧ b ≤ ((moRun maxFEs L fuel 0 {} []).opt.evalCount : ℤ)) ∧ ∃ d : List (X × (Fin (m + 1) → ℝ)), front = moXopt L.single L.minimize d ∧
      d.map Prod.fst = (moRun maxFEs L fuel 0 {} []).log ∧ (∀ p ∈ d, HasOutcome L p.1 p.2) ∧
      ∀ v, v ∈ d.map Prod.snd ↔ ∃ x ∈ (moRun maxFEs L fuel 0 {} []).log, HasOutcome L x v := by
  have key : ∀ (fuel i : ℕ) (s : MoState X m) (log : List X), MoInv L s log → (moRun maxFEs L fuel i s log).ending = .stopped front →
      MoInv L (moRun maxFEs L fuel i s log).opt (moRun maxFEs L fuel i s log).log ∧
        maxFEs.any (fun b => decide (b ≤ ((moRun maxFEs L fuel i s log).opt.evalCount : ℤ))) = true ∧
        ∃ d, (moRun maxFEs L fuel i s log).opt.data = some d ∧ front = moXopt L.single L.minimize d := by
    intro fuel
    induction fuel with
    | zero => intro i s log _ h; simp [moRun] at h
    | succ fuel ih =>
      intro i s log hs h
      rcases run_cases maxFEs L fuel i s log with ⟨hb, ⟨-, e⟩ | ⟨d, hd, e⟩⟩ | ⟨-, -, e⟩ | ⟨xs, -, -, -, e⟩ | ⟨xs, s', ht, e⟩
      · rw [e] at h; cases h
      · rw [e] at h ⊢
        simp only [MoEnd.stopped.injEq] at h
        exact ⟨hs, hb, d, hd, h.symm⟩
      · rw [e] at h; cases h
      · rw [e] at h; cases h
      · rw [e] at h ⊢
        exact ih _ _ _ (inv_turn hs ht).1 h
  obtain ⟨hi, hb, d, hd, rfl⟩ := key fuel 0 {} [] (start_inv L) h
  generalize moRun maxFEs L fuel 0 {} [] = o at *
  have hp : d.map Prod.fst = o.log := by simpa [hd] using hi.points
  have ho : ∀ p ∈ d, HasOutcome L p.1 p.2 := by simpa [hd] using hi.outcomes
  refine ⟨?_, d, rfl, hp, ho, fun v => ⟨fun hv => ?_, ?_⟩⟩
  · cases maxFEs with
    | none => simp at hb
    | some b => exact ⟨b, rfl, by simpa using hb⟩
  · obtain ⟨p, hpd, rfl⟩ := List.mem_map.mp hv
    exact ⟨p.1, by rw [← hp]; exact List.mem_map_of_mem hpd, ho p hpd⟩
  · rintro ⟨x, hx, hv⟩
    rw [← hp] at hx
    obtain ⟨p, hpd, rfl⟩ := List.mem_map.mp hx
    have : v = p.2 := funext fun k => Option.some.inj ((hv k).symm.trans (ho p hpd k))
    rw [this]
    exact List.mem_map_of_mem hpd

/-- **C185**: a run that returns has used up its budget, all objectives were finite, and what it returns are points that were evaluated, with their outcomes. -/
theorem c185_returned (maxFEs : Option ℤ) (L : MoLearner X m) (fuel : ℕ) (front : List (X × (Fin (m + 1) → ℝ)))
    (h : (moRun maxFEs L fuel 0 {} []).ending = .stopped front) :
    (∃ b, maxFEs = some b ∧ b ≤ ((moRun maxFEs L fuel 0 {} []).opt.evalCount : ℤ)) ∧
      (∀ x ∈ (moRun maxFEs L fuel 0 {} []).log, ∃ v, HasOutcome L x v) ∧
      ∀ p ∈ front, p.1 ∈ (moRun maxFEs L fuel 0 {} []).log ∧ HasOutcome L p.1 p.2 := by
  obtain ⟨hb, d, rfl, hp, ho, hmem⟩ := stopped_records h
  refine ⟨hb, fun x hx => ?_, fun p hpf => ?_⟩
  · rw [← hp] at hx
    obtain ⟨p, hpd, rfl⟩ := List.mem_map.mp hx
    exact ⟨p.2, ho p hpd⟩
  · obtain ⟨i, hi, -⟩ := (mem_compress_iff d _ p).mp hpf
    have hpd := List.mem_of_getElem? hi
    exact ⟨by rw [← hp]; exact List.mem_map_of_mem hpd, ho p hpd⟩

/-- **C185**: a run that returns gives the Pareto front of everything it evaluated, each efficient outcome once, provided rounding to single precision keeps values apart. -/
theorem c185_front_exact (maxFEs : Option ℤ) (L : MoLearner X m) (hsingle : StrictMono L.single) (fuel : ℕ) (front : List (X × (Fin (m + 1) → ℝ)))
    (h : (moRun maxFEs L fuel 0 {} []).ending = .stopped front) :
    (front.map Prod.snd).Nodup ∧ ∀ v, v ∈ front.map Prod.snd ↔ ParetoOutcome L (moRun maxFEs L fuel 0 {} []).log v := by
  obtain ⟨-, d, rfl, -, -, hmem⟩ := stopped_records h
  refine ⟨mo_front_nodup hsingle _ _, fun v => ?_⟩
  rw [mo_front_mem hsingle, hmem]
  unfold ParetoOutcome
  refine and_congr_right fun _ => ⟨fun h y hy w hw => h w ((hmem w).mpr ⟨y, hy, hw⟩), fun h w hw => ?_⟩
  obtain ⟨y, hy, hyw⟩ := (hmem w).mp hw
  exact h y hy w hyw

/-! ### The front up to rounding -/

private theorem range_nonneg {F : List (Fin (m + 1) → ℝ)} {v : Fin (m + 1) → ℝ} (hv : v ∈ F) (k : Fin (m + 1)) :
    0 ≤ v k - colMin F k ∧ v k - colMin F k ≤ colMax F k - colMin F k :=
  ⟨sub_nonneg.mpr (colMin_le F k hv), by linarith [le_colMax F k hv]⟩

private theorem scaleRange_pos (r : ℝ) : 0 < scaleRange r := by
  unfold scaleRange
  split_ifs with h
  · exact one_pos
  · exact lt_of_lt_of_le (by norm_num) (not_lt.mp h)

private theorem scaled_unit {minimize : Fin (m + 1) → Bool} {F : List (Fin (m + 1) → ℝ)} {v : Fin (m + 1) → ℝ} (hv : v ∈ F) (k : Fin (m + 1)) : |moRow minimize F v k| ≤ 1 := by
  obtain ⟨h0, h1⟩ := range_nonneg hv k
  have hpos := scaleRange_pos (colMax F k - colMin F k)
  have hs : |minMaxScale F v k| ≤ 1 := by
    unfold minMaxScale
    rw [abs_of_nonneg (div_nonneg h0 hpos.le), div_le_one hpos]
    unfold scaleRange
    split_ifs with h
    · exact le_trans h1 (le_trans h.le (by norm_num))
    · exact h1
  unfold moRow flipSign
  rw [abs_mul]
  split_ifs <;> simpa using hs

/-- Scaled values that are worse by at most `2ε` come from values that are worse by little. -/
private theorem little_worse {minimize : Fin (m + 1) → Bool} {F : List (Fin (m + 1) → ℝ)} {u v : Fin (m + 1) → ℝ} (hu : u ∈ F) (hv : v ∈ F) (k : Fin (m + 1)) {ε S : ℝ} (hε : 0 ≤ ε)
    (hS : colMax F k - colMin F k ≤ S) (h : moRow minimize F v k - 2 * ε ≤ moRow minimize F u k) :
    WorseAtMost (minimize k) (max (2 * ε * S) (10 / 2 ^ 52)) (u k) (v k) := by
  obtain ⟨hu0, hu1⟩ := range_nonneg hu k
  obtain ⟨hv0, hv1⟩ := range_nonneg hv k
  have hpos := scaleRange_pos (colMax F k - colMin F k)
  have hm1 := le_max_left (2 * ε * S) (10 / 2 ^ 52)
  have hm2 := le_max_right (2 * ε * S) (10 / 2 ^ 52)
  generalize max (2 * ε * S) (10 / 2 ^ 52) = T at *
  by_cases htiny : colMax F k - colMin F k < 10 / 2 ^ 52
  · unfold WorseAtMost
    split_ifs <;> linarith
  · have hsr : scaleRange (colMax F k - colMin F k) = colMax F k - colMin F k := if_neg htiny
    unfold moRow minMaxScale flipSign at h
    rw [hsr] at h hpos
    generalize hr : colMax F k - colMin F k = r at *
    have hεr : 2 * ε * r ≤ 2 * ε * S := mul_le_mul_of_nonneg_left hS (by linarith)
    unfold WorseAtMost
    have eu := div_mul_cancel₀ (u k - colMin F k) hpos.ne'
    have ev := div_mul_cancel₀ (v k - colMin F k) hpos.ne'
    split_ifs at h ⊢ with hk
    · have := mul_le_mul_of_nonneg_right h hpos.le
      linarith
    · have := mul_le_mul_of_nonneg_right h hpos.le
      linarith

/-- A value that is better by much gives a scaled value that is better by more than `2ε`. -/
private theorem much_better {minimize : Fin (m + 1) → Bool} {F : List (Fin (m + 1) → ℝ)} {u v : Fin (m + 1) → ℝ} (hu : u ∈ F) (hv : v ∈ F) (k : Fin (m + 1)) {ε S : ℝ} (hε : 0 ≤ ε)
    (hS : colMax F k - colMin F k ≤ S) (h : BetterByMore (minimize k) (max (2 * ε * S) (10 / 2 ^ 52)) (u k) (v k)) :
    moRow minimize F v k + 2 * ε < moRow minimize F u k := by
  obtain ⟨hu0, hu1⟩ := range_nonneg hu k
  obtain ⟨hv0, hv1⟩ := range_nonneg hv k
  have hpos := scaleRange_pos (colMax F k - colMin F k)
  have hm1 := le_max_left (2 * ε * S) (10 / 2 ^ 52)
  have hm2 := le_max_right (2 * ε * S) (10 / 2 ^ 52)
  generalize max (2 * ε * S) (10 / 2 ^ 52) = T at *
  by_cases htiny : colMax F k - colMin F k < 10 / 2 ^ 52
  · exfalso
    unfold BetterByMore at h
    split_ifs at h <;> linarith
  · have hsr : scaleRange (colMax F k - colMin F k) = colMax F k - colMin F k := if_neg htiny
    unfold moRow minMaxScale flipSign
    rw [hsr] at hpos ⊢
    generalize hr : colMax F k - colMin F k = r at *
    have hεr : 2 * ε * r ≤ 2 * ε * S := mul_le_mul_of_nonneg_left hS (by linarith)
    unfold BetterByMore at h
    have eu := div_mul_cancel₀ (u k - colMin F k) hpos.ne'
    have ev := div_mul_cancel₀ (v k - colMin F k) hpos.ne'
    split_ifs at h ⊢ with hk
    · refine lt_of_mul_lt_mul_right ?_ hpos.le
      linarith
    · refine lt_of_mul_lt_mul_right ?_ hpos.le
      linarith

/-- **C185**: with any rounding that changes numbers between -1 and 1 by at most `ε` (for single precision `2⁻²⁴`), what a run returns is the Pareto front of everything it evaluated
up to `2ε` of the spread of each objective: every evaluated outcome is matched or beaten by a returned one up to this tolerance, and no evaluated outcome beats a returned one in all objectives
by more. -/
theorem c185_front_rounded (maxFEs : Option ℤ) (L : MoLearner X m) (ε : ℝ) (hsingle : ∀ x, |x| ≤ 1 → |L.single x - x| ≤ ε) (fuel : ℕ) (front : List (X × (Fin (m + 1) → ℝ)))
    (h : (moRun maxFEs L fuel 0 {} []).ending = .stopped front) (S : Fin (m + 1) → ℝ) (hS : ∀ k, SpreadAtMost L (moRun maxFEs L fuel 0 {} []).log k (S k)) :
    (∀ x ∈ (moRun maxFEs L fuel 0 {} []).log, ∀ v, HasOutcome L x v → ∃ p ∈ front, ∀ k, WorseAtMost (L.minimize k) (max (2 * ε * S k) (10 / 2 ^ 52)) (p.2 k) (v k)) ∧
      ∀ p ∈ front, ∀ x ∈ (moRun maxFEs L fuel 0 {} []).log, ∀ v, HasOutcome L x v →
        ¬ ∀ k, BetterByMore (L.minimize k) (max (2 * ε * S k) (10 / 2 ^ 52)) (v k) (p.2 k) := by
  obtain ⟨-, d, rfl, -, ho, hmem⟩ := stopped_records h
  generalize moRun maxFEs L fuel 0 {} [] = o at *
  have hε : 0 ≤ ε := le_trans (abs_nonneg _) (hsingle 0 (by simp))
  set F := d.map Prod.snd with hF
  have hrange : ∀ v ∈ F, ∀ k, colMax F k - colMin F k ≤ S k := by
    intro v hv k
    have hne : F ≠ [] := List.ne_nil_of_mem hv
    obtain ⟨a, ha, e1⟩ := colMax_mem hne k
    obtain ⟨b, hb, e2⟩ := colMin_mem hne k
    obtain ⟨x, hx, hxa⟩ := (hmem a).mp ha
    obtain ⟨y, hy, hyb⟩ := (hmem b).mp hb
    rw [← e1, ← e2]
    exact hS k x hx y hy a b hxa hyb
  set Y := (moY L.minimize F).map (fun r k => L.single (r k)) with hY
  have hYget : ∀ i : ℕ, Y[i]? = d[i]?.map (fun p => fun k => L.single (moRow L.minimize F p.2 k)) := by
    intro i
    simp [hY, moY, hF, Function.comp_def]
  have hmask := (c02_is_non_dominated_dedup Y).2
  have hround : ∀ v ∈ F, ∀ k, |L.single (moRow L.minimize F v k) - moRow L.minimize F v k| ≤ ε := fun v hv k => hsingle _ (scaled_unit hv k)
  constructor
  · intro x hx v hv
    have hvF : v ∈ F := (hmem v).mpr ⟨x, hx, hv⟩
    obtain ⟨p0, hp0, hp0v⟩ := List.mem_map.mp hvF
    have hy : (fun k => L.single (moRow L.minimize F v k)) ∈ Y := by
      rw [hY, List.mem_map]
      exact ⟨moRow L.minimize F v, List.mem_map_of_mem hvF, rfl⟩
    have hfin : {q | q ∈ Y ∧ ∀ k, L.single (moRow L.minimize F v k) ≤ q k}.Finite := (List.finite_toSet Y).subset (fun q hq => hq.1)
    obtain ⟨q, hq⟩ := hfin.exists_maximal ⟨_, hy, fun k => le_rfl⟩
    -- the first position that holds `q`
    obtain ⟨i, hi, hfirst⟩ : ∃ i : ℕ, Y[i]? = some q ∧ ∀ j < i, Y[j]? ≠ some q := by
      have hex : ∃ i : ℕ, Y[i]? = some q := List.mem_iff_getElem?.mp hq.prop.1
      classical
      exact ⟨Nat.find hex, Nat.find_spec hex, fun j hj => Nat.find_min hex hj⟩
    have hnd : NonDominatedMaxAt Y i := by
      refine ⟨q, hi, fun q' hq' hdom => ?_⟩
      obtain ⟨h1, k, hk⟩ := hdom
      have := hq.le_of_ge (y := q') ⟨hq', fun k => le_trans (hq.prop.2 k) (h1 k)⟩ h1
      exact absurd (this k) (not_le.2 hk)
    have hlt : i < Y.length := (List.getElem?_eq_some_iff.mp hi).1
    have hbit := (hmask i).mpr ⟨hnd, hlt, fun j hj => by rw [hi]; exact hfirst j hj⟩
    rw [hYget] at hi
    obtain ⟨p, hpd, hpq⟩ := Option.map_eq_some_iff.mp hi
    have hpF : p.2 ∈ F := List.mem_map_of_mem (List.mem_of_getElem? hpd)
    refine ⟨p, (mem_compress_iff d _ p).mpr ⟨i, hpd, hbit⟩, fun k => little_worse hpF hvF k hε (hrange v hvF k) ?_⟩
    have h1 := hq.prop.2 k
    rw [← hpq] at h1
    have h2 := abs_le.mp (hround v hvF k)
    have h3 := abs_le.mp (hround p.2 hpF k)
    linarith [h2.1, h2.2, h3.1, h3.2]
  · intro p hpf x hx v hv hall
    have hvF : v ∈ F := (hmem v).mpr ⟨x, hx, hv⟩
    obtain ⟨i, hpd, hbit⟩ := (mem_compress_iff d _ p).mp hpf
    have hpF : p.2 ∈ F := List.mem_map_of_mem (List.mem_of_getElem? hpd)
    obtain ⟨⟨q, hq, hnd⟩, -⟩ := (hmask i).mp hbit
    have hqe : (fun k => L.single (moRow L.minimize F p.2 k)) = q := by
      rw [hYget, hpd] at hq
      exact Option.some.inj hq
    have hlt : ∀ k, q k < L.single (moRow L.minimize F v k) := by
      intro k
      have h1 := much_better hvF hpF k hε (hrange v hvF k) (hall k)
      have h2 := abs_le.mp (hround v hvF k)
      have h3 := abs_le.mp (hround p.2 hpF k)
      rw [← hqe]
      simp only
      linarith [h2.1, h2.2, h3.1, h3.2]
    refine hnd (fun k => L.single (moRow L.minimize F v k)) ?_ ⟨fun k => (hlt k).le, 0, hlt 0⟩
    rw [hY, List.mem_map]
    exact ⟨moRow L.minimize F v, List.mem_map_of_mem hvF, rfl⟩

/-- **C185**: with a budget, the run ends. -/
theorem c185_ends (b : ℤ) (L : MoLearner X m) (hL : ProposesSome L) (fuel : ℕ) (hf : b.toNat < fuel) :
    (∃ front, (moRun (some b) L fuel 0 {} []).ending = .stopped front) ∨ (moRun (some b) L fuel 0 {} []).ending = .raised := by
  have key : ∀ (fuel i : ℕ) (s : MoState X m) (log : List X), b.toNat < fuel + s.evalCount → 0 < fuel →
      (∃ front, (moRun (some b) L fuel i s log).ending = .stopped front) ∨ (moRun (some b) L fuel i s log).ending = .raised := by
    intro fuel
    induction fuel with
    | zero => intro i s log _ h; omega
    | succ fuel ih =>
      intro i s log hs _
      rcases run_cases (some b) L fuel i s log with ⟨hb, ⟨-, e⟩ | ⟨d, hd, e⟩⟩ | ⟨-, -, e⟩ | ⟨xs, -, -, -, e⟩ | ⟨xs, s', ht, e⟩
      · rw [e]; exact Or.inr rfl
      · rw [e]; exact Or.inl ⟨_, rfl⟩
      · rw [e]; exact Or.inr rfl
      · rw [e]; exact Or.inr rfl
      · rw [e]
        obtain ⟨hb, hp, new, hn, rfl⟩ := ht
        have e : (moTell L.single L.minimize s (xs.map (fun x => (x, L.objectives x))) false).1.evalCount = s.evalCount + xs.length * (m + 1) := by
          unfold moTell
          rw [hn]
          simp
        have hx : 0 < xs.length := List.length_pos_iff.mpr fun hx => hL i (s.data.map (moView L)) (by rw [hp, hx])
        have hpos : 1 ≤ xs.length * (m + 1) := Nat.mul_pos hx (Nat.succ_pos m)
        simp only [Option.any_some, decide_eq_false_iff_not, not_le] at hb
        refine ih _ _ _ (by rw [e]; omega) ?_
        by_contra h0
        have : fuel = 0 := by omega
        subst this
        omega
  exact key fuel 0 {} [] (by simpa using hf) (by omega)

/-- **C185**: the run raises only if no points can be proposed, an objective has no finite value at an evaluated point, or nothing was to be evaluated at all. -/
theorem c185_raises (maxFEs : Option ℤ) (L : MoLearner X m) (fuel : ℕ) (h : (moRun maxFEs L fuel 0 {} []).ending = .raised) :
    (∃ i v, L.propose i v = none) ∨ (∃ x ∈ (moRun maxFEs L fuel 0 {} []).log, ∃ k, L.objectives x k = none) ∨ ∃ b, maxFEs = some b ∧ b ≤ 0 := by
  have key : ∀ (fuel i : ℕ) (s : MoState X m) (log : List X), (s.data = none → s.evalCount = 0) → (moRun maxFEs L fuel i s log).ending = .raised →
      (∃ i v, L.propose i v = none) ∨ (∃ x ∈ (moRun maxFEs L fuel i s log).log, ∃ k, L.objectives x k = none) ∨ ∃ b, maxFEs = some b ∧ b ≤ 0 := by
    intro fuel
    induction fuel with
    | zero => intro i s log _ h; simp [moRun] at h
    | succ fuel ih =>
      intro i s log hs h
      rcases run_cases maxFEs L fuel i s log with ⟨hb, ⟨hd, e⟩ | ⟨d, hd, e⟩⟩ | ⟨-, hp, e⟩ | ⟨xs, -, -, ⟨x, hx, hk⟩, e⟩ | ⟨xs, s', ht, e⟩
      · rw [hs hd] at hb
        cases maxFEs with
        | none => simp at hb
        | some b => exact Or.inr (Or.inr ⟨b, rfl, by simpa using hb⟩)
      · rw [e] at h; cases h
      · exact Or.inl ⟨_, _, hp⟩
      · rw [e]
        exact Or.inr (Or.inl ⟨x, List.mem_append_right _ hx, hk⟩)
      · rw [e] at h ⊢
        refine ih _ _ _ (fun hd => ?_) h
        obtain ⟨-, -, new, hn, rfl⟩ := ht
        simp [moTell, hn] at hd
  exact key fuel 0 {} [] (fun _ => rfl) h

/-! ### Non-vacuity -/

/-- Points 0, 1, 2, … in turn, two at a time, with the objectives `x` and `-x²`, both minimised. -/
private noncomputable def parabola : MoLearner ℕ 1 where
  propose := fun i _ => some [2 * i, 2 * i + 1]
  objectives := fun x => ![some (x : ℝ), some (-(x : ℝ) ^ 2)]
  minimize := fun _ => true
  single := id

/-- A run with a budget of seven evaluates four points and returns a front; its hypotheses are met. -/
theorem c185_concrete : StrictMono parabola.single ∧ BatchAtMost parabola 2 ∧ ProposesSome parabola ∧
    (moRun (some 7) parabola 8 0 {} []).log = [0, 1, 2, 3] ∧ ∃ front, (moRun (some 7) parabola 8 0 {} []).ending = .stopped front ∧
      ∀ v, v ∈ front.map Prod.snd ↔ ParetoOutcome parabola [0, 1, 2, 3] v := by
  have hs : StrictMono parabola.single := strictMono_id
  have hfin : ∀ i : ℕ, ∃ new, allFinite [(2 * i, parabola.objectives (2 * i)), (2 * i + 1, parabola.objectives (2 * i + 1))] = some new := by
    intro i
    unfold allFinite
    rw [if_pos]
    · exact ⟨_, rfl⟩
    · intro p hp k
      simp only [List.mem_cons, List.not_mem_nil, or_false] at hp
      rcases hp with rfl | rfl <;> fin_cases k <;> rfl
  have hp : ∀ i v, parabola.propose i v = some [2 * i, 2 * i + 1] := fun _ _ => rfl
  obtain ⟨n0, h0⟩ := hfin 0
  obtain ⟨n1, h1⟩ := hfin 1
  have hrun : (moRun (some 7) parabola 8 0 {} []).log = [0, 1, 2, 3] ∧ ∃ front, (moRun (some 7) parabola 8 0 {} []).ending = .stopped front := by
    norm_num at h0 h1
    simp [moRun, moTell, hp, h0, h1]
  obtain ⟨hlog, front, hf⟩ := hrun
  refine ⟨hs, fun i v xs h => ?_, fun i v h => ?_, hlog, front, hf, ?_⟩
  · rw [hp] at h
    rw [← Option.some.inj h]
    rfl
  · rw [hp] at h
    cases h
  · have := (c185_front_exact (some 7) parabola hs 8 front hf).2
    rwa [hlog] at this

end Verif.Props
