import Verif.Spec.MiesFull
import Verif.Props.MiesStrength
import Mathlib.Data.Int.ModEq

/-! # C175: when the evolution strategy ends -/
namespace Verif.Props
open Verif.Model Verif.Spec Verif.Proofs

variable {cfg : MiesCfg ℝ} {sample : List Row} {noise : ℕ → ℕ → StrengthNoise}

/-! ### The history as a ring buffer -/

/-- The slot of generation `g` in a history of length `n`; `c` is `mu / lam`. -/
private def slotZ (c n : ℕ) (g : ℤ) : ℕ := (((c : ℤ) + g - 1) % n).toNat

private theorem slotZ_lt {c n : ℕ} (hn : 0 < n) (g : ℤ) : slotZ c n g < n := by
  unfold slotZ
  have h1 := Int.emod_lt_of_pos ((c : ℤ) + g - 1) (show (0 : ℤ) < n by omega)
  omega

private theorem slotZ_inj {c n : ℕ} (hn : 0 < n) {g g' : ℤ} (h : slotZ c n g = slotZ c n g') (h1 : g ≤ g') (h2 : g' < g + n) : g = g' := by
  unfold slotZ at h
  have e1 := Int.emod_nonneg ((c : ℤ) + g - 1) (show (n : ℤ) ≠ 0 by omega)
  have e2 := Int.emod_nonneg ((c : ℤ) + g' - 1) (show (n : ℤ) ≠ 0 by omega)
  have h3 : (c : ℤ) + g - 1 ≡ (c : ℤ) + g' - 1 [ZMOD n] := by
    unfold Int.ModEq
    omega
  have h4 := Int.modEq_iff_dvd.1 h3
  have h5 : (c : ℤ) + g' - 1 - (c + g - 1) = g' - g := by ring
  rw [h5] at h4
  have := Int.eq_zero_of_dvd_of_nonneg_of_lt (by omega) (by omega) h4
  omega

private theorem slotZ_surj {c n : ℕ} (hn : 0 < n) (t : ℤ) {i : ℕ} (hi : i < n) : ∃ a < n, slotZ c n (t - (a : ℕ)) = i := by
  let f : Fin n → Fin n := fun a => ⟨slotZ c n (t - (a : ℕ)), slotZ_lt hn _⟩
  have hf : Function.Injective f := by
    intro a b hab
    have h1 : slotZ c n (t - (a : ℕ)) = slotZ c n (t - (b : ℕ)) := congrArg Fin.val hab
    have ha := a.2
    have hb := b.2
    apply Fin.ext
    rcases le_total (a : ℕ) (b : ℕ) with h2 | h2
    · have := slotZ_inj hn h1.symm (by omega) (by omega)
      omega
    · have := slotZ_inj hn h1 (by omega) (by omega)
      omega
  obtain ⟨a, ha⟩ := (Finite.injective_iff_surjective.1 hf) ⟨i, hi⟩
  exact ⟨a, a.2, congrArg Fin.val ha⟩

private theorem slotZ_nat {c n g : ℕ} (h : 1 ≤ g) : slotZ c n (g : ℤ) = (c + g - 1) % n := by
  unfold slotZ
  have : (c : ℤ) + g - 1 = ((c + g - 1 : ℕ) : ℤ) := by omega
  rw [this, ← Int.natCast_mod]
  rfl

/-! ### What happens in one pass -/

private theorem valueAt_append {ev l : List (Row × ℝ)} {j : ℕ} (h : j < ev.length) : valueAt (ev ++ l) j = valueAt ev j := by
  unfold valueAt
  rw [List.getElem?_append_left h]

private theorem index_lt {mu lam g t i : ℕ} (hg : g ≠ 0) (hgt : g ≤ t) (hi : i < lam) : mu + lam * (g - 1) + i < mu + lam * t := by
  obtain ⟨g, rfl⟩ := Nat.exists_eq_succ_of_ne_zero hg
  have h1 : lam * (g + 1) ≤ lam * t := Nat.mul_le_mul_left _ hgt
  rw [Nat.mul_succ] at h1
  simp only [Nat.succ_eq_add_one, Nat.add_sub_cancel]
  omega

private theorem first_append {mu lam t : ℕ} {ev l : List (Row × ℝ)} (hev : ev.length = mu + lam * t) (hl : 1 ≤ lam) {g : ℕ} (hg : g ≤ t) :
    firstValue mu lam (ev ++ l) g = firstValue mu lam ev g := by
  unfold firstValue
  split_ifs with h
  · rfl
  · unfold offspringValue
    exact valueAt_append (by rw [hev]; exact index_lt h hg hl)

private theorem level_append {mu lam n t : ℕ} {ev l : List (Row × ℝ)} (hev : ev.length = mu + lam * t) (hl : 1 ≤ lam) {g : ℕ} (hg : g ≤ t) :
    Level mu lam n (ev ++ l) g ↔ Level mu lam n ev g := by
  have e : ∀ a, firstValue mu lam (ev ++ l) (g - a) = firstValue mu lam ev (g - a) := fun a => first_append hev hl (by omega)
  unfold Level
  simp only [e]

theorem quarterOffspring_lt (hl : 1 ≤ cfg.lam) (h1 : cfg.lam ≠ 1 ∨ cfg.mu = 1) : quarterOffspring cfg.mu cfg.lam < cfg.lam := by
  unfold quarterOffspring
  rcases eq_or_ne cfg.lam 1 with h | h
  · have := h1.resolve_left (fun h' => h' h)
    rw [this, h]
    simp
  · have h2 : 2 ≤ cfg.lam := by omega
    have : ⌈(1 / 10 : ℚ) + cfg.lam / 4⌉₊ ≤ cfg.lam - 1 := by
      rw [Nat.ceil_le]
      have : (2 : ℚ) ≤ cfg.lam := by exact_mod_cast h2
      rw [Nat.cast_sub (by omega)]
      push_cast
      linarith
    have := min_le_left ⌈(1 / 10 : ℚ) + cfg.lam / 4⌉₊ (cfg.mu - 1)
    omega

private theorem ends_append {t : ℕ} {ev l : List (Row × ℝ)} (hev : ev.length = cfg.mu + cfg.lam * t) (hl : 1 ≤ cfg.lam) (h1 : cfg.lam ≠ 1 ∨ cfg.mu = 1) {g : ℕ} (hg : g ≤ t) :
    EndsAfter cfg (ev ++ l) g ↔ EndsAfter cfg ev g := by
  unfold EndsAfter
  rw [level_append hev hl hg]
  refine or_congr_right (and_congr_right fun h0 => ?_)
  unfold offspringValue
  rw [valueAt_append (by rw [hev]; exact index_lt h0 hg hl), valueAt_append (by rw [hev]; exact index_lt h0 hg (quarterOffspring_lt hl h1))]

/-- What holds of a run that has not ended after `t` generations. -/
private structure Running (cfg : MiesCfg ℝ) (sample : List Row) (noise : ℕ → ℕ → StrengthNoise) (noise' : ℕ → ℕ → MNoise) (t : ℕ) (s : MiesFullState) : Prop where
  core : strengthAfter cfg sample noise t = some s.core
  iter : s.core.iterCount = t
  count : s.evalCount = cfg.mu + cfg.lam * t
  len : s.core.evaluated.length = cfg.mu + cfg.lam * t
  off : t ≠ 0 → ∀ i < cfg.lam, s.fOff[i]? = some (offspringValue cfg.mu cfg.lam s.core.evaluated t i)
  offLen : t ≠ 0 → s.fOff.length = cfg.lam
  hist0 : t = 0 → ∀ i, s.hist i = 0
  hist : ∀ a < historyLength cfg, s.hist (slotZ (cfg.mu / cfg.lam) (historyLength cfg) ((t : ℤ) - 1 - a)) = firstValue cfg.mu cfg.lam s.core.evaluated (t - 1 - a)
  best : ∃ m, miesAfter cfg sample noise' t = some m ∧ m.xopt = s.xopt ∧ m.fopt = s.fopt
  flags : s.flagEval = false ∧ s.flagTol = false ∧ s.flagFlat = false ∧ s.stopped = false

private theorem stop_spec {noise' : ℕ → ℕ → MNoise} {t : ℕ} {s : MiesFullState} (hmu : 1 ≤ cfg.mu) (hl : 1 ≤ cfg.lam) (h1 : t = 0 ∨ cfg.lam ≠ 1 ∨ cfg.mu = 1) (h : Running cfg sample noise noise' t s) :
    ∃ s', miesFullStop cfg s = some s' ∧ s'.core = s.core ∧ s'.xopt = s.xopt ∧ s'.fopt = s.fopt ∧ s'.evalCount = s.evalCount ∧ s'.stopped = false ∧
      ((s'.flagEval || s'.flagTol || s'.flagFlat) = true ↔ EndsAfter cfg s.core.evaluated t) ∧
      ∀ a < historyLength cfg, s'.hist (slotZ (cfg.mu / cfg.lam) (historyLength cfg) ((t : ℤ) - a)) = firstValue cfg.mu cfg.lam s.core.evaluated (t - a) := by
  have hn : 0 < historyLength cfg := by unfold historyLength; omega
  obtain ⟨f1, f2, f3, f4⟩ := h.flags
  have hc := h.count
  by_cases ht : t = 0
  · refine ⟨{ s with flagEval := s.flagEval || decide (cfg.maxEval < s.evalCount) }, ?_, rfl, rfl, rfl, rfl, f4, ?_, ?_⟩
    · unfold miesFullStop
      dsimp only
      rw [if_neg]
      rw [h.iter, ht]
      simp
    · subst ht
      simp only [f1, f2, f3, Bool.false_or, Bool.or_false, decide_eq_true_eq, EndsAfter, hc]
      simp
    · intro a ha
      simp only [h.hist0 ht, ht]
      simp [firstValue]
  · replace h1 := h1.resolve_left ht
    have hk : comparedPosition cfg = quarterOffspring cfg.mu cfg.lam := by
      unfold comparedPosition quarterOffspring
      norm_num
    have hslot : historySlot cfg s.evalCount = slotZ (cfg.mu / cfg.lam) (historyLength cfg) (t : ℤ) := by
      rw [slotZ_nat (by omega), historySlot, hc, Nat.add_mul_div_left _ _ (by omega)]
    have hfirst : firstValue cfg.mu cfg.lam s.core.evaluated t = offspringValue cfg.mu cfg.lam s.core.evaluated t 0 := if_neg ht
    have hnew : ∀ a < historyLength cfg, Function.update s.hist (historySlot cfg s.evalCount) (offspringValue cfg.mu cfg.lam s.core.evaluated t 0)
        (slotZ (cfg.mu / cfg.lam) (historyLength cfg) ((t : ℤ) - a)) = firstValue cfg.mu cfg.lam s.core.evaluated (t - a) := by
      intro a ha
      rw [hslot]
      rcases Nat.eq_zero_or_pos a with rfl | hpos
      · simp [hfirst]
      · rw [Function.update_of_ne]
        · have := h.hist (a - 1) (by omega)
          rw [show (t : ℤ) - a = (t : ℤ) - 1 - ((a - 1 : ℕ) : ℤ) by omega, this]
          congr 1
          omega
        · intro heq
          have := slotZ_inj hn heq (by omega) (by omega)
          omega
    have hif : s.evalCount ≠ 0 ∧ s.core.iterCount ≠ 0 := ⟨by omega, by rw [h.iter]; exact ht⟩
    obtain ⟨s', hs'⟩ : ∃ s', miesFullStop cfg s = some s' := by
      unfold miesFullStop
      dsimp only
      rw [if_pos hif, h.off ht 0 (by omega), hk, h.off ht _ (quarterOffspring_lt hl h1), Option.bind_some, Option.map_some]
      exact ⟨_, rfl⟩
    refine ⟨s', hs', ?_⟩
    unfold miesFullStop at hs'
    dsimp only at hs'
    rw [if_pos hif, h.off ht 0 (by omega), hk, h.off ht _ (quarterOffspring_lt hl h1), Option.bind_some, Option.map_some, Option.some.injEq] at hs'
    subst hs'
    · refine ⟨rfl, rfl, rfl, rfl, f4, ?_, hnew⟩
      have hflat : historyFlat cfg (Function.update s.hist (historySlot cfg s.evalCount) (offspringValue cfg.mu cfg.lam s.core.evaluated t 0)) ↔
          Level cfg.mu cfg.lam (remembered cfg.kinds.length cfg.lam) s.core.evaluated t := by
        change _ ↔ Level cfg.mu cfg.lam (historyLength cfg) s.core.evaluated t
        unfold historyFlat Level
        constructor
        · intro hh a ha b hb
          have := hh _ (slotZ_lt (c := cfg.mu / cfg.lam) hn ((t : ℤ) - a)) _ (slotZ_lt (c := cfg.mu / cfg.lam) hn ((t : ℤ) - b))
          rwa [hnew a ha, hnew b hb] at this
        · intro hh i hi j hj
          obtain ⟨a, ha, rfl⟩ := slotZ_surj (c := cfg.mu / cfg.lam) hn (t : ℤ) hi
          obtain ⟨b, hb, rfl⟩ := slotZ_surj (c := cfg.mu / cfg.lam) hn (t : ℤ) hj
          rw [hnew a ha, hnew b hb]
          exact hh a ha b hb
      simp only [f1, f2, f3, Bool.false_or, Bool.or_eq_true, decide_eq_true_eq, hflat]
      simp only [hc, EndsAfter]
      change ((_ ∨ (cfg.lam * remembered cfg.kinds.length cfg.lam ∣ _ ∧ _)) ∨ _) ↔ _
      constructor
      · rintro ((h2 | h2) | h2)
        exacts [.inl h2, .inr ⟨ht, .inr h2⟩, .inr ⟨ht, .inl h2⟩]
      · rintro (h2 | ⟨_, h2 | h2⟩)
        exacts [.inl (.inl h2), .inr h2, .inl (.inr h2)]

/-- What a run of the evolution strategy without the stopping tests gives: C165 and C31 together. -/
private structure Refined (cfg : MiesCfg ℝ) (sample : List Row) (noise : ℕ → ℕ → StrengthNoise) (noise' : ℕ → ℕ → MNoise) : Prop where
  ok : MiesOk cfg sample noise'
  both : ∀ t, ∃ s m, strengthAfter cfg sample noise t = some s ∧ miesAfter cfg sample noise' t = some m ∧
      m.pop = s.pop.map (fun e => (e.1.row, e.2)) ∧ m.iterCount = s.iterCount ∧ m.evaluated = s.evaluated

private theorem mies_best {noise' : ℕ → ℕ → MNoise} {t : ℕ} {m m' : MiesState ℝ} (h : miesAfter cfg sample noise' t = some m) (h' : miesAfter cfg sample noise' (t + 1) = some m') :
    ∃ c ∈ m'.pop.head?, m'.xopt = (if betterThan cfg.minimize c.2 m.fopt then c.1 else m.xopt) ∧ m'.fopt = (if betterThan cfg.minimize c.2 m.fopt then c.2 else m.fopt) := by
  unfold miesAfter at h'
  rw [h, Option.bind_some] at h'
  unfold miesStep at h'
  obtain ⟨rows, _, h2⟩ := Option.bind_eq_some_iff.1 h'
  obtain ⟨c, hc, rfl⟩ := Option.map_eq_some_iff.1 h2
  exact ⟨c, hc, rfl, rfl⟩

private theorem step_spec {noise' : ℕ → ℕ → MNoise} {t : ℕ} {s s' : MiesFullState} (hr : Refined cfg sample noise noise') (hl : 1 ≤ cfg.lam) (h : Running cfg sample noise noise' t s)
    (hcore : s'.core = s.core) (hx : s'.xopt = s.xopt) (hf : s'.fopt = s.fopt) (hc : s'.evalCount = s.evalCount)
    (hflags : s'.flagEval = false ∧ s'.flagTol = false ∧ s'.flagFlat = false ∧ s'.stopped = false)
    (hhist : ∀ a < historyLength cfg, s'.hist (slotZ (cfg.mu / cfg.lam) (historyLength cfg) ((t : ℤ) - a)) = firstValue cfg.mu cfg.lam s.core.evaluated (t - a)) :
    ∃ s'', miesFullStep cfg s' (noise t) = some s'' ∧ Running cfg sample noise noise' (t + 1) s'' ∧ ∃ l, s''.core.evaluated = s.core.evaluated ++ l := by
  obtain ⟨c, m', h1, h2, h3, h4, h5⟩ := hr.both (t + 1)
  have h1' := h1
  unfold strengthAfter at h1
  rw [h.core, Option.bind_some] at h1
  unfold strengthStep at h1
  obtain ⟨inds, hi, rfl⟩ := Option.map_eq_some_iff.1 h1
  obtain ⟨m, hm, hmx, hmf⟩ := h.best
  obtain ⟨d, hd, hd1, hd2⟩ := mies_best hm h2
  rw [h3] at hd
  rw [Option.mem_def, List.head?_map, Option.map_eq_some_iff] at hd
  obtain ⟨e, he, rfl⟩ := hd
  have hlen : inds.length = cfg.lam := by
    obtain ⟨m2, e1, -, -, -, -, -, -, e2, e3⟩ := c31_invariant_partial cfg sample noise' hr.ok (t + 1)
    rw [h2] at e1
    cases e1
    rw [e2, h5, List.length_append, List.length_map, h.len] at e3
    rw [Nat.mul_succ] at e3
    omega
  have hstep : miesFullStep cfg s' (noise t) = some
      { s' with
        core := ⟨strengthSelect cfg s'.core.pop (inds.map fun a => (a, cfg.fit s'.core.iterCount a.row)), s'.core.iterCount + 1,
          s'.core.evaluated ++ inds.map fun a => (a.row, cfg.fit s'.core.iterCount a.row)⟩,
        xopt := if betterThan cfg.minimize e.2 s'.fopt then e.1.row else s'.xopt, fopt := if betterThan cfg.minimize e.2 s'.fopt then e.2 else s'.fopt,
        fOff := inds.map fun a => cfg.fit s'.core.iterCount a.row, evalCount := s'.evalCount + inds.length } := by
    unfold miesFullStep
    rw [hcore, hi, Option.bind_some]
    dsimp only
    dsimp only at he
    rw [he, Option.map_some]
    simp [Function.comp_def]
  refine ⟨_, hstep, ?_, ?_⟩
  · have hev : (s.core.evaluated ++ inds.map fun a => (a.row, cfg.fit s.core.iterCount a.row)).length = cfg.mu + cfg.lam * (t + 1) := by
      rw [List.length_append, h.len, List.length_map, hlen]
      ring
    refine ⟨?_, ?_, ?_, ?_, ?_, fun _ => by simp [hlen], ?_, ?_, ?_, hflags⟩
    · dsimp only
      rw [h1', hcore]
    · dsimp only
      rw [hcore, h.iter]
    · dsimp only
      rw [hc, h.count, hlen]
      ring
    · dsimp only
      rw [hcore]
      exact hev
    · intro _ i hi'
      dsimp only
      rw [hcore]
      unfold offspringValue valueAt
      rw [Nat.add_sub_cancel, List.getElem?_append_right (by rw [h.len]; omega), h.len, Nat.add_sub_cancel_left, List.getElem?_map, List.getElem?_map]
      rw [List.getElem?_eq_getElem (by omega)]
      rfl
    · intro h0; omega
    · intro a ha
      dsimp only
      rw [hcore, first_append h.len hl (by omega), Nat.add_sub_cancel, ← hhist a ha]
      congr 2
      push_cast
      ring
    · refine ⟨m', h2, ?_, ?_⟩
      · rw [hd1, hmf, hmx, ← hf, ← hx]
      · rw [hd2, hmf, ← hf]
  · exact ⟨_, by rw [hcore]⟩

/-- What holds after `t` passes. -/
private structure Passed (cfg : MiesCfg ℝ) (sample : List Row) (noise : ℕ → ℕ → StrengthNoise) (noise' : ℕ → ℕ → MNoise) (t : ℕ) (s : MiesFullState) : Prop where
  before : ∀ g < s.core.iterCount, ¬ EndsAfter cfg s.core.evaluated g
  core : strengthAfter cfg sample noise s.core.iterCount = some s.core
  count : s.evalCount = cfg.mu + cfg.lam * s.core.iterCount
  best : ∃ m, miesAfter cfg sample noise' s.core.iterCount = some m ∧ m.xopt = s.xopt ∧ m.fopt = s.fopt
  now : (s.stopped = false ∧ Running cfg sample noise noise' t s) ∨ (s.stopped = true ∧ s.core.iterCount < t ∧ EndsAfter cfg s.core.evaluated s.core.iterCount)

private theorem init_spec {noise' : ℕ → ℕ → MNoise} (hr : Refined cfg sample noise noise') (hlen : sample.length = cfg.mu) :
    ∃ s, miesFullRun cfg sample noise 0 = some s ∧ s.stopped = false ∧ Running cfg sample noise noise' 0 s := by
  obtain ⟨c, m, e1, e2, e3, e4, e5⟩ := hr.both 0
  unfold miesAfter miesInit at e2
  obtain ⟨b, hb, rfl⟩ := Option.map_eq_some_iff.1 e2
  dsimp only at e3 e4 e5
  have e1' := e1
  unfold strengthAfter at e1
  obtain ⟨s0, hs0⟩ : ∃ s0, miesFullRun cfg sample noise 0 = some s0 := by
    unfold miesFullRun miesFullInit
    rw [e1, Option.bind_some, ← e3, hb, Option.map_some]
    exact ⟨_, rfl⟩
  refine ⟨s0, hs0, ?_⟩
  unfold miesFullRun miesFullInit at hs0
  rw [e1, Option.bind_some, ← e3, hb, Option.map_some] at hs0
  cases hs0
  refine ⟨rfl, e1', e4.symm, ?_, ?_, fun h => absurd rfl h, fun h => absurd rfl h, fun _ _ => rfl, ?_, ⟨_, e2, rfl, rfl⟩, ⟨rfl, rfl, rfl, rfl⟩⟩
  · dsimp only; rw [hlen]; simp
  · dsimp only; rw [← e5]; simp [hlen]
  · intro a _; simp [firstValue]

private theorem run_spec {noise' : ℕ → ℕ → MNoise} (hr : Refined cfg sample noise noise') (hlen : sample.length = cfg.mu) (hmu : 1 ≤ cfg.mu) (hl : 1 ≤ cfg.lam)
    (h1 : cfg.lam ≠ 1 ∨ cfg.mu = 1) (t : ℕ) : ∃ s, miesFullRun cfg sample noise t = some s ∧ Passed cfg sample noise noise' t s := by
  induction t with
  | zero =>
    obtain ⟨s, hs, hst, hrun⟩ := init_spec hr hlen
    refine ⟨s, hs, ?_, ?_, ?_, ?_, .inl ⟨hst, hrun⟩⟩
    · intro g hg
      rw [hrun.iter] at hg
      omega
    all_goals rw [hrun.iter]
    exacts [hrun.core, hrun.count, hrun.best]
  | succ t ih =>
    obtain ⟨s, hs, hp⟩ := ih
    rcases hp.now with ⟨hst, hrun⟩ | ⟨hst, hlt, hend⟩
    · obtain ⟨s', g1, g2, g3, g4, g5, g6, g7, g8⟩ := stop_spec hmu hl (.inr h1) hrun
      have hrun1 : miesFullRun cfg sample noise (t + 1) =
          if s'.flagEval || s'.flagTol || s'.flagFlat then some { s' with stopped := true } else miesFullStep cfg s' (noise s'.core.iterCount) := by
        rw [miesFullRun, hs, Option.bind_some, miesFullPass, if_neg (by simp [hst]), g1, Option.bind_some]
      by_cases he : (s'.flagEval || s'.flagTol || s'.flagFlat) = true
      · rw [if_pos he] at hrun1
        have hi := hrun.iter
        refine ⟨_, hrun1, ?_, ?_, ?_, ?_, .inr ⟨rfl, ?_, ?_⟩⟩
        · dsimp only; rw [g2]; exact hp.before
        · dsimp only; rw [g2]; exact hp.core
        · dsimp only; rw [g2, g5]; exact hp.count
        · dsimp only; rw [g2, g3, g4]; exact hp.best
        · dsimp only; rw [g2]; omega
        · dsimp only; rw [g2, hi]; exact g7.1 he
      · rw [if_neg he, g2, hrun.iter] at hrun1
        have hfl : s'.flagEval = false ∧ s'.flagTol = false ∧ s'.flagFlat = false ∧ s'.stopped = false := by
          simp only [Bool.or_eq_true, not_or, Bool.not_eq_true] at he
          exact ⟨he.1.1, he.1.2, he.2, g6⟩
        obtain ⟨s2, k1, k2, l, k3⟩ := step_spec hr hl hrun g2 g3 g4 g5 hfl g8
        refine ⟨s2, hrun1.trans k1, ?_, ?_, ?_, ?_, .inl ⟨k2.flags.2.2.2, k2⟩⟩
        · rw [k2.iter, k3]
          intro g hg
          rw [ends_append hrun.len hl h1 (by omega)]
          rcases Nat.lt_succ_iff_lt_or_eq.1 hg with h2 | rfl
          · exact hp.before g (by rw [hrun.iter]; exact h2)
          · exact fun h => he (g7.2 h)
        · rw [k2.iter]; exact k2.core
        · rw [k2.iter]; exact k2.count
        · rw [k2.iter]; exact k2.best
    · refine ⟨s, ?_, hp.before, hp.core, hp.count, hp.best, .inr ⟨hst, by omega, hend⟩⟩
      rw [miesFullRun, hs, Option.bind_some, miesFullPass, if_pos hst]

/-- **C175.**  With legal arguments, the strategy never raises, and it ends after the first generation for which there is a reason to end; until then every pass makes one generation.
(Left out: a single offspring of several parents, see `c175_single_offspring`.) -/
theorem c175_ends_partial (h : StrengthOk cfg sample noise) (hl : 1 ≤ cfg.lam) (h1 : cfg.lam ≠ 1 ∨ cfg.mu = 1) (t : ℕ) :
    ∃ s, miesFullRun cfg sample noise t = some s ∧ strengthAfter cfg sample noise s.core.iterCount = some s.core ∧ (∀ g < s.core.iterCount, ¬ EndsAfter cfg s.core.evaluated g) ∧
      (s.stopped = false → s.core.iterCount = t) ∧ (s.stopped = true → s.core.iterCount < t ∧ EndsAfter cfg s.core.evaluated s.core.iterCount) := by
  obtain ⟨noise', hok, hb⟩ := c165_refines cfg sample noise h
  obtain ⟨s, hs, hp⟩ := run_spec ⟨hok, hb⟩ h.len h.mu hl h1 t
  refine ⟨s, hs, hp.core, hp.before, fun h2 => ?_, fun h2 => ?_⟩
  · rcases hp.now with ⟨_, h3⟩ | ⟨h3, _⟩
    · exact h3.iter
    · rw [h2] at h3; cases h3
  · rcases hp.now with ⟨h3, _⟩ | ⟨_, h3⟩
    · rw [h2] at h3; cases h3
    · exact h3

/-- **C175, result.**  In every state the reported point is a point of the space that has been evaluated, with its value, and nothing evaluated was better; evaluations are counted. -/
theorem c175_best (h : StrengthOk cfg sample noise) (hl : 1 ≤ cfg.lam) (h1 : cfg.lam ≠ 1 ∨ cfg.mu = 1) {t : ℕ} {s : MiesFullState} (hs : miesFullRun cfg sample noise t = some s) :
    PointOf cfg.kinds s.xopt ∧ (s.xopt, s.fopt) ∈ s.core.evaluated ∧ (∀ e ∈ s.core.evaluated, AtLeastAsGood cfg.minimize s.fopt e.2) ∧
      (∀ e ∈ s.core.evaluated, PointOf cfg.kinds e.1) ∧ s.evalCount = s.core.evaluated.length ∧ s.evalCount = cfg.mu + cfg.lam * s.core.iterCount := by
  obtain ⟨noise', hok, hb⟩ := c165_refines cfg sample noise h
  obtain ⟨s2, hs2, hp⟩ := run_spec ⟨hok, hb⟩ h.len h.mu hl h1 t
  rw [hs] at hs2
  cases hs2
  obtain ⟨m, hm, hx, hf⟩ := hp.best
  obtain ⟨c, m2, e1, e2, -, -, e5⟩ := hb s.core.iterCount
  rw [hp.core] at e1
  cases e1
  rw [hm] at e2
  cases e2
  obtain ⟨m3, k1, -, -, k3, k4, k5, k6, k7, k8⟩ := c31_invariant_partial cfg sample noise' hok s.core.iterCount
  rw [hm] at k1
  cases k1
  rw [hx] at k4
  rw [hx, hf, e5] at k5
  rw [hf, e5] at k6
  rw [e5] at k3 k8
  exact ⟨k4, k5, k6, k3, by rw [hp.count, ← k7, k8], hp.count⟩

/-- **C175, tolerance.**  If the number of parents is no multiple of the number of offspring (as in the default setting), the test on the history never ends a run. -/
theorem c175_tolerance_unused (hd : ¬ cfg.lam ∣ cfg.mu) (ev : List (Row × ℝ)) (g : ℕ) :
    EndsAfter cfg ev g ↔ cfg.maxEval < cfg.mu + cfg.lam * g ∨
      g ≠ 0 ∧ offspringValue cfg.mu cfg.lam ev g 0 = offspringValue cfg.mu cfg.lam ev g (quarterOffspring cfg.mu cfg.lam) := by
  unfold EndsAfter
  refine or_congr_right (and_congr_right fun _ => or_iff_left ?_)
  rintro ⟨h, _⟩
  exact hd ((Nat.dvd_add_left (dvd_mul_right _ g)).1 ((dvd_mul_right _ _).trans h))

/-- **C175 fails for one parent.**  Whatever the objective, a run with one parent makes at most one generation. -/
theorem c175_one_parent (h : StrengthOk cfg sample noise) (hl : 1 ≤ cfg.lam) (h1 : cfg.mu = 1) {t : ℕ} {s : MiesFullState} (hs : miesFullRun cfg sample noise t = some s) :
    s.core.iterCount ≤ 1 ∧ (2 ≤ t → s.stopped = true) := by
  obtain ⟨s2, hs2, -, h2, h3, h4⟩ := c175_ends_partial h hl (.inr h1) t
  rw [hs] at hs2
  cases hs2
  have hle : s.core.iterCount ≤ 1 := by
    by_contra hc
    refine h2 1 (by omega) (.inr ⟨one_ne_zero, .inl ?_⟩)
    rw [show quarterOffspring cfg.mu cfg.lam = 0 by rw [h1]; simp [quarterOffspring]]
  refine ⟨hle, fun ht => ?_⟩
  by_contra hc
  have := h3 (by simpa using hc)
  omega

/-! ### Runs on one categorical variable -/

theorem map_of_mapM {α β : Type*} {f : α → Option β} {l : List α} {r : List β} (h : l.mapM f = some r) : l.map f = r.map some := by
  induction l generalizing r with
  | nil =>
    obtain rfl : r = [] := by simpa using h.symm
    rfl
  | cons a l ih =>
    rw [List.mapM_cons] at h
    obtain ⟨b, hb, h⟩ := Option.bind_eq_some_iff.1 h
    obtain ⟨r', hr, h⟩ := Option.bind_eq_some_iff.1 h
    obtain rfl : b :: r' = r := by simpa using h
    rw [List.map_cons, List.map_cons, hb, ih hr]

theorem strengthAfter_counts (h : StrengthOk cfg sample noise) {t : ℕ} {s : StrengthState ℝ} (hs : strengthAfter cfg sample noise t = some s) :
    s.iterCount = t ∧ s.evaluated.length = cfg.mu + cfg.lam * t := by
  obtain ⟨noise', hok, hb⟩ := c165_refines cfg sample noise h
  obtain ⟨c, m, e1, e2, -, e4, e5⟩ := hb t
  rw [hs] at e1
  cases e1
  obtain ⟨m3, k1, k2, -, k3, k4, k5, k6, k7, k8⟩ := c31_invariant_partial cfg sample noise' hok t
  rw [e2] at k1
  cases k1
  refine ⟨?_, by rw [← e5, ← k8, k7]⟩
  clear e2 k2 k3 k4 k5 k6 k7 k8 hb e4 e5
  induction t generalizing s with
  | zero =>
    unfold strengthAfter strengthInit at hs
    split_ifs at hs
    cases hs
    rfl
  | succ t ih =>
    unfold strengthAfter at hs
    obtain ⟨s0, h0, h1⟩ := Option.bind_eq_some_iff.1 hs
    obtain ⟨_, _, _, h2, _⟩ := step_cases h1
    rw [h2, ih h0]

private theorem category_offspring {L : List Lvl} {n : StrengthNoise} {a b : Individual} {l x y : Lvl} (ha : a.row = [.lvl x]) (hb : b.row = [.lvl y]) (hu : n.u 0 = 0)
    (hp : 0 < probUsed [.discrete L] n (recombineInd [.discrete L] n a b)) (hl : L[n.level 0]? = some l) :
    (mutateInd [.discrete L] n (recombineInd [.discrete L] n a b)).row = [.lvl l] := by
  obtain ⟨z, hz⟩ : ∃ z : Lvl, (recombineInd [.discrete L] n a b).row = [.lvl z] := by
    change ∃ z : Lvl, recombineRow _ a.row b.row = [.lvl z]
    rw [ha, hb]
    unfold recombineRow
    split_ifs
    · exact ⟨x, rfl⟩
    · simp only [List.zip_cons_cons, List.zip_nil_right, List.mapIdx_cons, List.mapIdx_nil]
      split_ifs
      exacts [⟨y, rfl⟩, ⟨x, rfl⟩]
  change mutateRow [.discrete L] _ (recombineInd [.discrete L] n a b).row = _
  rw [hz]
  simp only [mutateRow, List.zip_cons_cons, List.zip_nil_right, List.mapIdx_cons, List.mapIdx_nil, mutateVal, proposalsOf, Kind.levels, hu, if_pos hp, Option.bind_some, hl, Option.getD_some]

/-- With one categorical variable that is mutated every time, the random levels are the offspring. -/
private theorem category_run {L : List Lvl} (h : StrengthOk cfg sample noise) (hk : cfg.kinds = [.discrete L]) (hL : L ≠ []) (hu : ∀ g i, (noise g i).u 0 = 0) {t : ℕ} {s : StrengthState ℝ}
    (hs : strengthAfter cfg sample noise t = some s) {g i : ℕ} (hg : g < t) (hi : i < cfg.lam) :
    ∃ l, L[(noise g i).level 0]? = some l ∧ s.evaluated[cfg.mu + cfg.lam * g + i]? = some ([.lvl l], cfg.fit g [.lvl l]) := by
  induction t generalizing s with
  | zero => omega
  | succ t ih =>
    unfold strengthAfter at hs
    obtain ⟨s0, h0, h1⟩ := Option.bind_eq_some_iff.1 hs
    obtain ⟨inds, k1, -, -, k2⟩ := step_cases h1
    obtain ⟨c1, c2⟩ := strengthAfter_counts h h0
    rw [k2]
    rcases Nat.lt_succ_iff_lt_or_eq.1 hg with hg | rfl
    · obtain ⟨l, e1, e2⟩ := ih h0 hg
      refine ⟨l, e1, ?_⟩
      rw [List.getElem?_append_left, e2]
      exact (List.getElem?_eq_some_iff.1 e2).1
    · have hlev : (noise g i).level 0 < L.length := (h.draws g i).level 0 (.discrete L) (by rw [hk]; rfl) hL
      refine ⟨_, List.getElem?_eq_getElem hlev, ?_⟩
      rw [List.getElem?_append_right (by omega), c2, Nat.add_sub_cancel_left, List.getElem?_map, c1]
      have hmap := map_of_mapM k1
      have hinds : some (strengthOffspring cfg s0.pop (noise g i)) = (inds.map some)[i]? := by
        rw [← hmap, List.getElem?_map, List.getElem?_range hi, Option.map_some]
      rw [List.getElem?_map] at hinds
      obtain ⟨c, hc, hc'⟩ := Option.map_eq_some_iff.1 hinds.symm
      obtain ⟨a, ha, b, hb, -, -, rfl⟩ := offspring_parents hc'.symm
      obtain ⟨s1, f1, -, f2, f3⟩ := c165_strengths cfg sample noise h g
      rw [h0] at f1
      cases f1
      have hrow : ∀ e ∈ s0.pop, ∃ x, e.1.row = [.lvl x] := by
        intro e he
        obtain ⟨p1, p2⟩ := (f2 e he).1
        rw [hk] at p1 p2
        obtain ⟨v, hv⟩ := List.length_eq_one_iff.1 p1
        have := p2 0 _ v rfl (by rw [hv]; rfl)
        cases v with
        | lvl x => exact ⟨x, hv⟩
        | _ => exact this.elim
      obtain ⟨x, hx⟩ := hrow a ha
      obtain ⟨y, hy⟩ := hrow b hb
      have hpos := ((f3 a ha b hb (noise g i)).2.2 ⟨.discrete L, by rw [hk]; simp, by simp [Kind.vtype], by simp [Kind.vtype]⟩).1
      rw [hk] at hc hpos
      rw [hc, Option.map_some, category_offspring hx hy (hu g i) hpos (List.getElem?_eq_getElem hlev)]

/-- The number at a position, as a key for sorting. -/
def sortKey (l : List ℝ) (i : ℕ) : WithBot ℝ := l[i]?

open Classical in
/-- Insertion-based argsort on real numbers. -/
noncomputable def realArgsort (l : List ℝ) : List ℕ := List.insertionSort (fun i j => sortKey l i ≤ sortKey l j) (List.range l.length)

theorem realArgsort_ok : SortsValues realArgsort := by
  classical
  intro l
  refine ⟨List.perm_insertionSort _ _, ?_⟩
  have : IsTrans ℕ (fun i j => sortKey l i ≤ sortKey l j) := ⟨fun _ _ _ h1 h2 => le_trans h1 h2⟩
  have : Std.Total (fun i j => sortKey l i ≤ sortKey l j) := ⟨fun _ _ => le_total _ _⟩
  refine (List.pairwise_insertionSort (fun i j => sortKey l i ≤ sortKey l j) (List.range l.length)).imp ?_
  intro i j h a b ha hb
  unfold sortKey at h
  rw [ha, hb] at h
  exact WithBot.coe_le_coe.1 h

/-- Three levels. -/
def threeLevels : List Lvl := [.one (.str "a"), .one (.str "b"), .one (.str "c")]

/-- Random numbers for an offspring with the given level. -/
noncomputable def levelDraws (l : ℕ) : StrengthNoise := ⟨0, 0, fun _ => false, 0, fun _ => 0, fun _ => 1, 0, fun _ => 0, fun _ => 1, fun _ => 1, 0, fun _ => 0, fun _ => l⟩

private theorem levelDraws_ok {mu l : ℕ} (hmu : 1 ≤ mu) (hl : l < 3) : PossibleDraws [.discrete threeLevels] mu (levelDraws l) := by
  refine ⟨hmu, hmu, by norm_num [levelDraws], by norm_num [levelDraws], by norm_num [levelDraws], ?_⟩
  intro j k hj _
  match j with
  | 0 =>
    obtain rfl : Kind.discrete threeLevels = k := by simpa using hj
    exact hl
  | j + 1 => simp at hj

/-- One categorical variable with three levels. -/
noncomputable def levelCfg (fit : Row → ℝ) (mu lam maxEval : ℕ) : MiesCfg ℝ :=
  { kinds := [.discrete threeLevels], minimize := true, elitism := false, mu := mu, lam := lam, maxEval := maxEval, fit := fun _ => fit, argsort := realArgsort }

theorem levelCfg_ok (fit : Row → ℝ) {mu lam : ℕ} (maxEval : ℕ) (hmu : 1 ≤ mu) (hl : mu ≤ lam) (lev : ℕ → ℕ → ℕ) (hlev : ∀ g i, lev g i < 3) :
    StrengthOk (levelCfg fit mu lam maxEval) (List.replicate mu [.lvl (.one (.str "a"))]) (fun g i => levelDraws (lev g i)) := by
  refine ⟨realArgsort_ok, ?_, hmu, .inl hl, List.length_replicate, ?_, fun g i => levelDraws_ok hmu (hlev g i)⟩
  · intro k hk
    obtain rfl := List.mem_singleton.1 hk
    trivial
  · intro r hr
    rw [List.eq_of_mem_replicate hr]
    refine ⟨rfl, ?_⟩
    intro j k v hj hv
    match j with
    | 0 =>
      simp [levelCfg] at hj hv
      subst hj hv
      simp [Kind.contains, threeLevels]
    | j + 1 => simp [levelCfg] at hj

/-- Values 3, 2 and 1 of the three levels. -/
noncomputable def levelValue : Row → ℝ
  | [.lvl (.one (.str "a"))] => 3
  | [.lvl (.one (.str "b"))] => 2
  | _ => 1

theorem levelCfg_values (fit : Row → ℝ) {mu lam maxEval : ℕ} (hmu : 1 ≤ mu) (hl : mu ≤ lam) (lev : ℕ → ℕ → ℕ) (hlev : ∀ g i, lev g i < 3) {t : ℕ} {s : StrengthState ℝ}
    (hs : strengthAfter (levelCfg fit mu lam maxEval) (List.replicate mu [.lvl (.one (.str "a"))]) (fun g i => levelDraws (lev g i)) t = some s) :
    s.evaluated.length = mu + lam * t ∧ (∀ j < mu, s.evaluated[j]? = some ([.lvl (.one (.str "a"))], fit [.lvl (.one (.str "a"))])) ∧
      ∀ g < t, ∀ i < lam, ∃ l, threeLevels[lev g i]? = some l ∧ s.evaluated[mu + lam * g + i]? = some ([.lvl l], fit [.lvl l]) := by
  have hok := levelCfg_ok fit maxEval hmu hl lev hlev
  refine ⟨(strengthAfter_counts hok hs).2, ?_, fun g hg i hi => ?_⟩
  · intro j hj
    induction t generalizing s with
    | zero =>
      unfold strengthAfter strengthInit at hs
      split_ifs at hs
      cases hs
      simp [hj, levelCfg]
    | succ t ih =>
      unfold strengthAfter at hs
      obtain ⟨s0, h0, h1⟩ := Option.bind_eq_some_iff.1 hs
      obtain ⟨_, _, _, _, h2⟩ := step_cases h1
      rw [h2, List.getElem?_append_left, ih h0]
      rw [(strengthAfter_counts hok h0).2]
      exact lt_of_lt_of_le hj (Nat.le_add_right _ _)
  · exact category_run hok rfl (by simp [threeLevels]) (fun _ _ => rfl) hs hg hi

/-- **C175 fails in general.**  With the default numbers of parents and offspring and a limit of 1000 evaluations, the strategy can end after one generation: the first and the
fourth offspring have the same value.  This generation found a better point than all before, and the best point of the space has not been evaluated. -/
theorem c175_refuted : ∃ (cfg : MiesCfg ℝ) (sample : List Row) (noise : ℕ → ℕ → StrengthNoise) (s0 s1 s2 : MiesFullState),
    StrengthOk cfg sample noise ∧ cfg.minimize = true ∧ cfg.mu = 4 ∧ cfg.lam = 10 ∧ cfg.maxEval = 1000 ∧
      miesFullRun cfg sample noise 0 = some s0 ∧ miesFullRun cfg sample noise 1 = some s1 ∧ miesFullRun cfg sample noise 2 = some s2 ∧ s1.stopped = false ∧ s2.stopped = true ∧
      s2.evalCount = 14 ∧ s1.fopt < s0.fopt ∧ ∃ x, PointOf cfg.kinds x ∧ (∀ t, cfg.fit t x < s2.fopt) ∧ ∀ e ∈ s2.core.evaluated, e.1 ≠ x := by
  set lev : ℕ → ℕ → ℕ := fun _ i => if i = 1 then 1 else 0 with hlevdef
  have hlev : ∀ g i, lev g i < 3 := by intro g i; simp only [lev]; split_ifs <;> omega
  have hok := levelCfg_ok levelValue 1000 (show 1 ≤ 4 by norm_num) (show 4 ≤ 10 by norm_num) lev hlev
  set cfg := levelCfg levelValue 4 10 1000 with hcfg
  set noise : ℕ → ℕ → StrengthNoise := fun g i => levelDraws (lev g i) with hnoise
  set sample : List Row := List.replicate 4 [.lvl (.one (.str "a"))] with hsample
  have hl : 1 ≤ cfg.lam := by norm_num [hcfg, levelCfg]
  have h1 : cfg.lam ≠ 1 ∨ cfg.mu = 1 := .inl (by norm_num [hcfg, levelCfg])
  have hq : quarterOffspring 4 10 = 3 := by
    have : ⌈(1 / 10 : ℚ) + (10 : ℕ) / 4⌉₊ = 3 := by
      rw [Nat.ceil_eq_iff (by norm_num)]
      norm_num
    unfold quarterOffspring
    rw [this]
    norm_num
  have hnot0 : ∀ ev, ¬ EndsAfter cfg ev 0 := by
    rintro ev (h | ⟨h, -⟩)
    · norm_num [hcfg, levelCfg] at h
    · exact h rfl
  have hend1 : ∀ s, strengthAfter cfg sample noise 1 = some s → EndsAfter cfg s.evaluated 1 := by
    intro s hs
    obtain ⟨-, -, hv⟩ := levelCfg_values levelValue (by norm_num) (by norm_num) lev hlev hs
    obtain ⟨l, e1, e2⟩ := hv 0 (by norm_num) 0 (by norm_num)
    obtain ⟨l', e3, e4⟩ := hv 0 (by norm_num) 3 (by norm_num)
    refine .inr ⟨one_ne_zero, .inl ?_⟩
    change offspringValue 4 10 _ 1 0 = offspringValue 4 10 _ 1 (quarterOffspring 4 10)
    rw [hq]
    unfold offspringValue valueAt
    obtain rfl : l = l' := Option.some.inj (e1.symm.trans e3)
    norm_num at e2 e4 ⊢
    rw [e2, e4]
  obtain ⟨s0, a1, a2, a3, a4, a5⟩ := c175_ends_partial hok hl h1 0
  obtain ⟨s1, b1, b2, b3, b4, b5⟩ := c175_ends_partial hok hl h1 1
  obtain ⟨s2, c1, c2, c3, c4, c5⟩ := c175_ends_partial hok hl h1 2
  have hs0 : s0.core.iterCount = 0 := by
    rcases h : s0.stopped with _ | _
    · exact a4 h
    · exact absurd (a5 h).1 (by omega)
  have hs1 : s1.stopped = false := by
    rcases h : s1.stopped with _ | _
    · rfl
    · obtain ⟨p1, p2⟩ := b5 h
      rw [show s1.core.iterCount = 0 by omega] at p2
      exact absurd p2 (hnot0 _)
  have hi1 := b4 hs1
  have hs2 : s2.stopped = true ∧ s2.core.iterCount = 1 := by
    rcases h : s2.stopped with _ | _
    · have h2 := c4 h
      refine absurd ?_ (c3 1 (by omega))
      rw [h2] at c2
      unfold strengthAfter at c2
      obtain ⟨s', k1, k2⟩ := Option.bind_eq_some_iff.1 c2
      obtain ⟨_, _, _, _, k3⟩ := step_cases k2
      rw [k3]
      exact (ends_append (strengthAfter_counts hok k1).2 hl h1 le_rfl).2 (hend1 s' k1)
    · obtain ⟨p1, p2⟩ := c5 h
      refine ⟨rfl, ?_⟩
      by_contra hne
      rw [show s2.core.iterCount = 0 by omega] at p2
      exact hnot0 _ p2
  rw [hs0] at a2
  rw [hi1] at b2
  rw [hs2.2] at c2
  obtain ⟨-, p2, p3, -, p5, p6⟩ := c175_best hok hl h1 a1
  obtain ⟨-, q2, q3, -, q5, q6⟩ := c175_best hok hl h1 b1
  obtain ⟨-, r2, r3, -, r5, r6⟩ := c175_best hok hl h1 c1
  obtain ⟨u1, u2, -⟩ := levelCfg_values levelValue (by norm_num) (by norm_num) lev hlev a2
  obtain ⟨-, -, v3⟩ := levelCfg_values levelValue (by norm_num) (by norm_num) lev hlev b2
  obtain ⟨w1, w2, w3⟩ := levelCfg_values levelValue (by norm_num) (by norm_num) lev hlev c2
  have hva : levelValue [.lvl (.one (.str "a"))] = 3 := rfl
  have hvb : levelValue [.lvl (.one (.str "b"))] = 2 := rfl
  have hvc : levelValue [.lvl (.one (.str "c"))] = 1 := rfl
  have hs2ev : ∀ e ∈ s2.core.evaluated, e = ([.lvl (.one (.str "a"))], (3 : ℝ)) ∨ e = ([.lvl (.one (.str "b"))], (2 : ℝ)) := by
    intro e he
    obtain ⟨j, hj, rfl⟩ := List.mem_iff_getElem.1 he
    have hje := List.getElem?_eq_getElem hj
    rw [w1] at hj
    by_cases hj4 : j < 4
    · have := w2 j hj4
      rw [hje, hva] at this
      exact .inl (Option.some.inj this)
    · obtain ⟨l, e1, e2⟩ := w3 0 (by norm_num) (j - 4) (by omega)
      rw [show 4 + 10 * 0 + (j - 4) = j by omega, hje] at e2
      rw [Option.some.inj e2]
      simp only [lev] at e1
      split_ifs at e1
      · obtain rfl : Lvl.one (.str "b") = l := by simpa [threeLevels] using e1
        rw [hvb]
        exact .inr rfl
      · obtain rfl : Lvl.one (.str "a") = l := by simpa [threeLevels] using e1
        rw [hva]
        exact .inl rfl
  refine ⟨cfg, sample, noise, s0, s1, s2, hok, rfl, rfl, rfl, rfl, a1, b1, c1, hs1, hs2.1, ?_, ?_, [.lvl (.one (.str "c"))], ⟨rfl, ?_⟩, ?_, ?_⟩
  · rw [r6, hs2.2]
    rfl
  · have h0 : s0.fopt = 3 := by
      obtain ⟨j, hj, hje⟩ := List.mem_iff_getElem.1 p2
      have hje' := List.getElem?_eq_getElem hj
      rw [u1] at hj
      rw [u2 j (by omega), hje, hva] at hje'
      exact (Prod.mk.inj (Option.some.inj hje')).2.symm
    obtain ⟨l, e1, e2⟩ := v3 0 (by norm_num) 1 (by norm_num)
    obtain rfl : Lvl.one (.str "b") = l := by simpa [lev, threeLevels] using e1
    have : s1.fopt ≤ 2 := q3 _ (List.mem_of_getElem? e2)
    rw [h0]
    linarith
  · intro j k v hj hv
    match j with
    | 0 =>
      simp [hcfg, levelCfg] at hj hv
      subst hj hv
      simp [Kind.contains, threeLevels]
    | j + 1 => simp [hcfg, levelCfg] at hj
  · intro t
    rw [show cfg.fit t [.lvl (.one (.str "c"))] = 1 from hvc]
    rcases hs2ev _ r2 with h | h <;> rw [(Prod.mk.inj h).2] <;> norm_num
  · intro e he
    rcases hs2ev e he with rfl | rfl <;> simp

/-- **C175 fails for a single offspring of several parents.**  With elitism such a strategy is accepted, but it raises after the first generation, if the limit on the evaluations
leaves room for one. -/
theorem c175_single_offspring (h : StrengthOk cfg sample noise) (hl : cfg.lam = 1) (hmu : 2 ≤ cfg.mu) (hmax : cfg.mu ≤ cfg.maxEval) : miesFullRun cfg sample noise 2 = none := by
  obtain ⟨noise', hok, hb⟩ := c165_refines cfg sample noise h
  obtain ⟨s, hs, hst, hrun⟩ := init_spec ⟨hok, hb⟩ h.len
  obtain ⟨s', g1, g2, g3, g4, g5, g6, g7, g8⟩ := stop_spec h.mu (by omega) (.inl rfl) hrun
  have he : (s'.flagEval || s'.flagTol || s'.flagFlat) = false := by
    rw [Bool.eq_false_iff]
    intro hc
    rcases g7.1 hc with h2 | ⟨h2, -⟩
    · omega
    · exact h2 rfl
  have hfl : s'.flagEval = false ∧ s'.flagTol = false ∧ s'.flagFlat = false ∧ s'.stopped = false := by
    simp only [Bool.or_eq_false_iff] at he
    exact ⟨he.1.1, he.1.2, he.2, g6⟩
  obtain ⟨s2, k1, k2, l, k3⟩ := step_spec ⟨hok, hb⟩ (by omega) hrun g2 g3 g4 g5 hfl g8
  have h1 : miesFullRun cfg sample noise 1 = some s2 := by
    rw [miesFullRun, hs, Option.bind_some, miesFullPass, if_neg (by simp [hst]), g1, Option.bind_some, if_neg (by simp [he]), g2, hrun.iter]
    exact k1
  have hk : comparedPosition cfg = 1 := by
    have : ⌈(0.1 : ℚ) + (1 : ℕ) / 4⌉₊ = 1 := by
      rw [Nat.ceil_eq_iff (by norm_num)]
      norm_num
    unfold comparedPosition
    rw [hl, this]
    omega
  rw [miesFullRun, h1, Option.bind_some, miesFullPass, if_neg (by simp [k2.flags.2.2.2])]
  unfold miesFullStop
  dsimp only
  rw [if_pos ⟨by rw [k2.count]; omega, by rw [k2.iter]; norm_num⟩, hk, k2.off (by norm_num) 0 (by omega), Option.bind_some,
    List.getElem?_eq_none (by rw [k2.offLen (by norm_num)]; omega)]
  rfl

/-- The hypotheses hold, and if the first and the fourth offspring differ all the time, fifty generations are made. -/
example : ∃ s, miesFullRun (levelCfg levelValue 4 10 1000) (List.replicate 4 [.lvl (.one (.str "a"))]) (fun _ i => levelDraws (if i = 3 then 2 else 0)) 50 = some s ∧
    s.stopped = false ∧ s.core.iterCount = 50 := by
  set lev : ℕ → ℕ → ℕ := fun _ i => if i = 3 then 2 else 0 with hlevdef
  have hlev : ∀ g i, lev g i < 3 := by intro g i; simp only [lev]; split_ifs <;> omega
  have hok := levelCfg_ok levelValue 1000 (show 1 ≤ 4 by norm_num) (show 4 ≤ 10 by norm_num) lev hlev
  obtain ⟨s, h1, h2, h3, h4, h5⟩ := c175_ends_partial hok (by norm_num [levelCfg]) (.inl (by norm_num [levelCfg])) 50
  refine ⟨s, h1, ?_⟩
  rcases h : s.stopped with _ | _
  · exact ⟨rfl, h4 h⟩
  · obtain ⟨h6, h7⟩ := h5 h
    rw [c175_tolerance_unused (by norm_num [levelCfg])] at h7
    exfalso
    rcases h7 with h7 | ⟨h8, h7⟩
    · simp only [levelCfg] at h7
      omega
    · obtain ⟨-, -, hv⟩ := levelCfg_values levelValue (by norm_num) (by norm_num) lev hlev h2
      obtain ⟨l, e1, e2⟩ := hv (s.core.iterCount - 1) (by omega) 0 (by norm_num)
      obtain ⟨l', e3, e4⟩ := hv (s.core.iterCount - 1) (by omega) 3 (by norm_num)
      obtain rfl : Lvl.one (.str "a") = l := by simpa [lev, threeLevels] using e1
      obtain rfl : Lvl.one (.str "c") = l' := by simpa [lev, threeLevels] using e3
      have hq : quarterOffspring 4 10 = 3 := by
        have : ⌈(1 / 10 : ℚ) + (10 : ℕ) / 4⌉₊ = 3 := by
          rw [Nat.ceil_eq_iff (by norm_num)]
          norm_num
        unfold quarterOffspring
        rw [this]
        norm_num
      change offspringValue 4 10 _ _ 0 = offspringValue 4 10 _ _ (quarterOffspring 4 10) at h7
      rw [hq] at h7
      unfold offspringValue valueAt at h7
      rw [e2, e4] at h7
      have : (3 : ℝ) = 1 := h7
      norm_num at this

/-- The hypotheses of `c175_one_parent` hold. -/
example : StrengthOk (levelCfg levelValue 1 10 1000) (List.replicate 1 [.lvl (.one (.str "a"))]) (fun g i => levelDraws ((g + i) % 3)) :=
  levelCfg_ok levelValue 1000 le_rfl (by norm_num) (fun g i => (g + i) % 3) fun _ _ => Nat.mod_lt _ (by norm_num)

/-- The hypotheses of `c175_single_offspring` hold. -/
example : StrengthOk { levelCfg levelValue 2 1 1000 with elitism := true } (List.replicate 2 [.lvl (.one (.str "a"))]) (fun g i => levelDraws ((g + i) % 3)) := by
  have h := levelCfg_ok levelValue 1000 (show 1 ≤ 2 by norm_num) (le_refl 2) (fun g i => (g + i) % 3) fun _ _ => Nat.mod_lt _ (by norm_num)
  exact ⟨h.sort, h.bounds, h.mu, .inr rfl, h.len, h.points, h.draws⟩

end Verif.Props
