import Verif.Spec.MiesOrder
import Verif.Props.MiesFull

/-! # C176: the evolution strategy depends on the order of the values only -/
namespace Verif.Props
open Verif.Model Verif.Spec Verif.Proofs

variable {cfg : MiesCfg ℝ} {sample : List Row} {noise : ℕ → ℕ → StrengthNoise} {φ : ℝ → ℝ}

/-- What the two runs have in common. -/
private structure Alike (cfg : MiesCfg ℝ) (φ : ℝ → ℝ) (s s' : MiesFullState) : Prop extends SameRun φ s s' where
  fOff : s'.fOff = s.fOff.map φ
  eval : s'.flagEval = s.flagEval
  tol : s.flagTol = false ∧ s'.flagTol = false
  flat : s'.flagFlat = s.flagFlat
  count : ¬ cfg.lam ∣ s.evalCount

/-- Both runs raise, or the states are alike. -/
private def Both (cfg : MiesCfg ℝ) (φ : ℝ → ℝ) (a b : Option MiesFullState) : Prop := (a = none ∧ b = none) ∨ ∃ s s', a = some s ∧ b = some s' ∧ Alike cfg φ s s'

private theorem better_scaled (hφ : StrictMono φ) (m : Bool) (a b : ℝ) : betterThan m (φ a) (φ b) = betterThan m a b := by
  unfold betterThan
  simp only [hφ.lt_iff_lt]

private theorem best_scaled (hφ : StrictMono φ) (m : Bool) (l : List (Row × ℝ)) : firstBest m (l.map fun e => (e.1, φ e.2)) = (firstBest m l).map fun e => (e.1, φ e.2) := by
  induction l with
  | nil => rfl
  | cons e l ih =>
    rw [List.map_cons, firstBest, ih, firstBest]
    cases h : firstBest m l with
    | none => rfl
    | some e' =>
      dsimp only [Option.map_some]
      rw [better_scaled hφ]
      split_ifs <;> rfl

private theorem offspring_scaled (pop : List (Individual × ℝ)) (n : StrengthNoise) :
    strengthOffspring (rescaled φ cfg) (pop.map fun e => (e.1, φ e.2)) n = strengthOffspring cfg pop n := by
  unfold strengthOffspring
  rw [List.getElem?_map, List.getElem?_map]
  cases pop[n.p1]? with
  | none => rfl
  | some a =>
    cases pop[n.p2]? with
    | none => rfl
    | some b => rfl

private theorem select_scaled (ha : ∀ l, cfg.argsort (l.map φ) = cfg.argsort l) (pop off : List (Individual × ℝ)) :
    strengthSelect (rescaled φ cfg) (pop.map fun e => (e.1, φ e.2)) (off.map fun e => (e.1, φ e.2)) = (strengthSelect cfg pop off).map fun e => (e.1, φ e.2) := by
  unfold strengthSelect
  rw [show (rescaled φ cfg).elitism = cfg.elitism from rfl, show (rescaled φ cfg).minimize = cfg.minimize from rfl, show (rescaled φ cfg).argsort = cfg.argsort from rfl,
    show (rescaled φ cfg).mu = cfg.mu from rfl]
  dsimp only
  have hall : (if cfg.elitism then pop.map (fun e => (e.1, φ e.2)) ++ off.map (fun e => (e.1, φ e.2)) else off.map fun e => (e.1, φ e.2)) =
      (if cfg.elitism then pop ++ off else off).map fun e => (e.1, φ e.2) := by
    split_ifs <;> simp
  rw [hall]
  generalize (if cfg.elitism then pop ++ off else off) = all
  have hk : (all.map fun e => (e.1, φ e.2)).map Prod.snd = (all.map Prod.snd).map φ := by simp [Function.comp_def]
  rw [hk, ha, List.map_filterMap]
  congr 1
  funext i
  rw [List.getElem?_map]

private theorem init_alike (hφ : StrictMono φ) (hlen : sample.length = cfg.mu) (hd : ¬ cfg.lam ∣ cfg.mu) :
    Both cfg φ (miesFullInit cfg sample) (miesFullInit (rescaled φ cfg) sample) := by
  classical
  by_cases hb : ∀ k ∈ cfg.kinds, boundsChecked k
  · have h1 : strengthInit cfg sample = some ⟨sample.map fun r => (startInd cfg.kinds r, cfg.fit 0 r), 0, sample.map fun r => (r, cfg.fit 0 r)⟩ := if_pos hb
    have h2 : strengthInit (rescaled φ cfg) sample = some ⟨sample.map fun r => (startInd cfg.kinds r, φ (cfg.fit 0 r)), 0, sample.map fun r => (r, φ (cfg.fit 0 r))⟩ := if_pos hb
    unfold miesFullInit
    rw [h1, h2, Option.bind_some, Option.bind_some]
    have hpop : ((sample.map fun r => (startInd cfg.kinds r, φ (cfg.fit 0 r))).map fun e => (e.1.row, e.2)) =
        (((sample.map fun r => (startInd cfg.kinds r, cfg.fit 0 r)).map fun e => (e.1.row, e.2)).map fun e => (e.1, φ e.2)) := by simp [Function.comp_def]
    dsimp only
    rw [hpop, show (rescaled φ cfg).minimize = cfg.minimize from rfl, best_scaled hφ]
    cases hf : firstBest cfg.minimize ((sample.map fun r => (startInd cfg.kinds r, cfg.fit 0 r)).map fun e => (e.1.row, e.2)) with
    | none => exact .inl ⟨rfl, rfl⟩
    | some e =>
      refine .inr ⟨_, _, rfl, rfl, ⟨?_, ?_, rfl, rfl, rfl, rfl, rfl⟩, ?_, rfl, ⟨rfl, rfl⟩, rfl, ?_⟩
      · simp [Function.comp_def]
      · simp [Function.comp_def]
      · cases sample with
        | nil => simp [firstBest] at hf
        | cons r sample => simp [rescaled]
      · dsimp only
        rw [hlen]
        exact hd
  · have h1 : strengthInit cfg sample = none := if_neg hb
    have h2 : strengthInit (rescaled φ cfg) sample = none := if_neg hb
    unfold miesFullInit
    rw [h1, h2]
    exact .inl ⟨rfl, rfl⟩

private theorem stop_alike (hφ : StrictMono φ) {s s' : MiesFullState} (h : Alike cfg φ s s') : Both cfg φ (miesFullStop cfg s) (miesFullStop (rescaled φ cfg) s') := by
  have hmax : (rescaled φ cfg).maxEval = cfg.maxEval := rfl
  have hpos : comparedPosition (rescaled φ cfg) = comparedPosition cfg := rfl
  unfold miesFullStop
  dsimp only
  by_cases hc : s.evalCount ≠ 0 ∧ s.core.iterCount ≠ 0
  · rw [if_pos hc, if_pos (by rw [h.evalCount, h.iterCount]; exact hc), h.fOff, hpos, List.getElem?_map, List.getElem?_map]
    cases h0 : s.fOff[0]? with
    | none => exact .inl ⟨rfl, rfl⟩
    | some f0 =>
      cases hk : s.fOff[comparedPosition cfg]? with
      | none => exact .inl ⟨rfl, rfl⟩
      | some fk =>
        have hnd : ∀ n, ¬ cfg.lam * n ∣ s.evalCount := fun n hn => h.count ((dvd_mul_right _ _).trans hn)
        refine .inr ⟨_, _, rfl, rfl, ⟨h.pop, h.evaluated, h.xopt, h.fopt, h.iterCount, h.evalCount, h.stopped⟩, rfl, ?_, ⟨?_, ?_⟩, ?_, h.count⟩
        · dsimp only
          rw [h.eval, h.evalCount, hmax]
        · dsimp only
          rw [h.tol.1, Bool.false_or, decide_eq_false_iff_not]
          exact fun hh => hnd _ hh.1
        · dsimp only
          rw [h.tol.2, Bool.false_or, decide_eq_false_iff_not, h.evalCount]
          exact fun hh => hnd _ hh.1
        · dsimp only
          rw [h.flat]
          congr 1
          rw [Bool.eq_iff_iff]
          simp only [decide_eq_true_eq]
          exact hφ.injective.eq_iff
  · rw [if_neg hc, if_neg (by rw [h.evalCount, h.iterCount]; exact hc)]
    refine .inr ⟨_, _, rfl, rfl, ⟨h.pop, h.evaluated, h.xopt, h.fopt, h.iterCount, h.evalCount, h.stopped⟩, h.fOff, ?_, h.tol, h.flat, h.count⟩
    dsimp only
    rw [h.eval, h.evalCount, hmax]

private theorem step_alike (hφ : StrictMono φ) (ha : ∀ l, cfg.argsort (l.map φ) = cfg.argsort l) {s s' : MiesFullState} (h : Alike cfg φ s s') (n : ℕ → StrengthNoise) :
    Both cfg φ (miesFullStep cfg s n) (miesFullStep (rescaled φ cfg) s' n) := by
  unfold miesFullStep
  have hm : ((List.range (rescaled φ cfg).lam).mapM fun i => strengthOffspring (rescaled φ cfg) s'.core.pop (n i)) =
      (List.range cfg.lam).mapM fun i => strengthOffspring cfg s.core.pop (n i) := by
    rw [h.pop]
    simp only [offspring_scaled]
    rfl
  rw [hm]
  cases hi : (List.range cfg.lam).mapM fun i => strengthOffspring cfg s.core.pop (n i) with
  | none => exact .inl ⟨rfl, rfl⟩
  | some inds =>
    rw [Option.bind_some, Option.bind_some]
    dsimp only
    have hoff : (inds.map fun a => (a, (rescaled φ cfg).fit s'.core.iterCount a.row)) = (inds.map fun a => (a, cfg.fit s.core.iterCount a.row)).map fun e => (e.1, φ e.2) := by
      rw [h.iterCount]
      simp [rescaled, Function.comp_def]
    rw [hoff, h.pop, select_scaled ha]
    set off := inds.map fun a => (a, cfg.fit s.core.iterCount a.row) with hoffdef
    rw [List.head?_map]
    cases hh : (strengthSelect cfg s.core.pop off).head? with
    | none => exact .inl ⟨rfl, rfl⟩
    | some c =>
      have hbt : betterThan (rescaled φ cfg).minimize (φ c.2) s'.fopt = betterThan cfg.minimize c.2 s.fopt := by
        rw [h.fopt]
        exact better_scaled hφ _ _ _
      refine .inr ⟨_, _, rfl, rfl, ⟨rfl, ?_, ?_, ?_, ?_, ?_, h.stopped⟩, ?_, h.eval, h.tol, h.flat, ?_⟩
      · dsimp only
        rw [h.evaluated]
        simp [Function.comp_def]
      · dsimp only
        rw [hbt, h.xopt]
      · dsimp only
        rw [hbt, h.fopt]
        split_ifs <;> rfl
      · dsimp only
        rw [h.iterCount]
      · dsimp only
        rw [h.evalCount]
      · simp [Function.comp_def]
      · have hl : inds.length = cfg.lam := by
          have := congrArg List.length (map_of_mapM hi)
          simpa using this.symm
        dsimp only
        rw [hl]
        exact fun hdv => h.count ((Nat.dvd_add_left (dvd_refl _)).1 hdv)

private theorem run_alike (hφ : StrictMono φ) (ha : ∀ l, cfg.argsort (l.map φ) = cfg.argsort l) (hlen : sample.length = cfg.mu) (hd : ¬ cfg.lam ∣ cfg.mu) (t : ℕ) :
    Both cfg φ (miesFullRun cfg sample noise t) (miesFullRun (rescaled φ cfg) sample noise t) := by
  induction t with
  | zero => exact init_alike hφ hlen hd
  | succ t ih =>
    rw [miesFullRun, miesFullRun]
    rcases ih with ⟨h1, h2⟩ | ⟨s, s', h1, h2, h⟩
    · rw [h1, h2]
      exact .inl ⟨rfl, rfl⟩
    · rw [h1, h2, Option.bind_some, Option.bind_some]
      unfold miesFullPass
      rw [h.stopped]
      by_cases hst : s.stopped = true
      · rw [if_pos hst, if_pos hst]
        exact .inr ⟨s, s', rfl, rfl, h⟩
      · rw [if_neg hst, if_neg hst]
        rcases stop_alike hφ h with ⟨k1, k2⟩ | ⟨r, r', k1, k2, k⟩
        · rw [k1, k2]
          exact .inl ⟨rfl, rfl⟩
        · rw [k1, k2, Option.bind_some, Option.bind_some]
          have hfl : (r'.flagEval || r'.flagTol || r'.flagFlat) = (r.flagEval || r.flagTol || r.flagFlat) := by rw [k.eval, k.tol.1, k.tol.2, k.flat]
          rw [hfl]
          by_cases hf : (r.flagEval || r.flagTol || r.flagFlat) = true
          · rw [if_pos hf, if_pos hf]
            exact .inr ⟨_, _, rfl, rfl, ⟨k.pop, k.evaluated, k.xopt, k.fopt, k.iterCount, k.evalCount, rfl⟩, k.fOff, k.eval, k.tol, k.flat, k.count⟩
          · rw [if_neg hf, if_neg hf, k.iterCount]
            exact step_alike hφ ha k _

/-- **C176.**  If the number of parents is no multiple of the number of offspring (as in the default setting) and sorting looks at the order of the values only, then the strategy on
an increasing transformation of the objective is the same run: it raises if and only if the original does, proposes the same points in the same order, ends in the same generation and
returns the same point with the transformed value. -/
theorem c176_order_partial (hφ : StrictMono φ) (ha : ∀ l, cfg.argsort (l.map φ) = cfg.argsort l) (hlen : sample.length = cfg.mu) (hd : ¬ cfg.lam ∣ cfg.mu) (t : ℕ) :
    (miesFullRun cfg sample noise t = none ↔ miesFullRun (rescaled φ cfg) sample noise t = none) ∧
      ∀ s s', miesFullRun cfg sample noise t = some s → miesFullRun (rescaled φ cfg) sample noise t = some s' → SameRun φ s s' := by
  rcases run_alike (noise := noise) hφ ha hlen hd t with ⟨h1, h2⟩ | ⟨s, s', h1, h2, h⟩
  · rw [h1, h2]
    simp
  · rw [h1, h2]
    refine ⟨by simp, ?_⟩
    intro r r' hr hr'
    cases hr
    cases hr'
    exact h.toSameRun

/-- Sorting that looks at the order of the values only, as assumed in `c176_order_partial`. -/
theorem realArgsort_scaled (hφ : StrictMono φ) (l : List ℝ) : realArgsort (l.map φ) = realArgsort l := by
  have hk : (fun i j => sortKey (l.map φ) i ≤ sortKey (l.map φ) j) = fun i j => sortKey l i ≤ sortKey l j := by
    funext i j
    have hi : ∀ i, sortKey (l.map φ) i = WithBot.map φ (sortKey l i) := by
      intro i
      unfold sortKey
      rw [List.getElem?_map]
      rfl
    rw [hi, hi]
    exact propext (WithBot.map_le_iff φ hφ.le_iff_le)
  unfold realArgsort
  simp only [hk, List.length_map]

private theorem thirty_ends (fit : Row → ℝ) (hne : fit [.lvl (.one (.str "a"))] ≠ fit [.lvl (.one (.str "c"))]) {t : ℕ} {s : StrengthState ℝ}
    (hs : strengthAfter (levelCfg fit 30 30 1000) (List.replicate 30 [.lvl (.one (.str "a"))]) (fun _ i => levelDraws (if i = 8 then 2 else 0)) t = some s) {g : ℕ} (hgt : g ≤ t) (hg : g ≤ 3) :
    EndsAfter (levelCfg fit 30 30 1000) s.evaluated g ↔ g = 3 ∧ |fit [.lvl (.one (.str "a"))]| < 1e-5 := by
  obtain ⟨-, -, hv⟩ := levelCfg_values fit (by norm_num) (by norm_num) (fun _ i => if i = 8 then 2 else 0) (by intro g i; split_ifs <;> omega) hs
  have hq : quarterOffspring 30 30 = 8 := by
    have : ⌈(1 / 10 : ℚ) + (30 : ℕ) / 4⌉₊ = 8 := by
      rw [Nat.ceil_eq_iff (by norm_num)]
      norm_num
    unfold quarterOffspring
    rw [this]
    norm_num
  have hr : remembered 1 30 = 4 := by
    have : ⌈(30 * (1 : ℕ) : ℚ) / (30 : ℕ)⌉₊ = 1 := by
      rw [Nat.ceil_eq_iff (by norm_num)]
      norm_num
    unfold remembered
    rw [this]
  have h0 : ∀ g, g ≠ 0 → g ≤ t → offspringValue 30 30 s.evaluated g 0 = fit [.lvl (.one (.str "a"))] := by
    intro g h1 h2
    obtain ⟨l, e1, e2⟩ := hv (g - 1) (by omega) 0 (by norm_num)
    obtain rfl : Lvl.one (.str "a") = l := by simpa [threeLevels] using e1
    unfold offspringValue valueAt
    rw [e2]
    rfl
  have h8 : ∀ g, g ≠ 0 → g ≤ t → offspringValue 30 30 s.evaluated g 8 = fit [.lvl (.one (.str "c"))] := by
    intro g h1 h2
    obtain ⟨l, e1, e2⟩ := hv (g - 1) (by omega) 8 (by norm_num)
    obtain rfl : Lvl.one (.str "c") = l := by simpa [threeLevels] using e1
    unfold offspringValue valueAt
    rw [e2]
    rfl
  have hf : ∀ g, g ≤ t → firstValue 30 30 s.evaluated g = if g = 0 then 0 else fit [.lvl (.one (.str "a"))] := by
    intro g hg
    unfold firstValue
    split_ifs with h
    · rfl
    · exact h0 g h hg
  change 1000 < 30 + 30 * g ∨ g ≠ 0 ∧ (offspringValue 30 30 s.evaluated g 0 = offspringValue 30 30 s.evaluated g (quarterOffspring 30 30) ∨
    30 * remembered 1 30 ∣ 30 + 30 * g ∧ Level 30 30 (remembered 1 30) s.evaluated g) ↔ _
  rw [hq, hr]
  constructor
  · rintro (h | ⟨h, h2 | ⟨h2, h3⟩⟩)
    · omega
    · rw [h0 g h hgt, h8 g h hgt] at h2
      exact absurd h2 hne
    · have : g = 3 := by
        have h4 : g = 1 ∨ g = 2 ∨ g = 3 := by omega
        rcases h4 with rfl | rfl | rfl
        · norm_num at h2
        · norm_num at h2
        · rfl
      subst this
      refine ⟨rfl, ?_⟩
      have k1 := h3 0 (by norm_num) 3 (by norm_num)
      have k2 := h3 3 (by norm_num) 0 (by norm_num)
      rw [hf _ (by omega), hf _ (by omega)] at k1 k2
      norm_num at k1 k2
      rw [abs_lt]
      constructor <;> linarith
  · rintro ⟨rfl, h⟩
    refine .inr ⟨by norm_num, .inr ⟨by norm_num, ?_⟩⟩
    intro a ha b hb
    rw [hf _ (by omega), hf _ (by omega)]
    rw [abs_lt] at h
    norm_num at h
    split_ifs
    all_goals first | (norm_num; done) | (norm_num; linarith)

/-- **C176 fails if the number of parents is a multiple of the number of offspring.**  Thirty parents and offspring, one categorical variable: dividing all values by a million makes the
same run end after three generations, since the history is compared with zeros. -/
theorem c176_refuted : ∃ (cfg : MiesCfg ℝ) (sample : List Row) (noise : ℕ → ℕ → StrengthNoise) (φ : ℝ → ℝ) (s s' : MiesFullState),
    StrictMono φ ∧ (∀ l, cfg.argsort (l.map φ) = cfg.argsort l) ∧ StrengthOk cfg sample noise ∧ StrengthOk (rescaled φ cfg) sample noise ∧
      miesFullRun cfg sample noise 4 = some s ∧ miesFullRun (rescaled φ cfg) sample noise 4 = some s' ∧
      s.stopped = false ∧ s.core.iterCount = 4 ∧ s'.stopped = true ∧ s'.core.iterCount = 3 := by
  have hlev : ∀ g i : ℕ, (fun _ i => if i = 8 then 2 else 0 : ℕ → ℕ → ℕ) g i < 3 := by intro g i; dsimp only; split_ifs <;> omega
  have hφ : StrictMono fun x : ℝ => x / 1000000 := fun a b h => div_lt_div_of_pos_right h (by norm_num)
  have hok := levelCfg_ok levelValue 1000 (show 1 ≤ 30 by norm_num) (le_refl 30) _ hlev
  have hok' := levelCfg_ok (fun r => levelValue r / 1000000) 1000 (show 1 ≤ 30 by norm_num) (le_refl 30) _ hlev
  obtain ⟨s, a1, a2, a3, a4, a5⟩ := c175_ends_partial hok (by norm_num [levelCfg]) (.inl (by norm_num [levelCfg])) 4
  obtain ⟨s', b1, b2, b3, b4, b5⟩ := c175_ends_partial hok' (by norm_num [levelCfg]) (.inl (by norm_num [levelCfg])) 4
  have hva : levelValue [.lvl (.one (.str "a"))] = 3 := rfl
  have hvc : levelValue [.lvl (.one (.str "c"))] = 1 := rfl
  have hne : levelValue [.lvl (.one (.str "a"))] ≠ levelValue [.lvl (.one (.str "c"))] := by rw [hva, hvc]; norm_num
  have hne' : levelValue [.lvl (.one (.str "a"))] / 1000000 ≠ levelValue [.lvl (.one (.str "c"))] / 1000000 := by rw [hva, hvc]; norm_num
  have hs : s.stopped = false := by
    rcases h : s.stopped with _ | _
    · rfl
    · obtain ⟨h1, h2⟩ := a5 h
      rw [thirty_ends levelValue hne a2 le_rfl (by omega), hva] at h2
      norm_num at h2
  have hs' : s'.stopped = true := by
    rcases h : s'.stopped with _ | _
    · have h1 := b4 h
      refine absurd ?_ (b3 3 (by omega))
      rw [thirty_ends (fun r => levelValue r / 1000000) hne' b2 (by omega) le_rfl, hva]
      norm_num [abs_lt]
    · rfl
  obtain ⟨h1, h2⟩ := b5 hs'
  rw [thirty_ends (fun r => levelValue r / 1000000) hne' b2 le_rfl (by omega)] at h2
  exact ⟨_, _, _, _, s, s', hφ, realArgsort_scaled hφ, hok, hok', a1, b1, hs, a4 hs, hs', h2.1⟩

/-- The hypotheses of `c176_order_partial` hold for the default numbers of parents and offspring, and both runs go on. -/
example (a b : ℝ) (h : 0 < a) : (∀ l, (levelCfg levelValue 4 10 1000).argsort (l.map fun x => a * x + b) = (levelCfg levelValue 4 10 1000).argsort l) ∧
    ¬ (levelCfg levelValue 4 10 1000).lam ∣ (levelCfg levelValue 4 10 1000).mu ∧
    StrengthOk (levelCfg levelValue 4 10 1000) (List.replicate 4 [.lvl (.one (.str "a"))]) (fun g i => levelDraws ((g + i) % 3)) :=
  ⟨realArgsort_scaled fun x y hxy => by nlinarith, by norm_num [levelCfg],
    levelCfg_ok levelValue 1000 (by norm_num) (by norm_num) (fun g i => (g + i) % 3) fun _ _ => Nat.mod_lt _ (by norm_num)⟩

end Verif.Props
