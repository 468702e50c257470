import Verif.Proofs.Mies
import Mathlib.Algebra.Order.Ring.Rat

/-! # C31, C63: the mixed-integer evolution strategy -/
namespace Verif.Props
open Verif.Model Verif.Spec Verif.Proofs

variable {K : Type*} [LinearOrder K]

/-- What is assumed of a run: sizes, a real `argsort`, proper bounds, and an initial sample of `mu` points of the
space. -/
structure MiesOk (cfg : MiesCfg K) (sample : List Row) (noise : ℕ → ℕ → MNoise) : Prop where
  sort : SortsValues cfg.argsort
  bounds : ∀ k ∈ cfg.kinds, ProperBounds k
  mu : 1 ≤ cfg.mu
  lam : cfg.mu ≤ cfg.lam ∨ cfg.elitism = true
  len : sample.length = cfg.mu
  points : ∀ r ∈ sample, PointOf cfg.kinds r
  noise : NoiseOk cfg.mu noise

/-- The state after `t` generations. -/
noncomputable def miesAfter (cfg : MiesCfg K) (sample : List Row) (noise : ℕ → ℕ → MNoise) :
    ℕ → Option (MiesState K)
  | 0 => miesInit cfg sample
  | t + 1 => (miesAfter cfg sample noise t).bind (fun s => miesStep cfg s (noise t))

private theorem after_inv (cfg : MiesCfg K) (sample : List Row) (noise : ℕ → ℕ → MNoise) (h : MiesOk cfg sample noise)
    (t : ℕ) : ∃ s, miesAfter cfg sample noise t = some s ∧ MiesInv cfg s ∧ s.iterCount = t := by
  induction t with
  | zero => exact mies_init_inv cfg sample h.mu h.len h.points
  | succ t ih =>
    obtain ⟨s, h1, h2, h3⟩ := ih
    obtain ⟨s', h4, h5, h6, -, -⟩ := mies_step_inv cfg h.sort h.bounds h.mu h.lam s h2 (noise t) (h.noise t)
    exact ⟨s', by unfold miesAfter; rw [h1, Option.bind_some, h4], h5, by rw [h6, h3]⟩

/-- C31, partial (integer variables must have integer bounds, see `c31_float_bounds_leave_space`): after every number of
generations the population has `mu` individuals, all in the space, as is everything ever evaluated; the
best-so-far pair was evaluated and no evaluated (penalised) value is better; the counter is
`mu + lambda * generations` and the number of evaluations. -/
theorem c31_invariant_partial (cfg : MiesCfg K) (sample : List Row) (noise : ℕ → ℕ → MNoise)
    (h : MiesOk cfg sample noise) (t : ℕ) :
    ∃ s, miesAfter cfg sample noise t = some s ∧ s.pop.length = cfg.mu ∧
      (∀ e ∈ s.pop, PointOf cfg.kinds e.1) ∧ (∀ e ∈ s.evaluated, PointOf cfg.kinds e.1) ∧
      PointOf cfg.kinds s.xopt ∧ (s.xopt, s.fopt) ∈ s.evaluated ∧
      (∀ e ∈ s.evaluated, AtLeastAsGood cfg.minimize s.fopt e.2) ∧
      s.evalCount = cfg.mu + cfg.lam * t ∧ s.evalCount = s.evaluated.length := by
  obtain ⟨s, h1, h2, h3⟩ := after_inv cfg sample noise h t
  exact ⟨s, h1, h2.pop_len, fun e he => h2.valid e (h2.pop_sub e he), h2.valid, h2.valid _ h2.mem, h2.mem, h2.best,
    by rw [h2.formula, h3], h2.count⟩

/-- C31: the best-so-far value never gets worse from one generation to the next. -/
theorem c31_monotone (cfg : MiesCfg K) (s s' : MiesState K) (noise : ℕ → MNoise)
    (h : miesStep cfg s noise = some s') : AtLeastAsGood cfg.minimize s'.fopt s.fopt := by
  unfold miesStep at h
  rw [Option.bind_eq_some_iff] at h
  obtain ⟨rows, -, h⟩ := h
  simp only [Option.map_eq_some_iff] at h
  obtain ⟨c, -, rfl⟩ := h
  simp only
  split
  · rename_i hb; exact good_of_better hb
  · exact good_refl _ _

private theorem loop_spec (cfg : MiesCfg K) (sample : List Row) (noise : ℕ → ℕ → MNoise) (h : MiesOk cfg sample noise)
    (flat : ℕ → Bool) : ∀ (fuel t : ℕ) (s : MiesState K), miesAfter cfg sample noise t = some s →
      (∀ t' < t, cfg.mu + cfg.lam * t' ≤ cfg.maxEval) →
      match miesLoop cfg flat noise fuel s with
      | .done r => ∃ t', miesAfter cfg sample noise t' = some r ∧ (∀ t'' < t', cfg.mu + cfg.lam * t'' ≤ cfg.maxEval)
      | .raised => False
      | .running => ∀ t' < t + fuel, cfg.mu + cfg.lam * t' ≤ cfg.maxEval := by
  intro fuel
  induction fuel with
  | zero => intro t s _ ht; simpa [miesLoop] using ht
  | succ fuel ih =>
    intro t s hs ht
    obtain ⟨s0, e0, hinv, hit⟩ := after_inv cfg sample noise h t
    rw [hs] at e0
    obtain rfl := Option.some.inj e0
    unfold miesLoop
    by_cases hstop : s.evalCount > cfg.maxEval ∨ (s.iterCount ≠ 0 ∧ flat s.iterCount = true)
    · rw [if_pos hstop]
      exact ⟨t, hs, ht⟩
    · rw [if_neg hstop]
      push Not at hstop
      obtain ⟨s', h4, -, -, -⟩ := mies_step_inv cfg h.sort h.bounds h.mu h.lam s hinv (noise t) (h.noise t)
      rw [hit, h4]
      have ht' : ∀ t' < t + 1, cfg.mu + cfg.lam * t' ≤ cfg.maxEval := by
        intro t' hlt
        rcases Nat.lt_succ_iff_lt_or_eq.mp hlt with hlt | rfl
        · exact ht t' hlt
        · have := hinv.formula
          rw [hit] at this
          omega
      have := ih (t + 1) s' (by unfold miesAfter; rw [hs, Option.bind_some, h4]) ht'
      simp only
      rw [show t + 1 + fuel = t + (fuel + 1) by ring] at this
      exact this

/-- C31, C63: `optimize` never raises, stops after finitely many generations whatever the random outcomes and the other
stopping criteria, and its result is the state after some number of generations. -/
theorem c63_terminates (cfg : MiesCfg K) (sample : List Row) (noise : ℕ → ℕ → MNoise) (h : MiesOk cfg sample noise)
    (hl : 1 ≤ cfg.lam) (flat : ℕ → Bool) (s0 : MiesState K) (h0 : miesInit cfg sample = some s0) (fuel : ℕ)
    (hfuel : cfg.maxEval + 2 ≤ fuel) :
    ∃ r t, miesLoop cfg flat noise fuel s0 = .done r ∧ miesAfter cfg sample noise t = some r := by
  have := loop_spec cfg sample noise h flat fuel 0 s0 h0 (by simp)
  cases hr : miesLoop cfg flat noise fuel s0 with
  | done r =>
    rw [hr] at this
    obtain ⟨t', h1, -⟩ := this
    exact ⟨r, t', rfl, h1⟩
  | raised => rw [hr] at this; exact this.elim
  | running =>
    rw [hr] at this
    have h2 := this (cfg.maxEval + 1) (by omega)
    have h3 : cfg.maxEval + 1 ≤ cfg.lam * (cfg.maxEval + 1) := Nat.le_mul_of_pos_left _ hl
    omega

/-- C63: the number of evaluations exceeds the limit by at most one generation (`lambda`), or is the initial `mu`. -/
theorem c63_budget (cfg : MiesCfg K) (sample : List Row) (noise : ℕ → ℕ → MNoise) (h : MiesOk cfg sample noise)
    (flat : ℕ → Bool) (s0 : MiesState K) (h0 : miesInit cfg sample = some s0) (fuel : ℕ) (r : MiesState K)
    (hr : miesLoop cfg flat noise fuel s0 = .done r) :
    r.evalCount = cfg.mu ∨ r.evalCount ≤ cfg.maxEval + cfg.lam := by
  have := loop_spec cfg sample noise h flat fuel 0 s0 h0 (by simp)
  rw [hr] at this
  obtain ⟨t, h1, h2⟩ := this
  obtain ⟨s, e, hinv, hit⟩ := after_inv cfg sample noise h t
  rw [h1] at e
  obtain rfl := Option.some.inj e
  have hf := hinv.formula
  rw [hit] at hf
  cases t with
  | zero => left; simpa using hf
  | succ t =>
    right
    have := h2 t (by omega)
    rw [hf, mul_add]
    omega

/-- A mixed space with a real, an integer and a categorical variable. -/
noncomputable def miesKinds : List Kind :=
  [.real { lo := 0, hi := 1 }, .integer { lo := -2, hi := 5 }, .discrete [.one (.str "a"), .one (.str "b")]]

/-- A point of that space. -/
noncomputable def miesPoint : Row := [.real (1 / 2), .int 3, .lvl (.one (.str "a"))]

/-- Insertion-based argsort, as an example of `argsort`. -/
def exampleArgsort (l : List ℚ) : List ℕ :=
  List.insertionSort (fun i j => l.getD i 0 ≤ l.getD j 0) (List.range l.length)

theorem exampleArgsort_ok : SortsValues exampleArgsort := by
  intro l
  refine ⟨List.perm_insertionSort _ _, ?_⟩
  have : IsTrans ℕ (fun i j => l.getD i 0 ≤ l.getD j 0) := ⟨fun _ _ _ h1 h2 => le_trans h1 h2⟩
  have : Std.Total (fun i j => l.getD i 0 ≤ l.getD j 0) := ⟨fun _ _ => le_total _ _⟩
  refine (List.pairwise_insertionSort (fun i j => l.getD i 0 ≤ l.getD j 0) (List.range l.length)).imp ?_
  intro i j h a b ha hb
  simpa [List.getD_eq_getElem?_getD, ha, hb] using h

/-- The hypotheses of the theorems hold for this space, `mu = 4`, `lambda = 10` and any random outcomes with parents among
the four individuals. -/
theorem miesExample_ok (fit : ℕ → Row → ℚ) (noise : ℕ → ℕ → MNoise) (hn : NoiseOk 4 noise) :
    MiesOk { kinds := miesKinds, minimize := false, elitism := false, mu := 4, lam := 10, maxEval := 100, fit := fit, argsort := exampleArgsort }
      (List.replicate 4 miesPoint) noise := by
  refine ⟨exampleArgsort_ok, ?_, by simp, by simp, by simp, ?_, hn⟩
  · intro k hk
    simp only [miesKinds, List.mem_cons, List.not_mem_nil, or_false] at hk
    rcases hk with rfl | rfl | rfl
    · simp [ProperBounds]
    · exact ⟨by norm_num, ⟨-2, by norm_num⟩, ⟨5, by norm_num⟩⟩
    · trivial
  · intro r hr
    rw [List.eq_of_mem_replicate hr]
    refine ⟨rfl, ?_⟩
    intro j k v hj hv
    match j with
    | 0 =>
      simp [miesKinds, miesPoint] at hj hv
      subst hj hv
      constructor <;> norm_num
    | 1 =>
      simp [miesKinds, miesPoint] at hj hv
      subst hj hv
      constructor <;> norm_num
    | 2 =>
      simp [miesKinds, miesPoint] at hj hv
      subst hj hv
      simp [Kind.contains]
    | j + 3 => simp [miesKinds] at hj

/-- C31 refuted for integer variables with fractional bounds (which the constructor accepts): mutating the legal value 1 of
`Integer([0.5, 2.25])` by 3 gives 0, which is not in the variable. -/
theorem c31_float_bounds_leave_space :
    let v : IntVar := { lo := 1 / 2, hi := 9 / 4 }
    (∃ w, mkInt (1 / 2) (9 / 4) 1 = .ok w ∧ w = v) ∧ (Kind.integer v).contains (.int 1) ∧
      ∃ n : MNoise, mutateVal n 0 (.integer v) (.int 1) = .int 0 ∧ ¬ (Kind.integer v).contains (.int 0) := by
  refine ⟨⟨{ lo := 1 / 2, hi := 9 / 4 }, ?_, rfl⟩, ⟨by norm_num, by norm_num⟩,
    ⟨0, 0, fun _ => false, fun _ => 0, fun _ => 3, fun _ => none⟩, ?_, ?_⟩
  · unfold mkInt; norm_num
  · have h1 : reflect (1 / 2 : ℝ) (9 / 4) ((1 + 3 : ℤ) : ℝ) = 1 / 2 := by
      have hf : ⌊(((1 + 3 : ℤ) : ℝ) - 1 / 2) / (9 / 4 - 1 / 2)⌋ = 2 := by
        rw [Int.floor_eq_iff]; norm_num
      unfold reflect
      simp only [hf]
      norm_num
    have h2 : trunc (1 / 2 : ℝ) = 0 := by
      unfold trunc
      rw [if_pos (by norm_num), Int.floor_eq_iff]
      norm_num
    simp only [mutateVal, h1, h2]
  · intro h
    have := h.1
    norm_num at this

/-- The step of an integer variable is ignored by the mutation: from the grid `0, 2, 4` the value 2 can become 1. -/
theorem c31_step_ignored :
    ∃ n : MNoise, mutateVal n 0 (.integer { lo := 0, hi := 4, step := 2 }) (.int 2) = .int 1 := by
  refine ⟨⟨0, 0, fun _ => false, fun _ => 0, fun _ => -1, fun _ => none⟩, ?_⟩
  have h1 : reflect (0 : ℝ) 4 ((2 + -1 : ℤ) : ℝ) = ((1 : ℤ) : ℝ) := by
    rw [reflect_id (by norm_num) (by norm_num) (by norm_num)]
    norm_num
  simp only [mutateVal, h1, trunc_intCast]

end Verif.Props
