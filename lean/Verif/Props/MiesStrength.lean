import Verif.Proofs.MiesStrength
import Verif.Props.Mies
import Mathlib.Probability.Distributions.Gaussian.Real

/-! # C165: the self-adaptation of the mixed-integer evolution strategy -/
namespace Verif.Props
open Verif.Model Verif.Spec Verif.Proofs MeasureTheory ProbabilityTheory

variable {K : Type*} [LinearOrder K]

/-- What is assumed of a run: sizes, a real `argsort`, proper bounds, an initial sample of `mu` points of the space, and random numbers that the generators can give. -/
structure StrengthOk (cfg : MiesCfg K) (sample : List Row) (noise : ℕ → ℕ → StrengthNoise) : Prop where
  sort : SortsValues cfg.argsort
  bounds : ∀ k ∈ cfg.kinds, ProperBounds k
  mu : 1 ≤ cfg.mu
  lam : cfg.mu ≤ cfg.lam ∨ cfg.elitism = true
  len : sample.length = cfg.mu
  points : ∀ r ∈ sample, PointOf cfg.kinds r
  draws : ∀ t i, PossibleDraws cfg.kinds cfg.mu (noise t i)

private theorem proper_checked {ks : List Kind} (h : ∀ k ∈ ks, ProperBounds k) : ∀ k ∈ ks, boundsChecked k := by
  intro k hk
  have := h k hk
  cases k with
  | real v => exact this
  | integer v => exact this.1
  | _ => trivial

/-- The proposals of a run. -/
private noncomputable def runProposals (cfg : MiesCfg K) (sample : List Row) (noise : ℕ → ℕ → StrengthNoise) (t i : ℕ) : MNoise :=
  offProposals cfg.kinds (((strengthAfter cfg sample noise t).map StrengthState.pop).getD []) (noise t i)

private theorem run_ok {cfg : MiesCfg K} {sample : List Row} {noise : ℕ → ℕ → StrengthNoise} (h : StrengthOk cfg sample noise) :
    MiesOk cfg sample (runProposals cfg sample noise) :=
  ⟨h.sort, h.bounds, h.mu, h.lam, h.len, h.points, fun t i => ⟨(h.draws t i).p1, (h.draws t i).p2⟩⟩

/-- C165: the run never raises, and forgetting the strengths it is a run of the strategy of C31 and C63 with legal proposals. -/
theorem c165_refines (cfg : MiesCfg K) (sample : List Row) (noise : ℕ → ℕ → StrengthNoise) (h : StrengthOk cfg sample noise) :
    ∃ noise' : ℕ → ℕ → MNoise, MiesOk cfg sample noise' ∧ ∀ t, ∃ s m, strengthAfter cfg sample noise t = some s ∧ miesAfter cfg sample noise' t = some m ∧
      m.pop = s.pop.map (fun e => (e.1.row, e.2)) ∧ m.iterCount = s.iterCount ∧ m.evaluated = s.evaluated := by
  refine ⟨runProposals cfg sample noise, run_ok h, fun t => ?_⟩
  induction t with
  | zero =>
    obtain ⟨m, hm, -⟩ := c31_invariant_partial cfg sample _ (run_ok h) 0
    refine ⟨_, m, if_pos (proper_checked h.bounds), hm, ?_⟩
    unfold miesAfter miesInit at hm
    rw [Option.map_eq_some_iff] at hm
    obtain ⟨e, -, rfl⟩ := hm
    exact ⟨by simp [startInd, Function.comp_def], rfl, rfl⟩
  | succ t ih =>
    obtain ⟨s, m, hs, hm, hp, hi, he⟩ := ih
    obtain ⟨m', hm', -⟩ := c31_invariant_partial cfg sample _ (run_ok h) (t + 1)
    have hstep : miesStep cfg m (fun i => offProposals cfg.kinds s.pop (noise t i)) = some m' := by
      unfold miesAfter at hm'
      rw [hm, Option.bind_some] at hm'
      rw [← hm']
      congr 1
      funext i
      simp [runProposals, hs]
    obtain ⟨s', h1, h2, h3, h4⟩ := step_refines hp hi he hstep
    exact ⟨s', m', by unfold strengthAfter; rw [hs, Option.bind_some, h1], hm', h2, h3, h4⟩

private theorem run_proper {cfg : MiesCfg K} {sample : List Row} {noise : ℕ → ℕ → StrengthNoise} (h : StrengthOk cfg sample noise) {t : ℕ} {s : StrengthState K}
    (hs : strengthAfter cfg sample noise t = some s) : ∀ e ∈ s.pop, ProperStrengths cfg.kinds e.1 := by
  induction t generalizing s with
  | zero =>
    unfold strengthAfter strengthInit at hs
    rw [if_pos (proper_checked h.bounds)] at hs
    obtain rfl := Option.some.inj hs
    intro e he
    obtain ⟨r, -, rfl⟩ := List.mem_map.1 he
    exact startInd_proper (proper_checked h.bounds) r
  | succ t ih =>
    unfold strengthAfter at hs
    rw [Option.bind_eq_some_iff] at hs
    obtain ⟨s0, h0, h1⟩ := hs
    exact step_inherits _ (ih h0) (fun i a b ha hb => mutateInd_proper _ (recombineInd_proper _ ha hb)) h1

private theorem run_points {cfg : MiesCfg K} {sample : List Row} {noise : ℕ → ℕ → StrengthNoise} (h : StrengthOk cfg sample noise) {t : ℕ} {s : StrengthState K}
    (hs : strengthAfter cfg sample noise t = some s) : s.pop.length = cfg.mu ∧ ∀ e ∈ s.pop, PointOf cfg.kinds e.1.row := by
  obtain ⟨noise', hok, hall⟩ := c165_refines cfg sample noise h
  obtain ⟨s1, m, h1, h2, h3, -, -⟩ := hall t
  rw [hs] at h1
  obtain rfl := Option.some.inj h1
  obtain ⟨m1, h4, h5, h6, -⟩ := c31_invariant_partial cfg sample noise' hok t
  rw [h2] at h4
  obtain rfl := Option.some.inj h4
  rw [h3] at h5 h6
  exact ⟨by simpa using h5, fun e he => h6 _ (List.mem_map_of_mem he)⟩

private theorem run_evaluated {cfg : MiesCfg K} {sample : List Row} {noise : ℕ → ℕ → StrengthNoise} (h : StrengthOk cfg sample noise) {t : ℕ} {s : StrengthState K}
    (hs : strengthAfter cfg sample noise t = some s) : ∀ p ∈ s.evaluated, PointOf cfg.kinds p.1 := by
  obtain ⟨noise', hok, hall⟩ := c165_refines cfg sample noise h
  obtain ⟨s1, m, h1, h2, -, -, h3⟩ := hall t
  rw [hs] at h1
  obtain rfl := Option.some.inj h1
  obtain ⟨m1, h4, -, -, h6, -⟩ := c31_invariant_partial cfg sample noise' hok t
  rw [h2] at h4
  obtain rfl := Option.some.inj h4
  rw [h3] at h6
  exact h6

/-- C165: in every generation of every run all strengths are legal, so that whatever parents and random numbers come next the parameters of the next draws are: the parameter of the
geometric draws lies strictly between 0 and 1, and the mutation probability is positive and at most 1. -/
theorem c165_strengths (cfg : MiesCfg K) (sample : List Row) (noise : ℕ → ℕ → StrengthNoise) (h : StrengthOk cfg sample noise) (t : ℕ) :
    ∃ s, strengthAfter cfg sample noise t = some s ∧ s.pop.length = cfg.mu ∧ (∀ e ∈ s.pop, PointOf cfg.kinds e.1.row ∧ ProperStrengths cfg.kinds e.1) ∧
      ∀ a ∈ s.pop, ∀ b ∈ s.pop, ∀ n : StrengthNoise,
        (∀ (j : ℕ) (v : RealVar), cfg.kinds[j]? = some (.real v) → 0 ≤ sigmaUsed cfg.kinds n (recombineInd cfg.kinds n a.1 b.1) j) ∧
        (∀ (j : ℕ) (v : IntVar), cfg.kinds[j]? = some (.integer v) →
          0 < geometricPar (countInteger cfg.kinds) (etaUsed cfg.kinds n (recombineInd cfg.kinds n a.1 b.1) j) ∧
          geometricPar (countInteger cfg.kinds) (etaUsed cfg.kinds n (recombineInd cfg.kinds n a.1 b.1) j) < 1) ∧
        ((∃ k ∈ cfg.kinds, k.vtype ≠ .real ∧ k.vtype ≠ .integer) →
          0 < probUsed cfg.kinds n (recombineInd cfg.kinds n a.1 b.1) ∧ probUsed cfg.kinds n (recombineInd cfg.kinds n a.1 b.1) ≤ 1) := by
  obtain ⟨_, _, hall⟩ := c165_refines cfg sample noise h
  obtain ⟨s, -, hs, -⟩ := hall t
  obtain ⟨h1, h2⟩ := run_points h hs
  have h3 := run_proper h hs
  refine ⟨s, hs, h1, fun e he => ⟨h2 e he, h3 e he⟩, fun a ha b hb n => ?_⟩
  have hc := recombineInd_proper n (h3 a ha) (h3 b hb)
  refine ⟨fun j v hj => mul_nonneg (hc.step j v hj) (stepFactor_pos _ _ _).le, fun j v hj => ?_, fun hk => ?_⟩
  · exact geometricPar_mem (countInteger_pos hj) (lt_min (mul_pos (hc.integer j v hj) (stepFactor_pos _ _ _)) one_pos)
  · exact probUsed_mem _ _ _ (hc.category hk).1 (hc.category hk).2

/-! ### Every point can be proposed -/

private theorem real_reached {v : RealVar} (h : v.lo < v.hi) {x y s : ℝ} (hs : 0 < s) (hy : v.contains y) (hg : v.round y = y) :
    ∃ R : ℝ, R ≠ 0 ∧ v.round (reflect v.lo v.hi (x + s * R)) = y := by
  by_cases hxy : y = x
  · refine ⟨2 * (v.hi - v.lo) / s, by
      apply div_ne_zero _ hs.ne'
      intro h0
      linarith, ?_⟩
    rw [mul_div_cancel₀ _ hs.ne', ← hxy, reflect_translate h, reflect_id h hy.1 hy.2, hg]
  · refine ⟨(y - x) / s, div_ne_zero (sub_ne_zero.2 hxy) hs.ne', ?_⟩
    rw [mul_div_cancel₀ _ hs.ne', add_sub_cancel, reflect_id h hy.1 hy.2, hg]

private theorem int_reached (x y : ℤ) : ∃ g1 g2 : ℕ, 1 ≤ g1 ∧ 1 ≤ g2 ∧ x + ((g1 : ℤ) - g2) = y := by
  refine ⟨(y - x).toNat + 1, (x - y).toNat + 1, by omega, by omega, ?_⟩
  omega

private theorem contains_level {k : Kind} {l : Lvl} (h : k.contains (.lvl l)) : ∃ i, i < k.levels.length ∧ k.levels[i]? = some l := by
  have : l ∈ k.levels := by
    cases k <;> first | exact h | exact h.elim
  obtain ⟨i, hi, rfl⟩ := List.mem_iff_getElem.1 this
  exact ⟨i, hi, List.getElem?_eq_getElem hi⟩

/-- What one coordinate needs. -/
private theorem coordinate_reached {ks : List Kind} {a : Individual} {y : Row} (hb : ∀ k ∈ ks, ProperBounds k) (ha : PointOf ks a.row) (hy : PointOf ks y)
    (hg : ∀ (j : ℕ) (k : Kind) (v : Val), ks[j]? = some k → y[j]? = some v → OnGrid k v)
    (hs : ∀ (j : ℕ) (v : RealVar), ks[j]? = some (.real v) → 0 < a.sigma j) (j : ℕ) :
    ∃ (R : ℝ) (g1 g2 : ℕ) (lev : ℕ), R ≠ 0 ∧ 1 ≤ g1 ∧ 1 ≤ g2 ∧ (∀ k, ks[j]? = some k → k.levels ≠ [] → lev < k.levels.length) ∧
      ∀ k x, ks[j]? = some k → a.row[j]? = some x → ∀ m : MNoise, m.real j = realAt a.row j + a.sigma j * R → m.int j = (g1 : ℤ) - g2 → m.cat j = some lev →
        y[j]? = some (mutateVal m j k x) := by
  by_cases hj : j < ks.length
  swap
  · have : ks[j]? = none := List.getElem?_eq_none (by omega)
    refine ⟨1, 1, 1, 0, one_ne_zero, le_rfl, le_rfl, ?_, ?_⟩
    · intro k hk
      rw [this] at hk
      cases hk
    · intro k x hk
      rw [this] at hk
      cases hk
  have hk : ks[j]? = some ks[j] := List.getElem?_eq_getElem hj
  have hx : a.row[j]? = some (a.row[j]'(by rw [ha.1]; exact hj)) := List.getElem?_eq_getElem _
  have hv : y[j]? = some (y[j]'(by rw [hy.1]; exact hj)) := List.getElem?_eq_getElem _
  have c1 := ha.2 j _ _ hk hx
  have c2 := hy.2 j _ _ hk hv
  have g := hg j _ _ hk hv
  have b := hb _ (List.mem_of_getElem? hk)
  generalize ks[j] = k at hk c1 c2 g b
  generalize a.row[j]'(by rw [ha.1]; exact hj) = x at hx c1
  generalize y[j]'(by rw [hy.1]; exact hj) = w at hv c2 g
  cases k with
  | real v =>
    cases x with
    | int _ => exact c1.elim
    | lvl _ => exact c1.elim
    | real x =>
      cases w with
      | int _ => exact c2.elim
      | lvl _ => exact c2.elim
      | real w =>
        obtain ⟨R, hR, he⟩ := real_reached b (x := x) (hs j v hk) c2 g
        refine ⟨R, 1, 1, 0, hR, le_rfl, le_rfl, ?_, ?_⟩
        · intro k' hk' hl
          rw [hk] at hk'
          obtain rfl := Option.some.inj hk'
          exact absurd rfl hl
        · intro k' x' hk' hx' m h1 _ _
          rw [hk] at hk'
          rw [hx] at hx'
          obtain rfl := Option.some.inj hk'
          obtain rfl := Option.some.inj hx'
          rw [hv]
          simp only [mutateVal, h1, realAt_of hx, he]
  | integer v =>
    cases x with
    | real _ => exact c1.elim
    | lvl _ => exact c1.elim
    | int x =>
      cases w with
      | real _ => exact c2.elim
      | lvl _ => exact c2.elim
      | int w =>
        obtain ⟨g1, g2, h1, h2, he⟩ := int_reached x w
        refine ⟨1, g1, g2, 0, one_ne_zero, h1, h2, ?_, ?_⟩
        · intro k' hk' hl
          rw [hk] at hk'
          obtain rfl := Option.some.inj hk'
          exact absurd rfl hl
        · intro k' x' hk' hx' m _ h2 _
          rw [hk] at hk'
          rw [hx] at hx'
          obtain rfl := Option.some.inj hk'
          obtain rfl := Option.some.inj hx'
          rw [hv]
          simp only [mutateVal, h2, he]
          rw [reflect_id b.1 c2.1 c2.2, trunc_intCast]
  | _ =>
    all_goals
      cases w with
      | real _ => exact c2.elim
      | int _ => exact c2.elim
      | lvl l =>
        cases x with
        | real _ => exact c1.elim
        | int _ => exact c1.elim
        | lvl l0 =>
          obtain ⟨i, hi, hl⟩ := contains_level c2
          refine ⟨1, 1, 1, i, one_ne_zero, le_rfl, le_rfl, ?_, ?_⟩
          · intro k' hk' _
            rw [hk] at hk'
            obtain rfl := Option.some.inj hk'
            exact hi
          · intro k' x' hk' hx' m _ _ h3
            rw [hk] at hk'
            rw [hx] at hx'
            obtain rfl := Option.some.inj hk'
            obtain rfl := Option.some.inj hx'
            rw [hv]
            simp only [mutateVal, h3, Option.bind_some, hl, Option.getD_some]

/-- C165, partial (the step sizes of an individual must not have become 0, see `c165_refuted`): in every generation, from every individual of the population whose step sizes are positive,
every point of the space that rounding to the precisions keeps is the next offspring for some random numbers that the generators can give. -/
theorem c165_reach_partial (cfg : MiesCfg K) (sample : List Row) (noise : ℕ → ℕ → StrengthNoise) (h : StrengthOk cfg sample noise) (t : ℕ) (s : StrengthState K)
    (hs : strengthAfter cfg sample noise t = some s) (i : ℕ) (e : Individual × K) (he : s.pop[i]? = some e)
    (hpos : ∀ (j : ℕ) (v : RealVar), cfg.kinds[j]? = some (.real v) → 0 < e.1.sigma j) (y : Row) (hy : PointOf cfg.kinds y)
    (hg : ∀ (j : ℕ) (k : Kind) (v : Val), cfg.kinds[j]? = some k → y[j]? = some v → OnGrid k v) :
    ∃ n, PossibleDraws cfg.kinds cfg.mu n ∧ n.p1 = i ∧ ∃ c, strengthOffspring cfg s.pop n = some c ∧ c.row = y := by
  obtain ⟨hlen, hpts⟩ := run_points h hs
  have hmem := List.mem_of_getElem? he
  have hi : i < cfg.mu := by
    rw [← hlen]
    exact (List.getElem?_eq_some_iff.1 he).1
  have hp := hpts e hmem
  have hprop := run_proper h hs e hmem
  choose R g1 g2 lev c1 c2 c3 c4 c5 using coordinate_reached h.bounds hp hy hg hpos
  obtain ⟨n, hn⟩ : ∃ n : StrengthNoise, n = ⟨i, i, fun _ => false, 0, fun _ => 0, R, 0, fun _ => 0, g1, g2, 0, fun _ => 0, lev⟩ := ⟨_, rfl⟩
  have hrec : recombineInd cfg.kinds n e.1 e.1 = e.1 := by
    obtain ⟨row, sigma, eta, prob⟩ := e.1
    have hpp : n.p1 = n.p2 := by rw [hn]
    simp [recombineInd, recombineRow, proposalsOf, hpp]
  refine ⟨n, ?_, by rw [hn], mutateInd cfg.kinds n (recombineInd cfg.kinds n e.1 e.1), ?_, ?_⟩
  · rw [hn]
    exact ⟨hi, hi, c1, fun j => ⟨c2 j, c3 j⟩, fun j => ⟨le_rfl, one_pos⟩, c4⟩
  · unfold strengthOffspring
    have h1 : n.p1 = i := by rw [hn]
    have h2 : n.p2 = i := by rw [hn]
    rw [h1, h2, he]
    rfl
  · rw [hrec]
    show mutateRow cfg.kinds (proposalsOf cfg.kinds n e.1) e.1.row = y
    apply List.ext_getElem?
    intro j
    by_cases hj : j < cfg.kinds.length
    · have hk : cfg.kinds[j]? = some cfg.kinds[j] := List.getElem?_eq_getElem hj
      have hx : e.1.row[j]? = some (e.1.row[j]'(by rw [hp.1]; exact hj)) := List.getElem?_eq_getElem _
      rw [mutateRow_get hk hx]
      by_cases hc : ∃ k ∈ cfg.kinds, k.vtype ≠ .real ∧ k.vtype ≠ .integer
      · refine (c5 j _ _ hk hx _ ?_ (by rw [hn]; rfl) ?_).symm
        · rw [hn]
          simp [proposalsOf, sigmaUsed, stepFactor]
        · have h1 := (probUsed_mem cfg.kinds n e.1 (hprop.category hc).1 (hprop.category hc).2).1
          have h2 : n.u j < probUsed cfg.kinds n e.1 := by
            rw [show n.u j = 0 by rw [hn]]
            exact h1
          show (if n.u j < probUsed cfg.kinds n e.1 then some (n.level j) else none) = _
          rw [if_pos h2, hn]
      · have hk' : cfg.kinds[j].vtype = .real ∨ cfg.kinds[j].vtype = .integer := by
          by_contra hno
          push Not at hno
          exact hc ⟨_, List.getElem_mem hj, hno⟩
        have hm := c5 j _ _ hk hx { proposalsOf cfg.kinds n e.1 with cat := fun _ => some (lev j) }
          (by rw [hn]; simp [proposalsOf, sigmaUsed, stepFactor]) (by rw [hn]; rfl) rfl
        rw [hm]
        have hcon := hp.2 j _ _ hk hx
        generalize cfg.kinds[j] = k at hk' hcon
        generalize e.1.row[j]'(by rw [hp.1]; exact hj) = x at hcon
        cases k <;> cases x <;> first | rfl | exact hcon.elim | simp [Kind.vtype] at hk'
    · have hk : cfg.kinds[j]? = none := List.getElem?_eq_none (by omega)
      have h1 : y[j]? = none := List.getElem?_eq_none (by rw [hy.1]; omega)
      have h2 : (mutateRow cfg.kinds (proposalsOf cfg.kinds n e.1) e.1.row)[j]? = none := by
        apply List.getElem?_eq_none
        simp only [mutateRow, List.length_mapIdx, List.length_zip, hp.1]
        omega
      rw [h1, h2]

/-- C165: on spaces without real variables every point of the space is always the next offspring for some random numbers, from every individual. -/
theorem c165_reach_discrete (cfg : MiesCfg K) (sample : List Row) (noise : ℕ → ℕ → StrengthNoise) (h : StrengthOk cfg sample noise) (hd : ∀ k ∈ cfg.kinds, k.vtype ≠ .real) (t : ℕ)
    (s : StrengthState K) (hs : strengthAfter cfg sample noise t = some s) (i : ℕ) (hi : i < cfg.mu) (y : Row) (hy : PointOf cfg.kinds y) :
    ∃ n, PossibleDraws cfg.kinds cfg.mu n ∧ n.p1 = i ∧ ∃ c, strengthOffspring cfg s.pop n = some c ∧ c.row = y := by
  obtain ⟨hlen, -⟩ := run_points h hs
  refine c165_reach_partial cfg sample noise h t s hs i _ (List.getElem?_eq_getElem (by rw [hlen]; exact hi)) ?_ y hy ?_
  · intro j v hj
    exact absurd rfl (hd _ (List.mem_of_getElem? hj))
  · intro j k v hj _
    cases k with
    | real w => exact absurd rfl (hd _ (List.mem_of_getElem? hj))
    | _ => exact trivial

/-- C165: a real variable without a precision almost surely keeps a positive step size: for an individual with a positive step size, and whatever the other random numbers are, the
normal numbers for which the next step size is 0 have probability 0. -/
theorem c165_alive {ks : List Kind} (a : Individual) (n : StrengthNoise) (j : ℕ) (v : RealVar) (hj : ks[j]? = some (.real v)) (hv : v.lo < v.hi) (hp : v.precision = none)
    (x : ℝ) (hx : a.row[j]? = some (.real x)) (hs : 0 < a.sigma j) :
    gaussianReal 0 1 {r | ¬ 0 < (mutateInd ks { n with R := Function.update n.R j r } a).sigma j} = 0 := by
  have : NullSingletonClass (gaussianReal 0 1) := nullSingletonClass_gaussianReal one_ne_zero
  set f := stepFactor (countReal ks) n.zr (n.zrs j) with hf
  have hf0 : 0 < a.sigma j * f := mul_pos hs (stepFactor_pos _ _ _)
  refine Set.Countable.measure_zero (((Set.countable_singleton (0 : ℝ)).union (Set.countable_range fun z : ℤ => 2 * z * (v.hi - v.lo) / (a.sigma j * f))).union
    (Set.countable_range fun z : ℤ => (2 * v.lo - 2 * x + 2 * z * (v.hi - v.lo)) / (a.sigma j * f)) |>.mono ?_) _
  intro r hr
  by_cases hr0 : r = 0
  · exact .inl (.inl hr0)
  have hR : (Function.update n.R j r) j ≠ 0 := by simpa using hr0
  have hsame := (newSigma_pos_iff (ks := ks) (n := { n with R := Function.update n.R j r }) (a := a) hR).not.1 hr
  rw [not_not] at hsame
  have hrow : (mutateInd ks { n with R := Function.update n.R j r } a).row[j]? = some (.real (reflect v.lo v.hi (x + a.sigma j * f * r))) := by
    show (mutateRow ks _ a.row)[j]? = _
    rw [mutateRow_get hj hx]
    simp [mutateVal, proposalsOf, sigmaUsed, realAt_of hx, RealVar.round, hp, hf]
  rw [realAt_of hrow, realAt_of hx] at hsame
  obtain ⟨z, hz | hz⟩ := reflect_orbit hv (x + a.sigma j * f * r)
  · refine .inl (.inr ⟨-z, ?_⟩)
    show 2 * ((-z : ℤ) : ℝ) * (v.hi - v.lo) / (a.sigma j * f) = r
    rw [div_eq_iff hf0.ne']
    push_cast
    linarith
  · refine .inr ⟨z, ?_⟩
    show (2 * v.lo - 2 * x + 2 * (z : ℝ) * (v.hi - v.lo)) / (a.sigma j * f) = r
    rw [div_eq_iff hf0.ne']
    linarith

/-! ### Rounding can stop the search -/

omit [LinearOrder K] in
/-- C165: once the step sizes of a real variable are 0 in the whole population, they stay 0 and every later offspring takes one of the values the variable has in that population, whatever
random numbers and function values follow. -/
theorem c165_frozen (cfg : MiesCfg K) (sample : List Row) (noise : ℕ → ℕ → StrengthNoise) (j : ℕ) (v : RealVar) (hj : cfg.kinds[j]? = some (.real v)) (hv : v.lo < v.hi) (t : ℕ)
    (s : StrengthState K) (hs : strengthAfter cfg sample noise t = some s)
    (h0 : ∀ e ∈ s.pop, e.1.sigma j = 0 ∧ ∃ x, e.1.row[j]? = some (.real x) ∧ v.contains x ∧ v.round x = x) (k : ℕ) (s' : StrengthState K)
    (hs' : strengthAfter cfg sample noise (t + k) = some s') :
    (∀ e ∈ s'.pop, e.1.sigma j = 0) ∧ ∃ later, s'.evaluated = s.evaluated ++ later ∧ ∀ p ∈ later, ∃ e ∈ s.pop, p.1[j]? = e.1.row[j]? := by
  have key : (∀ e ∈ s'.pop, FrozenAt v j {x | ∃ e ∈ s.pop, e.1.row[j]? = some (.real x)} e.1) ∧
      ∃ later, s'.evaluated = s.evaluated ++ later ∧ ∀ p ∈ later, ∃ e ∈ s.pop, p.1[j]? = e.1.row[j]? := by
    induction k generalizing s' with
    | zero =>
      rw [Nat.add_zero, hs] at hs'
      obtain rfl := Option.some.inj hs'
      refine ⟨fun e he => ?_, [], by simp, by simp⟩
      obtain ⟨h1, x, h2, h3, h4⟩ := h0 e he
      exact ⟨h1, x, ⟨e, he, h2⟩, by rw [reflect_id hv h3.1 h3.2, h4], h2⟩
    | succ k ih =>
      rw [← Nat.add_assoc] at hs'
      unfold strengthAfter at hs'
      rw [Option.bind_eq_some_iff] at hs'
      obtain ⟨s1, h1, h2⟩ := hs'
      obtain ⟨hF, later, hl, hlat⟩ := ih s1 h1
      refine ⟨step_inherits _ hF (fun i a b ha hb => frozen_inherits hj _ _ ha hb) h2, ?_⟩
      obtain ⟨inds, c1, -, -, c4⟩ := step_cases h2
      refine ⟨later ++ inds.map fun a => (a.row, cfg.fit s1.iterCount a.row), by rw [c4, hl, List.append_assoc], ?_⟩
      intro p hp
      rcases List.mem_append.1 hp with hp | hp
      · exact hlat p hp
      · obtain ⟨c, hc, rfl⟩ := List.mem_map.1 hp
        obtain ⟨i, -, hi⟩ := mem_mapM c1 hc
        obtain ⟨a, ha, b, hb, -, -, rfl⟩ := offspring_parents hi
        obtain ⟨x, ⟨e, he, hex⟩, -, hx⟩ := (frozen_inherits (n := noise (t + k) i) hj _ (hF a ha) (hF b hb)).value
        exact ⟨e, he, hx.trans hex.symm⟩
  exact ⟨fun e he => (key.1 e he).step, key.2⟩

/-- A real variable with whole numbers only. -/
noncomputable def wholeVar : RealVar := { lo := 0, hi := 10, precision := some 0 }

private theorem whole_round (z : ℤ) (h0 : 0 ≤ z) (h1 : z ≤ 10) {x : ℝ} (hx : |x - z| < 1 / 2) : wholeVar.round x = z := by
  have hr : rint x = z := by
    have h := rint_spec x
    rw [abs_lt] at hx
    rw [abs_le] at h
    have h2 : |(rint x : ℝ) - z| < 1 := by
      rw [abs_lt]
      constructor <;> linarith
    have h3 : |rint x - z| < 1 := by exact_mod_cast h2
    rw [Int.abs_lt_one_iff] at h3
    omega
  have h0' : (0 : ℝ) ≤ z := by exact_mod_cast h0
  have h1' : (z : ℝ) ≤ 10 := by exact_mod_cast h1
  simp [RealVar.round, wholeVar, npRound, hr, clip, h0', h1']

/-- C165 refuted: the whole numbers from 0 to 10 (a real variable with precision 0), no elitism, the initial sample 3 and 7.  If the first steps are shorter than half a unit, rounding takes
them back, the step sizes become 0, and then nothing but 3 and 7 is ever evaluated, whatever the objective, the random numbers and the number of generations are. -/
theorem c165_refuted (fit : ℕ → Row → K) (argsort : List K → List ℕ) (maxEval : ℕ) (noise : ℕ → ℕ → StrengthNoise)
    (cfg : MiesCfg K) (hcfg : cfg = { kinds := [.real wholeVar], minimize := true, elitism := false, mu := 2, lam := 2, maxEval := maxEval, fit := fit, argsort := argsort })
    (hok : StrengthOk cfg [[.real 3], [.real 7]] noise) (hfirst : ∀ i, Real.exp (tauGlobal 1 * (noise 0 i).zr) * |(noise 0 i).R 0| < 1) (t : ℕ) (s : StrengthState K)
    (hs : strengthAfter cfg [[.real 3], [.real 7]] noise t = some s) : ∀ p ∈ s.evaluated, p.1 = [.real 3] ∨ p.1 = [.real 7] := by
  have hj : cfg.kinds[0]? = some (.real wholeVar) := by rw [hcfg]; rfl
  have hk : cfg.kinds = [.real wholeVar] := by rw [hcfg]
  have hint : ∀ x : ℝ, x = 3 ∨ x = 7 → wholeVar.contains x ∧ wholeVar.round x = x := by
    intro x hx
    rcases hx with rfl | rfl
    · exact ⟨⟨by norm_num [wholeVar], by norm_num [wholeVar]⟩, by simpa using whole_round 3 (by norm_num) (by norm_num) (x := 3) (by norm_num)⟩
    · exact ⟨⟨by norm_num [wholeVar], by norm_num [wholeVar]⟩, by simpa using whole_round 7 (by norm_num) (by norm_num) (x := 7) (by norm_num)⟩
  -- one offspring of the first generation
  have hoff : ∀ i (x : ℝ), x = 3 ∨ x = 7 → ∀ c : Individual, c.row = [.real x] → c.sigma 0 = 1 / 2 →
      (mutateInd cfg.kinds (noise 0 i) c).row = [.real x] ∧ (mutateInd cfg.kinds (noise 0 i) c).sigma 0 = 0 := by
    intro i x hx c hc hsig
    have hf := hfirst i
    have hstep : stepFactor (countReal cfg.kinds) (noise 0 i).zr ((noise 0 i).zrs 0) = Real.exp (tauGlobal 1 * (noise 0 i).zr) := by
      rw [hk]
      rfl
    have hd : |c.sigma 0 * stepFactor (countReal cfg.kinds) (noise 0 i).zr ((noise 0 i).zrs 0) * (noise 0 i).R 0| < 1 / 2 := by
      rw [hstep, hsig, abs_mul, abs_mul, abs_of_pos (Real.exp_pos _), abs_of_pos (by norm_num : (0 : ℝ) < 1 / 2)]
      linarith
    have hcx : c.row[0]? = some (.real x) := by rw [hc]; rfl
    have hrow : (mutateInd cfg.kinds (noise 0 i) c).row = [.real x] := by
      show mutateRow cfg.kinds (proposalsOf cfg.kinds (noise 0 i) c) c.row = _
      rw [hc]
      have hreal : (proposalsOf cfg.kinds (noise 0 i) c).real 0 = x + c.sigma 0 * stepFactor (countReal cfg.kinds) (noise 0 i).zr ((noise 0 i).zrs 0) * (noise 0 i).R 0 := by
        simp [proposalsOf, sigmaUsed, realAt_of hcx]
      generalize proposalsOf cfg.kinds (noise 0 i) c = m at hreal
      generalize c.sigma 0 * stepFactor (countReal cfg.kinds) (noise 0 i).zr ((noise 0 i).zrs 0) * (noise 0 i).R 0 = d at hd hreal
      rw [hk]
      show [mutateVal m 0 (.real wholeVar) (.real x)] = _
      simp only [mutateVal, hreal]
      rw [abs_lt] at hd
      have hbox : reflect wholeVar.lo wholeVar.hi (x + d) = x + d := by
        apply reflect_id
        · norm_num [wholeVar]
        · rcases hx with rfl | rfl <;> simp only [wholeVar] <;> linarith
        · rcases hx with rfl | rfl <;> simp only [wholeVar] <;> linarith
      rw [hbox]
      rcases hx with rfl | rfl
      · rw [whole_round 3 (by norm_num) (by norm_num) (by rw [abs_lt]; constructor <;> push_cast <;> linarith)]
        norm_num
      · rw [whole_round 7 (by norm_num) (by norm_num) (by rw [abs_lt]; constructor <;> push_cast <;> linarith)]
        norm_num
    refine ⟨hrow, ?_⟩
    have := (newSigma_pos_iff (ks := cfg.kinds) (n := noise 0 i) (a := c) ((hok.draws 0 i).normal 0)).not.2 (by
      rw [not_not, hrow, realAt_of hcx]
      rfl)
    exact le_antisymm (not_lt.1 this) (abs_nonneg _)
  -- the initial population
  have hstart : ∀ s0, strengthAfter cfg [[.real 3], [.real 7]] noise 0 = some s0 →
      (∀ e ∈ s0.pop, (∃ x : ℝ, (x = 3 ∨ x = 7) ∧ e.1.row = [.real x]) ∧ e.1.sigma 0 = 1 / 2) ∧ ∀ p ∈ s0.evaluated, p.1 = [.real 3] ∨ p.1 = [.real 7] := by
    intro s0 h0
    unfold strengthAfter strengthInit at h0
    rw [if_pos (proper_checked hok.bounds)] at h0
    obtain rfl := Option.some.inj h0
    have hsig : ∀ r, (startInd cfg.kinds r).sigma 0 = 1 / 2 := by
      intro r
      rw [hk]
      simp only [startInd, List.getElem?_cons_zero, wholeVar]
      norm_num
    refine ⟨fun e he => ?_, fun p hp => ?_⟩
    · obtain ⟨r, hr, rfl⟩ := List.mem_map.1 he
      refine ⟨?_, hsig r⟩
      simp only [List.mem_cons, List.not_mem_nil, or_false] at hr
      rcases hr with rfl | rfl
      · exact ⟨3, .inl rfl, rfl⟩
      · exact ⟨7, .inr rfl, rfl⟩
    · obtain ⟨r, hr, rfl⟩ := List.mem_map.1 hp
      simpa using hr
  -- the first generation
  have hone : ∀ s1, strengthAfter cfg [[.real 3], [.real 7]] noise 1 = some s1 →
      (∀ e ∈ s1.pop, (∃ x : ℝ, (x = 3 ∨ x = 7) ∧ e.1.row = [.real x]) ∧ e.1.sigma 0 = 0) ∧ ∀ p ∈ s1.evaluated, p.1 = [.real 3] ∨ p.1 = [.real 7] := by
    intro s1 h1
    unfold strengthAfter at h1
    rw [Option.bind_eq_some_iff] at h1
    obtain ⟨s0, h0, h1⟩ := h1
    obtain ⟨hp, hev⟩ := hstart s0 h0
    obtain ⟨inds, c1, c2, -, c4⟩ := step_cases h1
    have hinds : ∀ c ∈ inds, (∃ x : ℝ, (x = 3 ∨ x = 7) ∧ c.row = [.real x]) ∧ c.sigma 0 = 0 := by
      intro c hc
      obtain ⟨i, -, hi⟩ := mem_mapM c1 hc
      obtain ⟨a, ha, b, hb, -, -, rfl⟩ := offspring_parents hi
      obtain ⟨⟨x, hx, hxr⟩, hxs⟩ := hp a ha
      obtain ⟨⟨y, hy, hyr⟩, hys⟩ := hp b hb
      have hsig : (recombineInd cfg.kinds (noise 0 i) a.1 b.1).sigma 0 = 1 / 2 := by
        simp only [recombineInd, hxs, hys]
        split_ifs <;> norm_num
      have hrow : ∃ z : ℝ, (z = 3 ∨ z = 7) ∧ (recombineInd cfg.kinds (noise 0 i) a.1 b.1).row = [.real z] := by
        show ∃ z : ℝ, (z = 3 ∨ z = 7) ∧ recombineRow (proposalsOf cfg.kinds (noise 0 i) a.1) a.1.row b.1.row = [.real z]
        rw [hxr, hyr]
        generalize proposalsOf cfg.kinds (noise 0 i) a.1 = m
        unfold recombineRow
        split_ifs
        · exact ⟨x, hx, rfl⟩
        · show ∃ z : ℝ, (z = 3 ∨ z = 7) ∧ [if m.mask 0 = true then Val.real y else Val.real x] = [.real z]
          split_ifs
          · exact ⟨y, hy, rfl⟩
          · exact ⟨x, hx, rfl⟩
      obtain ⟨z, hz, hzr⟩ := hrow
      obtain ⟨r1, r2⟩ := hoff i z hz _ hzr hsig
      exact ⟨⟨z, hz, r1⟩, r2⟩
    refine ⟨fun e he => ?_, fun p hp => ?_⟩
    · rw [c2] at he
      rcases select_mem cfg _ _ e he with h | ⟨h, -⟩
      · obtain ⟨c, hc, rfl⟩ := List.mem_map.1 h
        exact hinds c hc
      · rw [hcfg] at h
        cases h
    · rw [c4] at hp
      rcases List.mem_append.1 hp with hp | hp
      · exact hev p hp
      · obtain ⟨c, hc, rfl⟩ := List.mem_map.1 hp
        obtain ⟨⟨x, hx, hr⟩, -⟩ := hinds c hc
        rcases hx with rfl | rfl
        · exact .inl hr
        · exact .inr hr
  cases t with
  | zero => exact (hstart s hs).2
  | succ t =>
    obtain ⟨_, _, hall⟩ := c165_refines cfg _ noise hok
    obtain ⟨s1, -, h1, -⟩ := hall 1
    obtain ⟨hp, hev⟩ := hone s1 h1
    rw [Nat.add_comm] at hs
    obtain ⟨-, later, hl, hlat⟩ := c165_frozen cfg _ noise 0 wholeVar hj (by norm_num [wholeVar]) 1 s1 h1 (fun e he => by
      obtain ⟨⟨x, hx, hr⟩, h0⟩ := hp e he
      exact ⟨h0, x, by rw [hr]; rfl, hint x hx⟩) t s hs
    intro p hpm
    rw [hl] at hpm
    rcases List.mem_append.1 hpm with hpm | hpm
    · exact hev p hpm
    · obtain ⟨e, he, heq⟩ := hlat p hpm
      obtain ⟨⟨x, hx, hr⟩, -⟩ := hp e he
      have hpt : PointOf cfg.kinds p.1 := run_evaluated hok hs p (by rw [hl]; exact List.mem_append_right _ hpm)
      have hlen := hpt.1
      rw [hk] at hlen
      rw [hr] at heq
      obtain ⟨w, hw⟩ := List.length_eq_one_iff.1 hlen
      rw [hw] at heq ⊢
      have hwx : w = .real x := by simpa using heq
      rw [hwx]
      rcases hx with rfl | rfl
      · exact .inl rfl
      · exact .inr rfl

/-- Random numbers with first steps of a quarter of a unit. -/
noncomputable def smallDraws : StrengthNoise := ⟨0, 1, fun _ => false, 0, fun _ => 0, fun _ => 1 / 2, 0, fun _ => 0, fun _ => 1, fun _ => 2, 0, fun _ => 1 / 3, fun _ => 0⟩

private theorem smallDraws_ok (ks : List Kind) {mu : ℕ} (h : 2 ≤ mu) : PossibleDraws ks mu smallDraws := by
  refine ⟨by simp only [smallDraws]; omega, by simp only [smallDraws]; omega, by norm_num [smallDraws], by norm_num [smallDraws], by norm_num [smallDraws], ?_⟩
  intro j k _ hk
  exact List.length_pos_of_ne_nil hk

/-- The hypotheses of the theorems hold on a mixed space, and the individuals of the first generation have positive step sizes there. -/
example (fit : ℕ → Row → ℚ) :
    StrengthOk { kinds := miesKinds, minimize := false, elitism := false, mu := 4, lam := 10, maxEval := 100, fit := fit, argsort := exampleArgsort }
      (List.replicate 4 miesPoint) (fun _ _ => smallDraws) ∧ 0 < (startInd miesKinds miesPoint).sigma 0 := by
  have h := miesExample_ok fit (fun _ _ => ⟨0, 1, fun _ => false, fun _ => 0, fun _ => 0, fun _ => none⟩) (fun _ _ => ⟨by norm_num, by norm_num⟩)
  exact ⟨⟨h.sort, h.bounds, h.mu, h.lam, h.len, h.points, fun _ _ => smallDraws_ok _ (by norm_num)⟩, by norm_num [startInd, miesKinds]⟩

/-- The hypotheses of `c165_refuted` hold. -/
example (fit : ℕ → Row → ℚ) :
    StrengthOk { kinds := [.real wholeVar], minimize := true, elitism := false, mu := 2, lam := 2, maxEval := 100, fit := fit, argsort := exampleArgsort } [[.real 3], [.real 7]]
      (fun _ _ => smallDraws) ∧ Real.exp (tauGlobal 1 * smallDraws.zr) * |smallDraws.R 0| < 1 := by
  refine ⟨⟨exampleArgsort_ok, ?_, by norm_num, by norm_num, by norm_num, ?_, fun _ _ => smallDraws_ok _ (by norm_num)⟩, ?_⟩
  · intro k hk
    obtain rfl := List.mem_singleton.1 hk
    norm_num [ProperBounds, wholeVar]
  · intro r hr
    refine ⟨by simp at hr; rcases hr with rfl | rfl <;> rfl, ?_⟩
    intro j k v hj hv
    match j with
    | 0 =>
      obtain rfl : Kind.real wholeVar = k := by simpa using hj
      simp at hr
      rcases hr with rfl | rfl
      · obtain rfl : Val.real 3 = v := by simpa using hv
        exact ⟨by norm_num [wholeVar], by norm_num [wholeVar]⟩
      · obtain rfl : Val.real 7 = v := by simpa using hv
        exact ⟨by norm_num [wholeVar], by norm_num [wholeVar]⟩
    | j + 1 => simp at hj
  · norm_num [smallDraws, abs_of_pos]

end Verif.Props
