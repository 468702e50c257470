import Verif.Model.GprConfig
import Verif.Spec.GprConfig
import Verif.Proofs.Kernels

/-!
# C132: settings of a Gaussian process;  C133: the hyper-parameter search stays within the bounds
-/
namespace Verif.Props

open Verif.Model Verif.Spec Verif.Proofs

/-! ### C132 -/

private theorem finiteBound_some {b : Option (List (Option ℝ))} {l : List ℝ} : finiteBound b = some l ↔ b = some (l.map some) := by
  cases b with
  | none => simp [finiteBound]
  | some q =>
    simp only [finiteBound, Option.bind_some, Option.some.injEq]
    constructor
    · intro h
      split_ifs at h with hq
      have h := Option.some.inj h
      subst h
      induction q with
      | nil => rfl
      | cons x q ih =>
        simp only [List.all_cons, Bool.and_eq_true] at hq
        obtain ⟨y, rfl⟩ := Option.isSome_iff_exists.1 hq.1
        have := ih hq.2
        simpa using this
    · rintro rfl
      have : (l.map some).all Option.isSome = true := by simp
      rw [if_pos this]
      simp [List.filterMap_map]

private theorem trendUsable_iff {t : TrendArg} {N n : ℕ} :
    trendUsable t N n = true ↔ ∃ kind given, t = .basis kind n given ∧ (given = true ∨ trendDim kind n ≤ N) := by
  cases t with
  | unset => simp [trendUsable]
  | nonparametric => simp [trendUsable]
  | other => simp [trendUsable]
  | basis kind nf given =>
    by_cases h : n = nf
    · subst h
      simp only [trendUsable, trendRows, if_true, Bool.and_eq_true, Bool.or_eq_true, decide_eq_true_eq, and_true]
      constructor
      · intro hh; exact ⟨kind, given, rfl, hh⟩
      · rintro ⟨k, g, e, hh⟩
        injection e with e1 e2 e3
        subst e1 e3
        exact hh
    · by_cases h2 : N = nf
      · subst h2
        simp only [trendUsable, trendRows, if_neg h, if_true]
        constructor
        · intro hh
          simp only [Bool.and_eq_true, decide_eq_true_eq] at hh
          exact absurd hh.2 h
        · rintro ⟨k, g, e, -⟩
          injection e with e1 e2 e3
          exact absurd e2.symm h
      · simp only [trendUsable, trendRows, if_neg h, if_neg h2]
        constructor
        · intro hh; exact absurd hh (by simp)
        · rintro ⟨k, g, e, -⟩
          injection e with e1 e2 e3
          exact absurd e2.symm h

private theorem positiveBounds_iff {l u : List ℝ} :
    PositiveBounds l u ↔ l.length = u.length ∧ ¬((∃ a ∈ l, a ≤ 0) ∨ ∃ q ∈ l.zip u, q.2 < q.1) := by
  unfold PositiveBounds
  induction l generalizing u with
  | nil => cases u <;> simp
  | cons a l ih =>
    cases u with
    | nil => simp
    | cons b u =>
      rw [List.forall₂_cons, ih]
      simp only [List.length_cons, List.mem_cons, List.zip_cons_cons, exists_eq_or_imp, not_or, not_le, not_lt]
      constructor
      · rintro ⟨⟨h1, h2⟩, h3, h4, h5⟩
        exact ⟨by omega, ⟨h1, h4⟩, h2, h5⟩
      · rintro ⟨h1, ⟨h2, h3⟩, h4, h5⟩
        exact ⟨⟨h2, h4⟩, by omega, h3, h5⟩

private theorem checkParams_some {o : GpObject} {c : CorrName} :
    checkParams o = some c ↔ corrLookup o.corr = some c ∧ PositiveBounds o.thetaL o.thetaU ∧ (∀ t ∈ o.theta0, t.length = o.thetaL.length) ∧
      (o.optimizer = "BFGS" ∨ o.optimizer = "CMA") := by
  have hopt : o.optimizer ∉ ["BFGS", "CMA"] ↔ ¬ (o.optimizer = "BFGS" ∨ o.optimizer = "CMA") := by simp
  rw [positiveBounds_iff]
  unfold checkParams
  cases hc : corrLookup o.corr with
  | none => simp
  | some d =>
    simp only [Option.bind_some, hopt]
    by_cases h1 : o.thetaL.length = o.thetaU.length
    · rw [if_neg (not_not.2 h1)]
      by_cases h2 : ∃ t ∈ o.theta0, t.length ≠ o.thetaL.length
      · rw [if_pos h2]
        obtain ⟨t, ht, hne⟩ := h2
        constructor
        · intro h; simp at h
        · rintro ⟨-, -, h, -⟩; exact absurd (h t ht) hne
      · rw [if_neg h2]
        have h2' : ∀ t ∈ o.theta0, t.length = o.thetaL.length := by
          intro t ht
          by_contra hne
          exact h2 ⟨t, ht, hne⟩
        by_cases h3 : (∃ l ∈ o.thetaL, l ≤ 0) ∨ ∃ q ∈ o.thetaL.zip o.thetaU, q.2 < q.1
        · rw [if_pos h3]
          constructor
          · intro h; simp at h
          · rintro ⟨-, ⟨-, h⟩, -⟩; exact absurd h3 h
        · rw [if_neg h3]
          by_cases h4 : o.optimizer = "BFGS" ∨ o.optimizer = "CMA"
          · rw [if_neg (not_not.2 h4)]
            constructor
            · intro h; exact ⟨h, ⟨h1, h3⟩, h2', h4⟩
            · rintro ⟨h, -⟩; exact h
          · rw [if_pos h4]
            constructor
            · intro h; simp at h
            · rintro ⟨-, -, -, h⟩; exact absurd h h4
    · rw [if_pos h1]
      constructor
      · intro h; simp at h
      · rintro ⟨-, ⟨h, -⟩, -⟩; exact absurd h h1

private theorem gradTheta_isSome {N n : ℕ} {c : CorrName} {theta : List ℝ} {X : Fin N → Fin n → ℝ} {R : Fin N → Fin N → ℝ} :
    (corrGradTheta c theta X R).isSome ↔ c ≠ .generalizedExponential ∧ c ≠ .cubic := by
  cases c <;> simp [corrGradTheta]

/-- **C132, which settings work.**  A Gaussian process can be constructed and fitted to `N` samples with `n` features exactly with: finite, positive
and ordered bounds of equal lengths, a starting point of that length or none, the name of a correlation with as many parameters as there are
bounds, the concentrated likelihood, one of the two optimisers, a correlation other than the generalised exponential and the cubic one
with BFGS, and a trend for `n` features whose coefficients are given or not more numerous than the samples, where the default trend
is one for as many features as there are bounds.  Everything else raises. -/
theorem c132_works (a : GpArgs) (N n : ℕ) :
    settingsWork a N n = true ↔ ∃ (l u : List ℝ) (c : CorrName),
      a.thetaL = some (l.map some) ∧ a.thetaU = some (u.map some) ∧ PositiveBounds l u ∧ (∀ t ∈ a.theta0, t.length = l.length) ∧
      corrLookup a.corr = some c ∧
      (if c = .generalizedExponential then l.length = n + 1 ∧ ¬(1 < n ∧ l.length = 2) else l.length = 1 ∨ l.length = n) ∧
      a.likelihood = "concentrated" ∧ (a.optimizer = "BFGS" ∨ a.optimizer = "CMA") ∧
      (a.optimizer = "BFGS" → c ≠ .generalizedExponential ∧ c ≠ .cubic) ∧
      ((a.mean = .unset ∧ u.length = n) ∨ ∃ kind given, a.mean = .basis kind n given ∧ (given = true ∨ trendDim kind n ≤ N)) := by
  unfold settingsWork gpConstruct
  constructor
  · intro h
    cases hl : finiteBound a.thetaL with
    | none => simp [hl] at h
    | some l =>
      cases hu : finiteBound a.thetaU with
      | none => simp [hl, hu] at h
      | some u =>
        simp only [hl, hu, Option.bind_some] at h
        split_ifs at h with hlik
        · simp only [fitReturns, Bool.and_eq_true, bne_iff_ne, ne_eq] at h
          obtain ⟨hs, hr⟩ := h
          unfold searchRuns at hs
          split at hs
          · simp at hs
          · rename_i c hc
            obtain ⟨hc1, hc2, hc3, hc4⟩ := checkParams_some.1 hc
            simp only [Bool.and_eq_true, Bool.or_eq_true, bne_iff_ne, ne_eq] at hs
            obtain ⟨⟨ht, hcor⟩, hg⟩ := hs
            refine ⟨l, u, c, finiteBound_some.1 hl, finiteBound_some.1 hu, hc2, hc3, hc1, corr_isSome.1 hcor, ?_, hc4, fun hb => ?_, ?_⟩
            · simp only [List.mem_cons, List.not_mem_nil, or_false] at hlik
              exact hlik.resolve_right hr
            · exact gradTheta_isSome.1 (hg.resolve_left fun hne => hne hb)
            · obtain ⟨kind, given, e, hh⟩ := trendUsable_iff.1 ht
              simp only [defaultTrend] at e
              split_ifs at e with hm
              · injection e with e1 e2 e3
                exact Or.inl ⟨hm, e2⟩
              · exact Or.inr ⟨kind, given, e, hh⟩
  · rintro ⟨l, u, c, h1, h2, h3, h4, h5, h6, h7, h8, h9, h10⟩
    rw [finiteBound_some.2 h1, finiteBound_some.2 h2]
    simp only [Option.bind_some]
    have hlik : a.likelihood ∈ ["concentrated", "restricted"] := by simp [h7]
    rw [if_pos hlik]
    simp only [fitReturns, h7, Bool.and_eq_true, bne_iff_ne, ne_eq]
    refine ⟨?_, by decide⟩
    unfold searchRuns
    have hc : checkParams ⟨defaultTrend a.mean u.length, a.corr, a.theta0, l, u, (fitInit a.nugget a.noiseEstim).mode, a.optimizer,
        "concentrated"⟩ = some c :=
      checkParams_some.2 ⟨h5, h3, h4, h8⟩
    rw [hc]
    simp only [Bool.and_eq_true, Bool.or_eq_true, bne_iff_ne, ne_eq]
    refine ⟨⟨trendUsable_iff.2 ?_, corr_isSome.2 h6⟩, ?_⟩
    · rcases h10 with ⟨hm, hn⟩ | ⟨kind, given, hm, hh⟩
      · exact ⟨.constant, true, by simp only [defaultTrend, hm, hn, if_true], Or.inl rfl⟩
      · exact ⟨kind, given, by simp [defaultTrend, hm], hh⟩
    · by_cases hb : a.optimizer = "BFGS"
      · exact Or.inr (gradTheta_isSome.2 (h9 hb))
      · exact Or.inl hb

/-- **C132, refuted**: settings that the documentation allows and that raise for all data.  The constructor without arguments; the restricted
likelihood; a correlation named `linear`; the cubic and the generalised exponential correlation with the default optimiser; a trend given by name; a
single correlation parameter with the default trend for two or more features. -/
theorem c132_documented_refuted (a : GpArgs) (N n : ℕ)
    (h : (a.thetaL = none ∧ a.thetaU = none) ∨ a.likelihood = "restricted" ∨ a.corr = "linear" ∨
      (a.optimizer = "BFGS" ∧ (a.corr = "cubic" ∨ a.corr = "generalized_exponential")) ∨ a.mean = .other ∨
      (a.mean = .unset ∧ 2 ≤ n ∧ ∃ t, a.thetaU = some [t])) : settingsWork a N n = false := by
  by_contra hne
  rw [Bool.not_eq_false] at hne
  obtain ⟨l, u, c, h1, h2, h3, h4, h5, h6, h7, h8, h9, h10⟩ := (c132_works a N n).1 hne
  rcases h with ⟨e, -⟩ | e | e | ⟨e, e' | e'⟩ | e | ⟨e, hn, t, ht⟩
  · rw [e] at h1; simp at h1
  · rw [e] at h7; exact absurd h7 (by decide)
  · rw [e, show corrLookup "linear" = none by decide] at h5; simp at h5
  · rw [e', show corrLookup "cubic" = some .cubic by decide] at h5
    exact (h9 e).2 (Option.some.inj h5).symm
  · rw [e', show corrLookup "generalized_exponential" = some .generalizedExponential by decide] at h5
    exact (h9 e).1 (Option.some.inj h5).symm
  · rw [e] at h10; simp at h10
  · rw [ht] at h2
    have hu : u.length = 1 := by
      have := congrArg List.length (Option.some.inj h2)
      simpa using this.symm
    rcases h10 with ⟨-, hl⟩ | ⟨kind, given, hm, -⟩
    · omega
    · rw [e] at hm; simp at hm

/-- **C132, refuted**: settings that make no sense and are accepted: a starting point outside the bounds, even a negative one, and a negative noise
variance. -/
theorem c132_meaningless_refuted (t nugget : ℝ) (N : ℕ) :
    settingsWork { theta0 := some [t], thetaL := some [some 1], thetaU := some [some 2], nugget := nugget } N 1 = true := by
  refine (c132_works _ N 1).2 ⟨[1], [2], .squaredExponential, rfl, rfl, ?_, ?_, by simp [corrLookup], by simp, rfl, Or.inl rfl, by simp, Or.inl ⟨rfl, rfl⟩⟩
  · exact List.Forall₂.cons ⟨by norm_num, by norm_num⟩ .nil
  · intro t ht
    have e : t = _ := (Option.some.inj ht).symm
    rw [e]; rfl

/-- Non-vacuity: settings that work, with a linear trend and CMA. -/
example : settingsWork { mean := .basis .linear 2 false, corr := "cubic", thetaL := some [some 1, some 1], thetaU := some [some 2, some 3], optimizer := "CMA" }
    3 2 = true := by
  refine (c132_works _ 3 2).2 ⟨[1, 1], [2, 3], .cubic, rfl, rfl, ?_, by simp, by decide, by simp, rfl, Or.inr rfl, by decide,
    Or.inr ⟨.linear, false, rfl, Or.inr (by decide)⟩⟩
  exact List.Forall₂.cons ⟨by norm_num, by norm_num⟩ (List.Forall₂.cons ⟨by norm_num, by norm_num⟩ .nil)

/-! ### C133 -/

private theorem forall₂_append_left {α β : Type*} {R : α → β → Prop} {a b : List α} {x : List β} (h : List.Forall₂ R (a ++ b) x) :
    ∃ y z, x = y ++ z ∧ List.Forall₂ R a y ∧ List.Forall₂ R b z := by
  induction a generalizing x with
  | nil => exact ⟨[], x, rfl, .nil, h⟩
  | cons c a ih =>
    cases h with
    | cons h1 h2 =>
      obtain ⟨y, z, rfl, hy, hz⟩ := ih h2
      exact ⟨_ :: y, z, rfl, .cons h1 hy, hz⟩

private theorem logBox_pow {b : ℝ × ℝ} {t : ℝ} (h0 : 0 < b.1) (h1 : b.1 ≤ b.2) (h : Real.logb 10 b.1 ≤ t ∧ t ≤ Real.logb 10 b.2) :
    b.1 ≤ (10 : ℝ) ^ t ∧ (10 : ℝ) ^ t ≤ b.2 := by
  have h2 : 0 < b.2 := lt_of_lt_of_le h0 h1
  exact ⟨(Real.logb_le_iff_le_rpow (by norm_num) h0).1 h.1, (Real.le_logb_iff_rpow_le (by norm_num) h2).1 h.2⟩

private theorem between_of_box {l u y : List ℝ} (hb : PositiveBounds l u)
    (h : InLogBox (l.zip u) y) : BetweenBounds l u (y.map fun t => (10 : ℝ) ^ t) := by
  unfold PositiveBounds at hb
  unfold InLogBox at h
  induction hb generalizing y with
  | nil =>
    cases h
    exact ⟨rfl, by simp⟩
  | cons hab hrest ih =>
    cases h with
    | cons h1 h2 =>
      obtain ⟨i1, i2⟩ := ih h2
      refine ⟨by simpa using i1, fun i c d x hc hd hx => ?_⟩
      cases i with
      | zero =>
        simp only [List.getElem?_cons_zero, Option.some.injEq, List.map_cons] at hc hd hx
        subst hc hd hx
        exact logBox_pow hab.1 hab.2 h1
      | succ i =>
        simp only [List.getElem?_cons_succ, List.map_cons] at hc hd hx
        exact i2 i c d x hc hd hx

private theorem box_single {b : ℝ × ℝ} {z : List ℝ} (h0 : 0 < b.1) (h1 : b.1 ≤ b.2) (h : InLogBox [b] z) :
    ∃ t, z = [t] ∧ b.1 ≤ (10 : ℝ) ^ t ∧ (10 : ℝ) ^ t ≤ b.2 := by
  cases h with
  | cons h2 h3 =>
    cases h3
    exact ⟨_, rfl, logBox_pow h0 h1 h2⟩

/-- **C133, the parameters found.**  For a model whose settings passed the checks, whatever point of its box the search returns: the
correlation parameters set by `fit` are as many as the bounds and between them; the process variance, searched for when the noise is given or the
likelihood is the restricted one, is between 1e-5 and the larger of 1e-3 and the variance of the observations; the share of the process in the
variance, searched for when the noise is estimated with the concentrated likelihood, is strictly between zero and one. -/
theorem c133_found (o : GpObject) (hb : PositiveBounds o.thetaL o.thetaU) (hlik : o.likelihood = "concentrated" ∨ o.likelihood = "restricted")
    (stdY : ℝ) (x : List ℝ) (hx : InLogBox (hyperBounds o stdY) x) :
    ∃ t, BetweenBounds o.thetaL o.thetaU t ∧
      ((o.mode = .noiseless ∧ o.likelihood = "concentrated" → foundParams o x = [(.theta, t)]) ∧
       (o.mode = .noisy ∨ (o.mode = .noiseless ∧ o.likelihood = "restricted") →
         ∃ s, 1e-5 ≤ s ∧ s ≤ max 1e-3 (stdY ^ 2) ∧ foundParams o x = [(.theta, t), (.sigma2, [s])]) ∧
       (o.mode = .noiseEstim ∧ o.likelihood = "concentrated" → ∃ α, 0 < α ∧ α < 1 ∧ foundParams o x = [(.theta, t), (.alpha, [α])]) ∧
       (o.mode = .noiseEstim ∧ o.likelihood = "restricted" → ∃ s v, 1e-5 ≤ s ∧ s ≤ max 1e-3 (stdY ^ 2) ∧ 0 < v ∧
         foundParams o x = [(.theta, t), (.sigma2, [s]), (.noiseVar, [v])])) := by
  have hlen : o.thetaL.length = o.thetaU.length := (positiveBounds_iff.1 hb).1
  have hs0 : (0 : ℝ) < 1e-5 := by norm_num
  have hs1 : (1e-5 : ℝ) ≤ max 1e-3 (stdY ^ 2) := le_trans (by norm_num) (le_max_left _ _)
  have ha0 : (0 : ℝ) < 1e-10 := by norm_num
  have ha1 : (1e-10 : ℝ) ≤ 1 - 1e-10 := by norm_num
  have hne : ("restricted" : String) ≠ "concentrated" := by decide
  cases hm : o.mode with
  | noiseless =>
    rcases hlik with hl | hl
    · simp only [hyperBounds, parGroups, hm, hl, reduceCtorEq, or_false, if_false, List.append_nil, List.flatMap_cons, List.flatMap_nil,
        groupBounds, hne.symm] at hx
      have hbt := between_of_box hb hx
      refine ⟨_, hbt, fun _ => ?_, by simp [hl], by simp, by simp⟩
      simp only [foundParams, parGroups, hm, hl, reduceCtorEq, or_false, if_false, List.append_nil, splitGroups, hne.symm]
      rw [List.take_of_length_le hbt.1.le]
    · simp only [hyperBounds, parGroups, hm, hl, reduceCtorEq, or_false, if_true, if_false, List.append_nil, List.flatMap_cons, List.flatMap_nil,
        groupBounds, List.cons_append, List.nil_append] at hx
      obtain ⟨y, z, rfl, hy, hz⟩ := forall₂_append_left hx
      have hbt := between_of_box hb hy
      obtain ⟨s, rfl, h1, h2⟩ := box_single hs0 hs1 hz
      refine ⟨_, hbt, by simp [hl], fun _ => ⟨_, h1, h2, ?_⟩, by simp, by simp⟩
      simp only [foundParams, parGroups, hm, hl, reduceCtorEq, or_false, if_true, if_false, List.append_nil, List.cons_append, List.nil_append,
        splitGroups, List.map_append]
      rw [List.take_left' hbt.1, List.drop_left' hbt.1]
      simp
  | noisy =>
    simp only [hyperBounds, parGroups, hm, reduceCtorEq, or_true, if_true, if_false, List.append_nil, List.flatMap_cons, List.flatMap_nil,
      groupBounds, List.cons_append, List.nil_append] at hx
    obtain ⟨y, z, rfl, hy, hz⟩ := forall₂_append_left hx
    have hbt := between_of_box hb hy
    obtain ⟨s, rfl, h1, h2⟩ := box_single hs0 hs1 hz
    refine ⟨_, hbt, by simp, fun _ => ⟨_, h1, h2, ?_⟩, by simp, by simp⟩
    simp only [foundParams, parGroups, hm, reduceCtorEq, or_true, if_true, if_false, List.append_nil, List.cons_append, List.nil_append,
      splitGroups, List.map_append]
    rw [List.take_left' hbt.1, List.drop_left' hbt.1]
    simp
  | noiseEstim =>
    rcases hlik with hl | hl
    · simp only [hyperBounds, parGroups, hm, hl, reduceCtorEq, or_false, if_true, if_false, List.append_nil, List.flatMap_cons, List.flatMap_nil,
        groupBounds, List.cons_append, List.nil_append, hne.symm] at hx
      obtain ⟨y, z, rfl, hy, hz⟩ := forall₂_append_left hx
      have hbt := between_of_box hb hy
      obtain ⟨s, rfl, h1, h2⟩ := box_single ha0 ha1 hz
      refine ⟨_, hbt, by simp, by simp, fun _ => ⟨_, lt_of_lt_of_le ha0 h1, lt_of_le_of_lt h2 (by norm_num), ?_⟩, by simp [hl]⟩
      simp only [foundParams, parGroups, hm, hl, reduceCtorEq, or_false, if_true, if_false, List.append_nil, List.cons_append, List.nil_append,
        splitGroups, List.map_append, hne.symm]
      rw [List.take_left' hbt.1, List.drop_left' hbt.1]
      simp
    · simp only [hyperBounds, parGroups, hm, hl, reduceCtorEq, or_false, if_true, if_false, List.append_nil, List.flatMap_cons, List.flatMap_nil,
        groupBounds, List.cons_append, List.nil_append, hne] at hx
      obtain ⟨y, z, rfl, hy, hz⟩ := forall₂_append_left hx
      have hbt := between_of_box hb hy
      obtain ⟨z1, z2, rfl, hz1, hz2⟩ := forall₂_append_left (a := [_]) hz
      obtain ⟨s, rfl, h1, h2⟩ := box_single hs0 hs1 hz1
      obtain ⟨v, rfl, h3, h4⟩ := box_single ha0 ha1 hz2
      refine ⟨_, hbt, by simp, by simp, by simp [hl], fun _ => ⟨_, _, h1, h2, lt_of_lt_of_le ha0 h3, ?_⟩⟩
      simp only [foundParams, parGroups, hm, hl, reduceCtorEq, or_false, if_true, if_false, List.append_nil, List.cons_append, List.nil_append,
        splitGroups, List.map_append, hne]
      rw [List.take_left' hbt.1, List.drop_left' hbt.1]
      simp

private theorem box_of_between {l u t : List ℝ} (hb : PositiveBounds l u) (h : BetweenBounds l u t) :
    InLogBox (l.zip u) (t.map (Real.logb 10)) := by
  unfold PositiveBounds at hb
  induction hb generalizing t with
  | nil =>
    have : t = [] := List.length_eq_zero_iff.1 h.1
    subst this
    exact .nil
  | @cons a b l u hab hrest ih =>
    obtain ⟨h1, h2⟩ := h
    cases t with
    | nil => simp at h1
    | cons x t =>
      have hx := h2 0 a b x rfl rfl rfl
      refine List.Forall₂.cons ⟨?_, ?_⟩ (ih ⟨by simpa using h1, fun i c d y hc hd hy => h2 (i + 1) c d y hc hd hy⟩)
      · exact Real.logb_le_logb_of_le (by norm_num) hab.1 hx.1
      · exact Real.logb_le_logb_of_le (by norm_num) (lt_of_lt_of_le hab.1 hx.1) hx.2

private theorem append_box {a b : List (ℝ × ℝ)} {x y : List ℝ} (h1 : InLogBox a x) (h2 : InLogBox b y) : InLogBox (a ++ b) (x ++ y) := by
  unfold InLogBox at *
  induction h1 with
  | nil => exact h2
  | cons h _ ih => exact .cons h ih

/-- **C133, the starting point.**  If the given starting point, if any, and the parameters of an earlier fit, if any, are between the bounds, and the random
numbers are drawn between the bounds they are drawn for, then the first search starts in its box, with one number for each bound. -/
theorem c133_start (o : GpObject) (hb : PositiveBounds o.thetaL o.thetaU) (hlik : o.likelihood = "concentrated" ∨ o.likelihood = "restricted")
    (stdY : ℝ) (previous : Option (List ℝ)) (draws rest : List ℝ) (hp : ∀ t ∈ previous, BetweenBounds o.thetaL o.thetaU t)
    (h0 : ∀ t ∈ o.theta0, BetweenBounds o.thetaL o.thetaU t) (hd : InLogBox (o.thetaL.zip o.thetaU) draws)
    (hr : InLogBox ((hyperBounds o stdY).drop o.thetaL.length) rest) :
    InLogBox (hyperBounds o stdY) (startPoint o previous draws rest) := by
  have hlen : (o.thetaL.zip o.thetaU).length = o.thetaL.length := by
    rw [List.length_zip, (positiveBounds_iff.1 hb).1, Nat.min_self]
  have hstart : InLogBox (o.thetaL.zip o.thetaU) (startTheta previous o.theta0 draws) := by
    unfold startTheta
    cases hpv : previous with
    | some t => exact box_of_between hb (hp t hpv)
    | none =>
      cases ht : o.theta0 with
      | some t => exact box_of_between hb (h0 t ht)
      | none => exact hd
  have hsplit : hyperBounds o stdY = o.thetaL.zip o.thetaU ++ (hyperBounds o stdY).drop o.thetaL.length := by
    have : ∃ w, hyperBounds o stdY = o.thetaL.zip o.thetaU ++ w := by
      unfold hyperBounds parGroups
      simp only [List.cons_append, List.nil_append, List.flatMap_cons, groupBounds]
      exact ⟨_, rfl⟩
    obtain ⟨w, hw⟩ := this
    rw [hw, List.drop_left' hlen]
  unfold startPoint
  by_cases hc : o.mode = .noiseless ∧ o.likelihood = "concentrated"
  · rw [if_pos hc]
    have : hyperBounds o stdY = o.thetaL.zip o.thetaU := by
      simp [hyperBounds, parGroups, hc.1, hc.2, groupBounds]
    rw [this]
    exact hstart
  · rw [if_neg hc, hsplit]
    exact append_box hstart hr

/-- **C133, from one fit to the next.**  The correlation parameters found by a fit are a starting point in the box of the next one. -/
theorem c133_refit (o : GpObject) (hb : PositiveBounds o.thetaL o.thetaU) (hlik : o.likelihood = "concentrated" ∨ o.likelihood = "restricted")
    (stdY stdY' : ℝ) (x : List ℝ) (hx : InLogBox (hyperBounds o stdY) x) (t : List ℝ) (ht : (.theta, t) ∈ foundParams o x) (draws rest : List ℝ)
    (h0 : ∀ t ∈ o.theta0, BetweenBounds o.thetaL o.thetaU t) (hd : InLogBox (o.thetaL.zip o.thetaU) draws)
    (hr : InLogBox ((hyperBounds o stdY').drop o.thetaL.length) rest) :
    InLogBox (hyperBounds o stdY') (startPoint o (some t) draws rest) := by
  refine c133_start o hb hlik stdY' (some t) draws rest (fun s hs => ?_) h0 hd hr
  have hs' : s = t := (Option.some.inj hs).symm
  subst hs'
  obtain ⟨t', hbt, h1, h2, h3, h4⟩ := c133_found o hb hlik stdY x hx
  have : s = t' := by
    cases hm : o.mode with
    | noiseless =>
      rcases hlik with hl | hl
      · rw [h1 ⟨hm, hl⟩] at ht; simpa using ht
      · obtain ⟨v, -, -, e⟩ := h2 (Or.inr ⟨hm, hl⟩)
        rw [e] at ht; simpa using ht
    | noisy =>
      obtain ⟨v, -, -, e⟩ := h2 (Or.inl hm)
      rw [e] at ht; simpa using ht
    | noiseEstim =>
      rcases hlik with hl | hl
      · obtain ⟨v, -, -, e⟩ := h3 ⟨hm, hl⟩
        rw [e] at ht; simpa using ht
      · obtain ⟨v, w, -, -, -, e⟩ := h4 ⟨hm, hl⟩
        rw [e] at ht; simpa using ht
  rw [this]; exact hbt

/-- Non-vacuity: two correlation parameters, a given noise and a point in the box. -/
example : PositiveBounds [1, 1] [10, 10] ∧ InLogBox (hyperBounds ⟨.basis .constant 2 true, "matern", none, [1, 1], [10, 10], .noisy, "BFGS", "concentrated"⟩ 1)
    [0, 1 / 2, 0] := by
  have e1 : Real.logb 10 1 = 0 := Real.logb_one
  have e2 : Real.logb 10 10 = 1 := Real.logb_self_eq_one (by norm_num)
  have e3 : Real.logb 10 (1e-5 : ℝ) ≤ 0 := Real.logb_nonpos (by norm_num) (by norm_num) (by norm_num)
  have e4 : max (1e-3 : ℝ) (1 ^ 2) = 1 := by norm_num
  refine ⟨.cons (by norm_num) (.cons (by norm_num) .nil), ?_⟩
  simp only [hyperBounds, parGroups, groupBounds, reduceCtorEq, or_true, if_true, if_false, List.append_nil, List.cons_append, List.nil_append, List.flatMap_cons,
    List.flatMap_nil, List.zip_cons_cons, List.zip_nil_right]
  refine .cons ⟨by rw [e1], by rw [e2]; norm_num⟩ (.cons ⟨by rw [e1]; norm_num, by rw [e2]; norm_num⟩ (.cons ⟨e3, by rw [e4, e1]⟩ .nil))

end Verif.Props
