import Verif.Proofs.SamplerLaw
import Verif.Proofs.Normal
import Verif.Props.Metropolis
import Mathlib.Probability.Distributions.Gaussian.Real
import Mathlib.Analysis.Complex.ExponentialBounds
import Mathlib.Probability.Independence.InfinitePi

/-! # C164: the constrained sampler keeps its target distribution -/
namespace Verif.Props
open Verif.Model Verif.Spec Verif.Proofs MeasureTheory ProbabilityTheory

/-- **C164, partial**: in a space of categorical variables, a row that follows the target distribution before a pass follows it after the pass, for any number of rows and
steps, if the draws of that row are fresh and no log probability exceeds another by more than the overflow limit. -/
theorem c164_invariant_partial {Ω : Type*} {mΩ : MeasurableSpace Ω} (P : Measure Ω) [IsProbabilityMeasure P] (ks : List Kind) (hc : Categorical ks) (S : Finset (List Val))
    (hS : ∀ x, x ∈ S ↔ RowOf ks x) (limit : ℝ) (ℓ : List Val → ℝ) (logp : List Val → Option ℝ) (hl : ∀ x, RowOf ks x → logp x = some (ℓ x))
    (hlim : ∀ x y, RowOf ks x → RowOf ks y → ℓ y - ℓ x ≤ limit) (t steps : ℕ) (X : Ω → List (List Val)) (hX : ∀ ω, ∀ x ∈ X ω, RowOf ks x) (D : ℕ → ℕ → Ω → ℝ × ℕ × ℝ)
    (a : ℕ) (row : Ω → List Val) (ha : ∀ ω, (X ω)[a]? = some (row ω)) (F : FreshDraws P ks row (fun m => D m a) (steps * ks.length))
    (h0 : ∀ x ∈ S, P.real {ω | row ω = x} = targetProb S ℓ x) :
    ∃ row' : Ω → List Val, (∀ ω, ∃ X', categoricalPass limit logp ks t steps (fun m b => D m b ω) (X ω) = some X' ∧ X'.length = (X ω).length ∧ X'[a]? = some (row' ω)) ∧
      ∀ y ∈ S, P.real {ω | row' ω = y} = targetProb S ℓ y := by
  have hrow : ∀ ω, RowOf ks (row ω) := fun ω => hX ω _ (List.mem_of_getElem? (ha ω))
  refine ⟨fun ω => catChain (levelProb t ks.length) ℓ ks (fun m => D m a ω) (row ω) (steps * ks.length), fun ω => ⟨_,
    pass_rows hc limit (levelProb t ks.length) ℓ logp hl hlim (X ω) (hX ω) (fun m b => D m b ω) steps, catTable_length _ _ _ _ _ _, ?_⟩, fun y hy => ?_⟩
  · rw [catTable_get, ha]
    rfl
  · exact chain_law hc S hS _ ℓ F hrow h0 _ le_rfl y hy

private theorem levelProb_pos (t nd : ℕ) : 0 < levelProb t nd := lt_max_of_lt_left (by positivity)

/-- **C164, partial**: in a space of categorical variables the distribution of a row comes as close to the target as one likes, wherever the row starts: the total
difference shrinks by a fixed factor in every step. -/
theorem c164_converges_partial (ks : List Kind) (hc : Categorical ks) (S : Finset (List Val)) (hS : ∀ x, x ∈ S ↔ RowOf ks x) (hne : S.Nonempty) (limit : ℝ) (ℓ : List Val → ℝ)
    (logp : List Val → Option ℝ) (hl : ∀ x, RowOf ks x → logp x = some (ℓ x)) (hlim : ∀ x y, RowOf ks x → RowOf ks y → ℓ y - ℓ x ≤ limit) (t : ℕ) :
    ∃ ρ : ℝ, 0 ≤ ρ ∧ ρ < 1 ∧ ∀ (Ω : Type) (_ : MeasurableSpace Ω) (P : Measure Ω), IsProbabilityMeasure P → ∀ (steps : ℕ) (X : Ω → List (List Val)), (∀ ω, ∀ x ∈ X ω, RowOf ks x) →
      ∀ (D : ℕ → ℕ → Ω → ℝ × ℕ × ℝ) (a : ℕ) (row : Ω → List Val), (∀ ω, (X ω)[a]? = some (row ω)) → FreshDraws P ks row (fun m => D m a) (steps * ks.length) →
        ∃ row' : Ω → List Val, (∀ ω, ∃ X', categoricalPass limit logp ks t steps (fun m b => D m b ω) (X ω) = some X' ∧ X'[a]? = some (row' ω)) ∧
          ∑ y ∈ S, |P.real {ω | row' ω = y} - targetProb S ℓ y| ≤ 2 * ρ ^ steps := by
  have hlim0 : 0 ≤ limit := by
    obtain ⟨x, hx⟩ := hne
    have := hlim x x ((hS x).1 hx) ((hS x).1 hx)
    linarith
  set prob := levelProb t ks.length with hprob
  have hr := redrawn_pos (levelProb_pos t ks.length)
  rw [← hprob] at hr
  set tot : ℝ := 1 + (ks.map fun k => k.levels.length).sum with htot
  have htot0 : 0 < tot := by positivity
  set c : ℝ := redrawn prob * (tot⁻¹ * Real.exp (-limit)) with hcdef
  have hc0 : 0 < c := by positivity
  have hstep : ∀ (i : ℕ) (k : Kind), ks[i]? = some k → ∀ x, RowOf ks x → ∀ l ∈ k.levels, c ≤ stepProb prob ℓ k i x (x.set i (.lvl l)) := by
    intro i k hk x hx l hlv
    obtain ⟨n, hn⟩ := List.getElem?_of_mem hlv
    refine le_trans ?_ (stepProb_lower prob ℓ k i x n l hn)
    have hkm := List.mem_of_getElem? hk
    have hrow : RowOf ks (x.set i (.lvl l)) := rowOf_set hx hk ((contains_iff (hc.kind k hkm) _).2 ⟨l, hlv, rfl⟩)
    have h1 : Real.exp (-limit) ≤ min 1 (Real.exp (ℓ (x.set i (.lvl l)) - ℓ x)) := by
      refine le_min (Real.exp_le_one_iff.2 (by linarith)) (Real.exp_le_exp.2 ?_)
      have := hlim _ _ hrow hx
      linarith
    have hpos : (0 : ℝ) < k.levels.length := by exact_mod_cast List.length_pos_of_mem hlv
    have h2 : tot⁻¹ ≤ (k.levels.length : ℝ)⁻¹ := by
      apply inv_anti₀ hpos
      have : k.levels.length ≤ (ks.map fun k => k.levels.length).sum := List.single_le_sum (fun _ _ => Nat.zero_le _) _ (List.mem_map.2 ⟨k, hkm, rfl⟩)
      have : (k.levels.length : ℝ) ≤ ((ks.map fun k => k.levels.length).sum : ℕ) := by exact_mod_cast this
      rw [htot]
      linarith
    exact mul_le_mul_of_nonneg_left (mul_le_mul h2 h1 (Real.exp_pos _).le (inv_nonneg.2 hpos.le)) hr.le
  have hδ : ∀ x ∈ S, ∀ y ∈ S, c ^ ks.length ≤ sweepProb S prob ℓ ks ks.length x y := fun x hx y hy => sweepProb_lower hc S hS prob ℓ c hc0.le hstep hx hy
  have hcard : (0 : ℝ) < S.card := by exact_mod_cast Finset.card_pos.2 hne
  refine ⟨1 - S.card * c ^ ks.length, ?_, ?_, ?_⟩
  · obtain ⟨x, hx⟩ := hne
    have := Finset.card_nsmul_le_sum S (fun y => sweepProb S prob ℓ ks ks.length x y) _ (fun y hy => hδ x hx y hy)
    rw [sweepProb_sum hc S hS prob ℓ ks.length le_rfl hx, nsmul_eq_mul] at this
    linarith
  · have : 0 < S.card * c ^ ks.length := mul_pos hcard (pow_pos hc0 _)
    linarith
  · intro Ω mΩ P hP steps X hX D a row ha F
    have hrow : ∀ ω, RowOf ks (row ω) := fun ω => hX ω _ (List.mem_of_getElem? (ha ω))
    refine ⟨fun ω => catChain prob ℓ ks (fun m => D m a ω) (row ω) (steps * ks.length), fun ω => ⟨_,
      pass_rows hc limit prob ℓ logp hl hlim (X ω) (hX ω) (fun m b => D m b ω) steps, ?_⟩, ?_⟩
    · rw [catTable_get, ha]
      rfl
    · exact chain_converges hc S hS hne prob ℓ _ hδ F hrow steps le_rfl

/-! ### Real and integer variables -/

/-- **C164 refuted for real variables**: whatever the table, the constraints and the target, an update of a real cell puts it exactly on its upper bound with positive
probability (`z` is the standard normal number, `u` the random number of the acceptance), while a density gives single points probability zero. -/
theorem c164_real_refuted (limit : ℝ) (ks : List Kind) (ℓ : List Val → ℝ) (X : List (List Val)) (a i : ℕ) (x : List Val) (hx : X[a]? = some x) (v : RealVar)
    (hk : ks[i]? = some (.real v)) (c : ℝ) (hcell : x[i]? = some (.real c)) (q : ℝ) (hq : 0 < q) (noise : ℕ → ℕ → Noise) (us : ℕ → ℝ) :
    0 < ((gaussianReal 0 1).prod (volume.restrict (Set.Ico (0 : ℝ) 1))) {zu | ∃ s', mhCoordinate limit (fun y => some (ℓ y))
      (X.zipIdx.map fun ra => proposeRow ks (fun j => if ra.2 = a ∧ j = i then realNoise q zu.1 else noise ra.2 j) ra.1)
      ((List.range X.length).map fun b => if b = a then zu.2 else us b) i (X, X.map ℓ) = some s' ∧ ∃ y, s'.1[a]? = some y ∧ y[i]? = some (.real v.hi)} := by
  have ha : a < X.length := (List.getElem?_eq_some_iff.1 hx).1
  have hi : i < x.length := (List.getElem?_eq_some_iff.1 hcell).1
  have hsub : Set.Ici ((v.hi - c) / q) ×ˢ Set.Iic (min 1 (Real.exp (ℓ (x.set i (.real v.hi)) - ℓ x))) ⊆ {zu : ℝ × ℝ | ∃ s', mhCoordinate limit (fun y => some (ℓ y))
      (X.zipIdx.map fun ra => proposeRow ks (fun j => if ra.2 = a ∧ j = i then realNoise q zu.1 else noise ra.2 j) ra.1)
      ((List.range X.length).map fun b => if b = a then zu.2 else us b) i (X, X.map ℓ) = some s' ∧ ∃ y, s'.1[a]? = some y ∧ y[i]? = some (.real v.hi)} := by
    rintro ⟨z, u⟩ ⟨hz, hu⟩
    simp only [Set.mem_Ici, Set.mem_Iic] at hz hu
    rw [div_le_iff₀ hq] at hz
    simp only [Set.mem_ofPred_eq]
    set PR := X.zipIdx.map fun ra => proposeRow ks (fun j => if ra.2 = a ∧ j = i then realNoise q z else noise ra.2 j) ra.1 with hPR
    have hPl : PR.length = X.length := by simp [hPR]
    have hT := takeColumn_length i X PR hPl
    have hp : PR[a]? = some (proposeRow ks (fun j => if a = a ∧ j = i then realNoise q z else noise a j) x) := by
      rw [hPR, List.getElem?_map, List.getElem?_zipIdx, hx]
      simp
    have hmoved : moved i x (proposeRow ks (fun j => if a = a ∧ j = i then realNoise q z else noise a j) x) = x.set i (.real v.hi) := by
      unfold moved
      rw [proposeRow_get ks _ x i _ _ hk hcell]
      simp only [and_self, if_true, Option.elim_some, propose, realNoise]
      congr 2
      unfold clip
      rw [min_eq_right]
      exact le_max_of_le_left (by linarith)
    have ht := takeColumn_get i a X PR x _ hx hp
    rw [hmoved] at ht
    have hm : (takeColumn i X PR).mapM (fun y => some (ℓ y)) = some ((takeColumn i X PR).map ℓ) := by
      rw [mapM_some_iff]
      refine ⟨by simp, fun j y b hy hb => ?_⟩
      rw [List.getElem?_map, hy] at hb
      exact hb
    unfold mhCoordinate
    dsimp only
    rw [hm, Option.map_some]
    refine ⟨_, rfl, x.set i (.real v.hi), ?_, List.getElem?_set_self hi⟩
    have hmask : (acceptMask limit (X.map ℓ) ((takeColumn i X PR).map ℓ) ((List.range X.length).map fun b => if b = a then u else us b))[a]? = some true := by
      unfold acceptMask acceptProbs
      dsimp only
      split_ifs with hex
      · simp only [List.getElem?_zipWith, List.getElem?_map, hx, ht, List.getElem?_range ha, Option.map_some, if_true]
        simp [hu.trans (min_le_left _ _)]
      · simp only [List.getElem?_zipWith, List.getElem?_map, hx, ht, List.getElem?_range ha, Option.map_some, if_true]
        rw [max_eq_right (Real.exp_pos _).le]
        simp only [hu, decide_true]
    rw [whereMask_get _ X _ a true _ _ hmask hx ht]
    rfl
  refine lt_of_lt_of_le ?_ (measure_mono hsub)
  rw [Measure.prod_prod]
  refine ENNReal.mul_pos ?_ ?_
  · intro h
    have := gaussianReal_absolutelyContinuous' 0 (one_ne_zero) h
    simp at this
  · rw [Measure.restrict_apply measurableSet_Iic]
    intro h
    have : Set.Ico 0 (min 1 (Real.exp (ℓ (x.set i (.real v.hi)) - ℓ x))) ⊆ Set.Iic (min 1 (Real.exp (ℓ (x.set i (.real v.hi)) - ℓ x))) ∩ Set.Ico (0 : ℝ) 1 :=
      fun z hz => ⟨hz.2.le, hz.1, hz.2.trans_le (min_le_left _ _)⟩
    have h2 := measure_mono_null this h
    rw [Real.volume_Ico, sub_zero, ENNReal.ofReal_eq_zero] at h2
    exact absurd h2 (not_le.2 (lt_min one_pos (Real.exp_pos _)))

private theorem integer_pass (limit u : ℝ) (hu : u ≤ 1) (x : ℤ) (g h : ℕ) :
    scmcPass limit (fun _ => some 0) [.integer { lo := 0, hi := 2 }] 1 (fun _ _ _ => integerNoise g h) (fun _ _ _ => u) [[.int x]] =
      some [[.int (trunc (clip (0 : ℝ) 2 ((x + (g - h : ℤ) : ℤ) : ℝ)))]] := by
  have hprob : acceptProbs limit [0] [0] = [1] := by
    unfold acceptProbs
    dsimp only
    split_ifs <;> simp
  simp [scmcPass, metropolisHastings, mhLoop, mhSweep, mhCoordinate, proposeRow, propose, integerNoise, takeColumn, whereMask, acceptMask, hprob, hu, List.range_succ]

private theorem trunc_clip_zero (z : ℤ) : trunc (clip (0 : ℝ) 2 (z : ℝ)) = 0 ↔ z ≤ 0 := by
  unfold clip trunc
  rcases le_or_gt z 0 with h | h
  · have h1 : (z : ℝ) ≤ 0 := by exact_mod_cast h
    rw [max_eq_right h1, min_eq_left (by norm_num)]
    simp [h]
  · have h1 : (1 : ℝ) ≤ z := by exact_mod_cast h
    have h2 : (1 : ℝ) ≤ min (max (z : ℝ) 0) 2 := le_min (le_max_of_le_left h1) (by norm_num)
    rw [if_pos (by linarith)]
    constructor
    · intro h3
      have := Int.le_floor.2 (show ((1 : ℤ) : ℝ) ≤ min (max (z : ℝ) 0) 2 by exact_mod_cast h2)
      omega
    · intro h3
      omega

/-- **C164 refuted for integer variables**: without any constraint, one update of an integer variable with the values 0, 1 and 2 that is uniform before gives the value 0
with a probability above a third, for every law of the two numbers whose difference is the shift that gives 1 and 3 a positive probability. -/
theorem c164_integer_refuted (γ : Measure ℕ) [IsProbabilityMeasure γ] (h1 : γ {1} ≠ 0) (h3 : γ {3} ≠ 0) (limit u : ℝ) (hu : u < 1) :
    (1 : ℝ) / 3 < ∑ x ∈ ({0, 1, 2} : Finset ℤ), 1 / 3 * (γ.prod γ).real {g | scmcPass limit (fun _ => some 0) [.integer { lo := 0, hi := 2 }] 1
      (fun _ _ _ => integerNoise g.1 g.2) (fun _ _ _ => u) [[.int x]] = some [[.int 0]]} := by
  have e : ∀ x : ℤ, {g : ℕ × ℕ | scmcPass limit (fun _ => some 0) [.integer { lo := 0, hi := 2 }] 1
      (fun _ _ _ => integerNoise g.1 g.2) (fun _ _ _ => u) [[.int x]] = some [[.int 0]]} = {g | x + (g.1 - g.2 : ℤ) ≤ 0} := by
    intro x
    ext g
    simp only [Set.mem_ofPred_eq]
    rw [integer_pass limit u hu.le]
    simp only [Option.some.injEq, List.cons.injEq, Val.int.injEq, and_true]
    exact trunc_clip_zero _
  simp only [e]
  have hdisc : ∀ s : Set (ℕ × ℕ), MeasurableSet s := fun s => s.to_countable.measurableSet
  have hswap : (γ.prod γ).real {g : ℕ × ℕ | (1 : ℤ) + (g.1 - g.2 : ℤ) ≤ 0} = (γ.prod γ).real {g : ℕ × ℕ | (0 : ℤ) + (g.1 - g.2 : ℤ) ≤ 0}ᶜ := by
    have hmp := Measure.measurePreserving_swap (μ := γ) (ν := γ)
    rw [measureReal_def, measureReal_def, ← hmp.measure_preimage (hdisc _).nullMeasurableSet]
    congr 2
    ext g
    simp only [Set.mem_preimage, Set.mem_ofPred_eq, Set.mem_compl_iff, Prod.fst_swap, Prod.snd_swap]
    omega
  have htwo : 0 < (γ.prod γ).real {g : ℕ × ℕ | (2 : ℤ) + (g.1 - g.2 : ℤ) ≤ 0} := by
    have hsub : ({1} ×ˢ {3} : Set (ℕ × ℕ)) ⊆ {g : ℕ × ℕ | (2 : ℤ) + (g.1 - g.2 : ℤ) ≤ 0} := by
      rintro ⟨p, r⟩ ⟨hp, hr⟩
      simp only [Set.mem_singleton_iff] at hp hr
      subst hp hr
      simp
    refine lt_of_lt_of_le ?_ (measureReal_mono hsub)
    rw [measureReal_prod_prod]
    exact mul_pos (ENNReal.toReal_pos h1 (measure_ne_top _ _)) (ENNReal.toReal_pos h3 (measure_ne_top _ _))
  have hcompl := probReal_add_probReal_compl (μ := γ.prod γ) (hdisc {g : ℕ × ℕ | (0 : ℤ) + (g.1 - g.2 : ℤ) ≤ 0})
  rw [Finset.sum_insert (by decide), Finset.sum_insert (by decide), Finset.sum_singleton, hswap]
  linarith

/-! ### C192: violations under the target of the last stage -/

private theorem normCdf_tail : normCdf (-8) ≤ 64 / 10 ^ 17 := by
  have h := eiStd_nonneg (-8)
  have h1 : normPdf (-8) ≤ 512 / 10 ^ 17 := by
    unfold normPdf
    have e1 : (-(-8 : ℝ) ^ 2 / 2) = -(32 : ℕ) := by push_cast; norm_num
    have h3 : (2.7182818283 : ℝ) ^ 32 ≤ Real.exp 1 ^ 32 := pow_le_pow_left₀ (by norm_num) Real.exp_one_gt_d9.le 32
    have h4 : (2.5065 : ℝ) ≤ Real.sqrt (2 * Real.pi) := Real.le_sqrt_of_sq_le (by linarith [Real.pi_gt_d4, (by norm_num : (2.5065 : ℝ) ^ 2 ≤ 6.283)])
    rw [e1, Real.exp_neg, ← Real.exp_one_pow, div_le_iff₀ (by positivity)]
    calc (Real.exp 1 ^ 32)⁻¹ ≤ ((2.7182818283 : ℝ) ^ 32)⁻¹ := inv_anti₀ (by positivity) h3
      _ ≤ 512 / 10 ^ 17 * 2.5065 := by norm_num
      _ ≤ _ := mul_le_mul_of_nonneg_left h4 (by norm_num)
  linarith

private theorem normCdf_zero : normCdf 0 = 1 / 2 := by
  have := normCdf_neg 0
  rw [neg_zero] at this
  linarith

private theorem lastStage_value (constraints : List (List Val → ℝ)) (nu : ℝ) (z : List Val) :
    logPosterior (fun z => Real.log (normCdf z)) (fun _ => 1) (constraints.map fun c r => some (c r)) nu z =
      some ((constraints.map fun c => Real.log (normCdf (-1 * c z / nu))).sum) := by
  have h : (constraints.map fun (c : List Val → ℝ) (r : List Val) => some (c r)).mapM (fun (c : List Val → Option ℝ) => c z) = some (constraints.map fun c => c z) := by
    induction constraints with
    | nil => rfl
    | cons c cs ih => rw [List.map_cons, List.mapM_cons, ih]; rfl
  unfold logPosterior
  rw [h, Option.bind_some, if_neg (by norm_num), Real.log_one, zero_add, List.map_map]
  rfl

private theorem exp_logs (nu : ℝ) (z : List Val) : ∀ l : List (List Val → ℝ),
    Real.exp ((l.map fun c => Real.log (normCdf (-1 * c z / nu))).sum) = (l.map fun c => normCdf (-1 * c z / nu)).prod
  | [] => by simp
  | c :: l => by rw [List.map_cons, List.sum_cons, Real.exp_add, exp_logs nu z l, Real.exp_log (normCdf_pos _), List.map_cons, List.prod_cons]

private theorem prod_range (nu : ℝ) (z : List Val) : ∀ l : List (List Val → ℝ),
    0 < (l.map fun c => normCdf (-1 * c z / nu)).prod ∧ (l.map fun c => normCdf (-1 * c z / nu)).prod ≤ 1
  | [] => by simp
  | c :: l => by
    obtain ⟨h1, h2⟩ := prod_range nu z l
    rw [List.map_cons, List.prod_cons]
    exact ⟨mul_pos (normCdf_pos _) h1, mul_le_one₀ (normCdf_lt_one _).le h1.le h2⟩

private theorem feasible_weight {nu : ℝ} (hnu : 0 < nu) (z : List Val) : ∀ l : List (List Val → ℝ), (∀ c ∈ l, c z ≤ 0) →
    (1 / 2 : ℝ) ^ l.length ≤ (l.map fun c => normCdf (-1 * c z / nu)).prod
  | [], _ => by simp
  | c :: l, h => by
    rw [List.length_cons, pow_succ, mul_comm, List.map_cons, List.prod_cons]
    refine mul_le_mul ?_ (feasible_weight hnu z l fun c' hc' => h c' (by simp [hc'])) (by positivity) (normCdf_pos _).le
    rw [← normCdf_zero]
    apply normCdf_strictMono.monotone
    have := h c (by simp)
    exact div_nonneg (by linarith) hnu.le

private theorem violating_weight {tol : ℝ} (htol : 0 < tol) (z : List Val) : ∀ l : List (List Val → ℝ), (∃ c ∈ l, tol < c z) →
    (l.map fun c => normCdf (-1 * c z / (tol / 8))).prod ≤ 64 / 10 ^ 17
  | [], h => by simp at h
  | c :: l, h => by
    rw [List.map_cons, List.prod_cons]
    obtain ⟨p0, p1⟩ := prod_range (tol / 8) z l
    by_cases hc : tol < c z
    · refine (mul_le_of_le_one_right (normCdf_pos _).le p1).trans (le_trans ?_ normCdf_tail)
      apply normCdf_strictMono.monotone
      rw [div_le_iff₀ (by linarith)]
      linarith
    · obtain ⟨c', hm, hv⟩ := h
      rcases List.mem_cons.1 hm with rfl | hm
      · exact absurd hv hc
      · exact (mul_le_of_le_one_left p0.le (normCdf_lt_one _).le).trans (violating_weight htol z l ⟨c', hm, hv⟩)

/-- **C192, one move.**  In the last stage a feasible row is left for one that violates a constraint by more than the tolerance with a probability of at most
`2^K * 6.4e-16`, in any space. -/
theorem c192_left (constraints : List (List Val → ℝ)) (tol : ℝ) (h0 : 0 < tol) (h1 : tol < 80) (x y : List Val) (hx : MeetsAll constraints x)
    (hy : ViolatesBy constraints tol y) :
    ∃ a b, logPosterior (fun z => Real.log (normCdf z)) (fun _ => 1) (constraints.map fun c r => some (c r)) (nuSchedule tol 19) x = some a ∧
      logPosterior (fun z => Real.log (normCdf z)) (fun _ => 1) (constraints.map fun c r => some (c r)) (nuSchedule tol 19) y = some b ∧
      acceptProbability a b ≤ ENNReal.ofReal (2 ^ constraints.length * (64 / 10 ^ 17)) := by
  rw [(c124_schedule tol h0 h1).2.1]
  obtain ⟨a, b, ha, hb, h⟩ := c124_feasible_kept normCdf normCdf_strictMono.monotone normCdf_pos (fun z => (normCdf_lt_one z).le) normCdf_zero tol h0 constraints x y hx hy
  exact ⟨a, b, ha, hb, h.trans (ENNReal.ofReal_le_ofReal (mul_le_mul_of_nonneg_left normCdf_tail (by positivity)))⟩

open Classical in
/-- **C192, the target of the last stage.**  Among the rows `S` of a finite space, with `K` constraints: the rows that violate a constraint by more than
the tolerance have together a probability of at most `2^K * 6.4e-16` times their number divided by the number of feasible rows. -/
theorem c192_target (S : Finset (List Val)) (constraints : List (List Val → ℝ)) (tol : ℝ) (h0 : 0 < tol) (h1 : tol < 80) (ℓ : List Val → ℝ)
    (hl : ∀ x ∈ S, logPosterior (fun z => Real.log (normCdf z)) (fun _ => 1) (constraints.map fun c r => some (c r)) (nuSchedule tol 19) x = some (ℓ x))
    (hf : ∃ x ∈ S, MeetsAll constraints x) :
    ∑ y ∈ S with ViolatesBy constraints tol y, targetProb S ℓ y ≤
      2 ^ constraints.length * (64 / 10 ^ 17) * ((S.filter fun y => ViolatesBy constraints tol y).card / (S.filter fun y => MeetsAll constraints y).card) := by
  have hval : ∀ x ∈ S, Real.exp (ℓ x) = (constraints.map fun c => normCdf (-1 * c x / (tol / 8))).prod := by
    intro x hx
    have := (lastStage_value constraints _ x).symm.trans (hl x hx)
    rw [← Option.some.inj this, exp_logs, (c124_schedule tol h0 h1).2.1]
  set F := S.filter fun y => MeetsAll constraints y with hF
  set V := S.filter fun y => ViolatesBy constraints tol y with hV
  set Z := ∑ z ∈ S, Real.exp (ℓ z) with hZ
  have hFpos : (0 : ℝ) < F.card := by
    obtain ⟨x, hx, hm⟩ := hf
    exact_mod_cast Finset.card_pos.2 ⟨x, Finset.mem_filter.2 ⟨hx, hm⟩⟩
  have hZF : F.card * (1 / 2 : ℝ) ^ constraints.length ≤ Z := by
    calc F.card * (1 / 2 : ℝ) ^ constraints.length = ∑ _z ∈ F, (1 / 2 : ℝ) ^ constraints.length := by rw [Finset.sum_const, nsmul_eq_mul]
      _ ≤ ∑ z ∈ F, Real.exp (ℓ z) := Finset.sum_le_sum fun z hz => by
          obtain ⟨hz1, hz2⟩ := Finset.mem_filter.1 hz
          rw [hval z hz1]
          exact feasible_weight (by linarith) z _ hz2
      _ ≤ Z := Finset.sum_le_sum_of_subset_of_nonneg (Finset.filter_subset _ _) fun _ _ _ => (Real.exp_pos _).le
  have hZpos : 0 < Z := lt_of_lt_of_le (by positivity) hZF
  have hVsum : ∑ y ∈ V, Real.exp (ℓ y) ≤ V.card * (64 / 10 ^ 17) := by
    calc _ ≤ ∑ _y ∈ V, (64 / 10 ^ 17 : ℝ) := Finset.sum_le_sum fun y hy => by
          obtain ⟨hy1, hy2⟩ := Finset.mem_filter.1 hy
          rw [hval y hy1]
          exact violating_weight h0 y _ hy2
      _ = _ := by rw [Finset.sum_const, nsmul_eq_mul]
  unfold targetProb
  rw [← hZ, ← Finset.sum_div, div_le_iff₀ hZpos]
  have h2 : (2 : ℝ) ^ constraints.length * (1 / 2) ^ constraints.length = 1 := by rw [← mul_pow]; norm_num
  calc _ ≤ V.card * (64 / 10 ^ 17 : ℝ) := hVsum
    _ = 2 ^ constraints.length * (64 / 10 ^ 17) * (V.card / F.card) * (F.card * (1 / 2) ^ constraints.length) := by
        field_simp
        linear_combination (-(V.card : ℝ)) * h2
    _ ≤ _ := mul_le_mul_of_nonneg_left hZF (by positivity)

open Classical in
/-- **C192.**  In a space of categorical variables, wherever a row starts, it violates a constraint by more than the tolerance after the last stage with a
probability that exceeds the bound of `c192_target` by an amount that shrinks geometrically with the number of steps. -/
theorem c192_row_partial (ks : List Kind) (hc : Categorical ks) (S : Finset (List Val)) (hS : ∀ x, x ∈ S ↔ RowOf ks x) (limit : ℝ)
    (constraints : List (List Val → ℝ)) (tol : ℝ) (h0 : 0 < tol) (h1 : tol < 80) (ℓ : List Val → ℝ)
    (hl : ∀ x, RowOf ks x → logPosterior (fun z => Real.log (normCdf z)) (fun _ => 1) (constraints.map fun c r => some (c r)) (nuSchedule tol 19) x = some (ℓ x))
    (hlim : ∀ x y, RowOf ks x → RowOf ks y → ℓ y - ℓ x ≤ limit) (hf : ∃ x ∈ S, MeetsAll constraints x) :
    ∃ ρ : ℝ, 0 ≤ ρ ∧ ρ < 1 ∧ ∀ (Ω : Type) (_ : MeasurableSpace Ω) (P : Measure Ω), IsProbabilityMeasure P → ∀ (steps : ℕ) (X : Ω → List (List Val)), (∀ ω, ∀ x ∈ X ω, RowOf ks x) →
      ∀ (D : ℕ → ℕ → Ω → ℝ × ℕ × ℝ) (a : ℕ) (row : Ω → List Val), (∀ ω, (X ω)[a]? = some (row ω)) → FreshDraws P ks row (fun m => D m a) (steps * ks.length) →
        ∃ row' : Ω → List Val, (∀ ω, ∃ X', categoricalPass limit
            (logPosterior (fun z => Real.log (normCdf z)) (fun _ => 1) (constraints.map fun c r => some (c r)) (nuSchedule tol 19)) ks 19 steps (fun m b => D m b ω) (X ω) = some X' ∧
            X'[a]? = some (row' ω)) ∧
          ∑ y ∈ S with ViolatesBy constraints tol y, P.real {ω | row' ω = y} ≤
            2 ^ constraints.length * (64 / 10 ^ 17) * ((S.filter fun y => ViolatesBy constraints tol y).card / (S.filter fun y => MeetsAll constraints y).card) + 2 * ρ ^ steps := by
  obtain ⟨x0, hx0, hm0⟩ := hf
  obtain ⟨ρ, r0, r1, h⟩ := c164_converges_partial ks hc S hS ⟨x0, hx0⟩ limit ℓ _ hl hlim 19
  refine ⟨ρ, r0, r1, fun Ω mΩ P hP steps X hX D a row ha F => ?_⟩
  obtain ⟨row', h2, h3⟩ := h Ω mΩ P hP steps X hX D a row ha F
  refine ⟨row', h2, ?_⟩
  have h4 := c192_target S constraints tol h0 h1 ℓ (fun x hx => hl x ((hS x).1 hx)) ⟨x0, hx0, hm0⟩
  have h5 : ∑ y ∈ S with ViolatesBy constraints tol y, |P.real {ω | row' ω = y} - targetProb S ℓ y| ≤ 2 * ρ ^ steps :=
    (Finset.sum_le_sum_of_subset_of_nonneg (Finset.filter_subset _ _) fun _ _ _ => abs_nonneg _).trans h3
  calc _ ≤ ∑ y ∈ S with ViolatesBy constraints tol y, (targetProb S ℓ y + |P.real {ω | row' ω = y} - targetProb S ℓ y|) :=
        Finset.sum_le_sum fun y _ => by linarith [le_abs_self (P.real {ω | row' ω = y} - targetProb S ℓ y)]
    _ ≤ _ := by rw [Finset.sum_add_distrib]; exact add_le_add h4 h5

/-! ### The hypotheses can be met -/

/-- Independent draws for one Boolean variable, one after another without end; the start is read off the first draw. -/
private noncomputable def boolWorld : Measure (ℕ → ℝ × ℕ × ℝ) := Measure.infinitePi fun _ => drawLaw 2

private instance : IsProbabilityMeasure boolWorld := by
  unfold boolWorld
  infer_instance

attribute [local instance] Classical.propDecidable

private def falseRow : List Val := [.lvl (.one (.bool false))]
private def trueRow : List Val := [.lvl (.one (.bool true))]

private theorem bool_categorical : Categorical [.bool] :=
  ⟨by simp [Kind.vtype], by simp only [List.mem_singleton, forall_eq]; decide, by simp only [List.mem_singleton, forall_eq]; decide,
    by simp only [List.mem_singleton, forall_eq]; decide⟩

private theorem bool_rows (x : List Val) : x ∈ ({falseRow, trueRow} : Finset (List Val)) ↔ RowOf [.bool] x := by
  unfold RowOf falseRow trueRow
  rw [Finset.mem_insert, Finset.mem_singleton]
  constructor
  · rintro (rfl | rfl)
    · exact .cons ((contains_iff (by simp [Kind.vtype]) _).2 ⟨_, by simp [Kind.levels], rfl⟩) .nil
    · exact .cons ((contains_iff (by simp [Kind.vtype]) _).2 ⟨_, by simp [Kind.levels], rfl⟩) .nil
  · intro h
    obtain _ | ⟨h, h'⟩ := h
    cases h'
    obtain ⟨l, hl, rfl⟩ := (contains_iff (by simp [Kind.vtype]) _).1 h
    simp only [Kind.levels, List.mem_cons, List.not_mem_nil, or_false] at hl
    rcases hl with rfl | rfl <;> simp

private noncomputable def boolDraws (start : ℝ × ℕ × ℝ → List Val) (h : ∀ x, MeasurableSet {d | start d = x}) (n : ℕ) :
    FreshDraws boolWorld [.bool] (fun ω => start (ω 0)) (fun m ω => ω (m + 1)) n where
  past := { seq := fun m => ⨆ j ∈ Set.Iic m, MeasurableSpace.comap (fun ω : ℕ → ℝ × ℕ × ℝ => ω j) inferInstance
            mono' := fun _ _ hab => biSup_mono fun _ hj => le_trans hj hab
            le' := fun _ => iSup₂_le fun j _ => (measurable_pi_apply j).comap_le }
  row_past x := by
    refine le_iSup₂ (f := fun (j : ℕ) (_ : j ∈ Set.Iic 0) => MeasurableSpace.comap (fun ω : ℕ → ℝ × ℕ × ℝ => ω j) inferInstance) 0 (Set.mem_Iic.2 le_rfl) _ ⟨_, h x, rfl⟩
  draw_past m _ := measurable_iff_comap_le.2
    (le_iSup₂ (f := fun (j : ℕ) (_ : j ∈ Set.Iic (m + 1)) => MeasurableSpace.comap (fun ω : ℕ → ℝ × ℕ × ℝ => ω j) inferInstance) (m + 1) (Set.mem_Iic.2 le_rfl))
  fresh m _ := by
    have hi := (iIndepFun_infinitePi (P := fun _ : ℕ => drawLaw 2) (X := fun _ d => d) (fun _ => measurable_id)).iIndep
    have := indep_iSup_of_disjoint (fun j => (measurable_pi_apply (X := fun _ : ℕ => ℝ × ℕ × ℝ) j).comap_le) hi (S := Set.Iic m) (T := {m + 1}) (by simp)
    rwa [iSup_singleton] at this
  law m _ k hk := by
    rw [show boolWorld.map (fun ω => ω (m + 1)) = drawLaw 2 from Measure.infinitePi_map_eval _ _]
    have : k = .bool := by
      simpa [Nat.mod_one] using hk.symm
    rw [this]
    rfl

/-- `True` is twice as likely as `False`. -/
private noncomputable def boolLog (x : List Val) : ℝ := if x = trueRow then Real.log 2 else 0

private theorem boolLog_bounds (x : List Val) : 0 ≤ boolLog x ∧ boolLog x ≤ 1 := by
  have h0 : 0 ≤ Real.log 2 := Real.log_nonneg (by norm_num)
  have h1 : Real.log 2 ≤ 1 := (Real.log_le_sub_one_of_pos (by norm_num)).trans (by norm_num)
  unfold boolLog
  split_ifs <;> constructor <;> linarith

private noncomputable def thirdRow (d : ℝ × ℕ × ℝ) : List Val := if d.1 < 1 / 3 then falseRow else trueRow

private theorem false_ne_true : falseRow ≠ trueRow := by
  simp [falseRow, trueRow]

private theorem third_false : {d | thirdRow d = falseRow} = Set.Iio (1 / 3 : ℝ) ×ˢ (Set.univ : Set (ℕ × ℝ)) := by
  ext d
  by_cases h : d.1 < 1 / 3
  · simp only [Set.mem_ofPred_eq, show thirdRow d = falseRow from if_pos h, Set.mem_prod, Set.mem_Iio, Set.mem_univ, and_true, h]
  · simp only [Set.mem_ofPred_eq, show thirdRow d = trueRow from if_neg h, Set.mem_prod, Set.mem_Iio, Set.mem_univ, and_true, h, iff_false]
    exact false_ne_true.symm

private theorem third_measurable (x : List Val) : MeasurableSet {d | thirdRow d = x} := by
  have h : Measurable fun d : ℝ × ℕ × ℝ => d.1 := measurable_fst
  have hs : MeasurableSet {d : ℝ × ℕ × ℝ | d.1 < 1 / 3} := h measurableSet_Iio
  have : {d | thirdRow d = x} = ({d : ℝ × ℕ × ℝ | d.1 < 1 / 3} ∩ {_d | falseRow = x}) ∪ ({d : ℝ × ℕ × ℝ | d.1 < 1 / 3}ᶜ ∩ {_d | trueRow = x}) := by
    ext d
    by_cases h : d.1 < 1 / 3
    · simp only [Set.mem_ofPred_eq, show thirdRow d = falseRow from if_pos h, Set.mem_union, Set.mem_inter_iff, Set.mem_compl_iff, h, not_true_eq_false, true_and, false_and, or_false]
    · simp only [Set.mem_ofPred_eq, show thirdRow d = trueRow from if_neg h, Set.mem_union, Set.mem_inter_iff, Set.mem_compl_iff, h, not_false_eq_true, true_and, false_and, false_or]
  rw [this]
  exact (hs.inter (.const _)).union (hs.compl.inter (.const _))

private theorem third_law : ∀ x ∈ ({falseRow, trueRow} : Finset (List Val)), boolWorld.real {ω | thirdRow (ω 0) = x} = targetProb {falseRow, trueRow} boolLog x := by
  have hm : boolWorld.map (fun ω => ω 0) = drawLaw 2 := Measure.infinitePi_map_eval _ _
  have hx : ∀ x, boolWorld.real {ω | thirdRow (ω 0) = x} = (drawLaw 2).real {d | thirdRow d = x} := fun x => by
    rw [← hm, map_measureReal_apply (measurable_pi_apply 0) (third_measurable x)]
    rfl
  have hf : (drawLaw 2).real {d | thirdRow d = falseRow} = 1 / 3 := by
    have hu : IsProbabilityMeasure (uniformOn (Set.Iio 2)) := isProbabilityMeasure_uniformOn (Set.finite_Iio 2) ⟨0, by simp⟩
    rw [third_false]
    unfold drawLaw
    have hv : IsProbabilityMeasure (volume.restrict (Set.Ico (0 : ℝ) 1)) := ⟨by simp⟩
    rw [measureReal_prod_prod, probReal_univ, mul_one, measureReal_restrict_apply measurableSet_Iio, Set.inter_comm, Set.Ico_inter_Iio, Real.volume_real_Ico]
    norm_num
  have ht : {d | thirdRow d = trueRow} = {d | thirdRow d = falseRow}ᶜ := by
    ext d
    simp only [Set.mem_ofPred_eq, Set.mem_compl_iff, thirdRow]
    split_ifs
    · simp [false_ne_true]
    · simp [false_ne_true.symm]
  have hs : ∑ z ∈ ({falseRow, trueRow} : Finset (List Val)), Real.exp (boolLog z) = 3 := by
    rw [Finset.sum_pair false_ne_true]
    simp only [boolLog, if_neg false_ne_true, if_true, Real.exp_zero, Real.exp_log (show (0 : ℝ) < 2 by norm_num)]
    norm_num
  intro x hxS
  rw [hx, targetProb, hs]
  rw [Finset.mem_insert, Finset.mem_singleton] at hxS
  rcases hxS with rfl | rfl
  · rw [hf]
    simp [boolLog, false_ne_true]
  · rw [ht, probReal_compl_eq_one_sub (third_measurable _), hf]
    simp only [boolLog, if_true, Real.exp_log (show (0 : ℝ) < 2 by norm_num)]
    norm_num

/-- One Boolean variable, `True` twice as likely as `False`, seven steps from a start with that law. -/
example : ∃ row' : (ℕ → ℝ × ℕ × ℝ) → List Val, (∀ ω, ∃ X', categoricalPass 709 (fun x => some (boolLog x)) [.bool] 0 7 (fun m _ => ω (m + 1)) [thirdRow (ω 0)] = some X' ∧
    X'.length = 1 ∧ X'[0]? = some (row' ω)) ∧ ∀ y ∈ ({falseRow, trueRow} : Finset (List Val)), boolWorld.real {ω | row' ω = y} = targetProb {falseRow, trueRow} boolLog y :=
  c164_invariant_partial boolWorld [.bool] bool_categorical {falseRow, trueRow} bool_rows 709 boolLog (fun x => some (boolLog x)) (fun _ _ => rfl)
    (fun x y _ _ => by linarith [(boolLog_bounds x).1, (boolLog_bounds y).2]) 0 7 (fun ω => [thirdRow (ω 0)])
    (fun ω x hx => by
      rw [List.mem_singleton.1 hx, ← bool_rows]
      unfold thirdRow
      split_ifs <;> simp)
    (fun m _ ω => ω (m + 1)) 0 (fun ω => thirdRow (ω 0)) (fun _ => rfl) (boolDraws thirdRow third_measurable _) third_law

/-- The same variable, started from `False`, comes close to the target. -/
example : ∃ ρ : ℝ, ρ < 1 ∧ ∀ steps, ∃ row' : (ℕ → ℝ × ℕ × ℝ) → List Val, (∀ ω, ∃ X', categoricalPass 709 (fun x => some (boolLog x)) [.bool] 0 steps (fun m _ => ω (m + 1))
    [falseRow] = some X' ∧ X'[0]? = some (row' ω)) ∧
    ∑ y ∈ ({falseRow, trueRow} : Finset (List Val)), |boolWorld.real {ω | row' ω = y} - targetProb {falseRow, trueRow} boolLog y| ≤ 2 * ρ ^ steps := by
  obtain ⟨ρ, -, hρ, h⟩ := c164_converges_partial [.bool] bool_categorical {falseRow, trueRow} bool_rows ⟨falseRow, by simp⟩ 709 boolLog (fun x => some (boolLog x))
    (fun _ _ => rfl) (fun x y _ _ => by linarith [(boolLog_bounds x).1, (boolLog_bounds y).2]) 0
  exact ⟨ρ, hρ, fun steps => h _ _ boolWorld inferInstance steps (fun _ => [falseRow]) (fun _ x hx => by rw [List.mem_singleton.1 hx, ← bool_rows]; simp)
    (fun m _ ω => ω (m + 1)) 0 (fun _ => falseRow) (fun _ => rfl) (boolDraws (fun _ => falseRow) (fun _ => .const _) _)⟩

/-! A Boolean variable with the constraint that is met by `False` and violated by `True`, by `0.02` with the tolerance `0.01`. -/

private noncomputable def onlyFalse (x : List Val) : ℝ := if x = trueRow then 0.02 else -0.01

private noncomputable def onlyFalseLog (x : List Val) : ℝ := ([onlyFalse].map fun c => Real.log (normCdf (-1 * c x / nuSchedule 0.01 19))).sum

open Classical in
example : ∃ ρ : ℝ, 0 ≤ ρ ∧ ρ < 1 ∧ ∀ steps, ∃ row' : (ℕ → ℝ × ℕ × ℝ) → List Val,
    ∑ y ∈ ({falseRow, trueRow} : Finset (List Val)) with ViolatesBy [onlyFalse] 0.01 y, boolWorld.real {ω | row' ω = y} ≤
      2 ^ 1 * (64 / 10 ^ 17) * (((({falseRow, trueRow} : Finset (List Val)).filter fun y => ViolatesBy [onlyFalse] 0.01 y).card : ℝ) /
        (({falseRow, trueRow} : Finset (List Val)).filter fun y => MeetsAll [onlyFalse] y).card) + 2 * ρ ^ steps := by
  have hft : falseRow ≠ trueRow := by simp [falseRow, trueRow]
  obtain ⟨ρ, h0, hρ, h⟩ := c192_row_partial [.bool] bool_categorical {falseRow, trueRow} bool_rows
    (|onlyFalseLog falseRow - onlyFalseLog trueRow| + |onlyFalseLog trueRow - onlyFalseLog falseRow|) [onlyFalse] 0.01 (by norm_num) (by norm_num) onlyFalseLog
    (fun x _ => lastStage_value [onlyFalse] _ x)
    (fun x y hx hy => by
      have e1 := le_abs_self (onlyFalseLog falseRow - onlyFalseLog trueRow)
      have e2 := le_abs_self (onlyFalseLog trueRow - onlyFalseLog falseRow)
      have e3 := abs_nonneg (onlyFalseLog falseRow - onlyFalseLog trueRow)
      have e4 := abs_nonneg (onlyFalseLog trueRow - onlyFalseLog falseRow)
      rw [← bool_rows] at hx hy
      rcases (by simpa using hx : x = falseRow ∨ x = trueRow) with rfl | rfl <;>
        rcases (by simpa using hy : y = falseRow ∨ y = trueRow) with rfl | rfl <;> linarith)
    ⟨falseRow, by simp, by intro c hc; rw [List.mem_singleton.1 hc]; simp only [onlyFalse, if_neg hft]; norm_num⟩
  refine ⟨ρ, h0, hρ, fun steps => ?_⟩
  obtain ⟨row', -, h2⟩ := h _ _ boolWorld inferInstance steps (fun _ => [falseRow]) (fun _ x hx => by rw [List.mem_singleton.1 hx, ← bool_rows]; simp)
    (fun m _ ω => ω (m + 1)) 0 (fun _ => falseRow) (fun _ => rfl) (boolDraws (fun _ => falseRow) (fun _ => .const _) _)
  exact ⟨row', h2⟩

example : MeetsAll [onlyFalse] falseRow ∧ ViolatesBy [onlyFalse] 0.01 trueRow := by
  refine ⟨fun c hc => ?_, onlyFalse, by simp, ?_⟩
  · rw [List.mem_singleton.1 hc]
    simp only [onlyFalse, if_neg (by simp [falseRow, trueRow] : falseRow ≠ trueRow)]
    norm_num
  · simp only [onlyFalse, if_true]
    norm_num

/-- A real variable on `[0, 1]` next to another one, uniform target. -/
example (us : ℕ → ℝ) : 0 < ((gaussianReal 0 1).prod (volume.restrict (Set.Ico (0 : ℝ) 1))) {zu | ∃ s', mhCoordinate 709 (fun _ => some 0)
    ([[Val.real 0.25, .real 1]].zipIdx.map fun ra => proposeRow [.real { lo := 0, hi := 1 }, .real { lo := 0, hi := 3 }]
      (fun j => if ra.2 = 0 ∧ j = 0 then realNoise 0.1 zu.1 else realNoise 0.3 0.5) ra.1)
    ((List.range 1).map fun b => if b = 0 then zu.2 else us b) 0 ([[Val.real 0.25, .real 1]], [0]) = some s' ∧ ∃ y, s'.1[0]? = some y ∧ y[0]? = some (.real 1)} :=
  c164_real_refuted 709 [.real { lo := 0, hi := 1 }, .real { lo := 0, hi := 3 }] (fun _ => 0) [[.real 0.25, .real 1]] 0 0 [.real 0.25, .real 1] rfl { lo := 0, hi := 1 } rfl 0.25 rfl
    0.1 (by norm_num) (fun _ _ => realNoise 0.3 0.5) us

/-- A law of the numbers that gives every number a positive probability, as a geometric law does. -/
example : ∃ γ : Measure ℕ, IsProbabilityMeasure γ ∧ γ {1} ≠ 0 ∧ γ {3} ≠ 0 := by
  have h : IsProbabilityMeasure (uniformOn ({1, 3} : Set ℕ)) := isProbabilityMeasure_uniformOn (Set.toFinite _) ⟨1, by simp⟩
  refine ⟨uniformOn {1, 3}, h, ?_, ?_⟩
  · rw [Ne, uniformOn_eq_zero_iff (Set.toFinite _), ← Set.not_nonempty_iff_eq_empty, not_not]
    exact ⟨1, by simp⟩
  · rw [Ne, uniformOn_eq_zero_iff (Set.toFinite _), ← Set.not_nonempty_iff_eq_empty, not_not]
    exact ⟨3, by simp⟩

end Verif.Props
