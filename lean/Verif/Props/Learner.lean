import Verif.Proofs.Learner
import Verif.Props.Acquisition
import Verif.Props.FullRun

/-! # C153: the units of the objective; C154: maximising `f` is minimising `-f` -/
namespace Verif.Props
open Verif.Model Verif.Spec Verif.Proofs

variable {G : Type*}

/-! ### C153 -/

private theorem getBest_mono {T : ℝ → ℝ} (hT : Monotone T) (m : Bool) (l : List ℝ) : getBest m (l.map T) = (getBest m l).map T := by
  cases l with
  | nil => rfl
  | cons x l =>
    simp only [getBest, List.map_cons, Option.map_some]
    congr 1
    induction l generalizing x with
    | nil => rfl
    | cons y l ih =>
      simp only [List.map_cons, List.foldl_cons]
      cases m
      · simp only [Bool.false_eq_true, if_false] at ih ⊢
        rw [← hT.map_max, ih]
      · simp only [if_true] at ih ⊢
        rw [← hT.map_min, ih]

private theorem unitChange_affine (cfg : Cfg ℝ) (a b : ℝ) (ha : 0 < a) :
    UnitChange (fun v => a * v + b) (inUnits a b) cfg (targetIn (fun v => a * v + b) cfg) where
  inj := fun v w h => by
    have h : a * v + b = a * w + b := h
    have : a * v = a * w := by linarith
    exact mul_left_cancel₀ ha.ne' this
  fin := fun v => rfl
  failed := fun o h v => by
    cases o with
    | fin c => exact absurd rfl (h c)
    | nan => simp [inUnits]
    | posInf => simp [inUnits]
    | negInf => simp [inUnits]
  best := fun l => getBest_mono (fun v w h => by
    have := mul_le_mul_of_nonneg_left h ha.le
    show a * v + b ≤ a * w + b
    linarith) _ l
  budget := rfl
  dict := rfl
  file := rfl
  target := by
    cases h : cfg.ftarget with
    | none => left; exact ⟨rfl, by simp [targetIn, h]⟩
    | some t =>
      right
      refine ⟨t, a * t + b, rfl, by simp [targetIn, h], fun v => ?_⟩
      have hlt : ∀ v w : ℝ, a * v + b < a * w + b ↔ v < w := fun v w => by
        constructor
        · intro h
          exact lt_of_mul_lt_mul_left (by linarith) ha.le
        · intro h
          have := mul_lt_mul_of_pos_left h ha
          linarith
      unfold Model.compare
      simp only [targetIn, hlt, gt_iff_lt]

private theorem npMean_affine (a b : ℝ) (y : List ℝ) (hy : y ≠ []) : npMean (y.map (fun v => a * v + b)) = a * npMean y + b := by
  have h : ∀ y : List ℝ, (y.map (fun v => a * v + b)).sum = a * y.sum + y.length * b := by
    intro y
    induction y with
    | nil => simp
    | cons v l ih => simp only [List.map_cons, List.sum_cons, ih, List.length_cons]; push_cast; ring
  have hn : (y.length : ℝ) ≠ 0 := by
    rw [Nat.cast_ne_zero]
    exact fun h => hy (List.eq_nil_of_length_eq_zero h)
  unfold npMean
  rw [h, List.length_map]
  field_simp

private theorem spread_affine (a b : ℝ) (y : List ℝ) (hy : y ≠ []) :
    npMean ((y.map (fun v => a * v + b)).map (fun v => (v - npMean (y.map (fun v => a * v + b))) ^ 2)) =
      a ^ 2 * npMean (y.map (fun v => (v - npMean y) ^ 2)) := by
  rw [npMean_affine a b y hy]
  have : (y.map (fun v => a * v + b)).map (fun v => (v - (a * npMean y + b)) ^ 2) =
      (y.map (fun v => (v - npMean y) ^ 2)).map (fun v => a ^ 2 * v + 0) := by
    rw [List.map_map, List.map_map]
    exact List.map_congr_left (fun v _ => by simp only [Function.comp_apply]; ring)
  rw [this, npMean_affine (a ^ 2) 0 _ (by simpa using hy)]
  ring

private theorem npStd_affine (a b : ℝ) (ha : 0 < a) (y : List ℝ) (hy : y ≠ []) : npStd (y.map (fun v => a * v + b)) = a * npStd y := by
  unfold npStd
  rw [spread_affine a b y hy, Real.sqrt_mul (sq_nonneg a), Real.sqrt_sq ha.le]

private theorem isFlat_iff (y : List ℝ) : isFlat y = true ↔ 5 < y.length ∧ npMean (y.map (fun v => (v - npMean y) ^ 2)) ≤ 1 / 10 ^ 16 := by
  unfold isFlat
  rw [Bool.and_eq_true, decide_eq_true_iff, decide_eq_true_iff]
  rfl

private theorem not_flat_of_spread {y : List ℝ} (h : 1 / 10 ^ 8 < npStd y) : isFlat y = false := by
  rw [Bool.eq_false_iff]
  intro hf
  have h2 := ((isFlat_iff y).1 hf).2
  have := Real.sqrt_le_sqrt h2
  rw [show (1 : ℝ) / 10 ^ 16 = (1 / 10 ^ 8) ^ 2 by norm_num, Real.sqrt_sq (by norm_num)] at this
  exact absurd (lt_of_lt_of_le h this) (lt_irrefl _)

private theorem standardised_affine (a b : ℝ) (ha : 0 < a) (y : List ℝ) (h1 : 1 / 10 ^ 8 < npStd y) (h2 : 1 / 10 ^ 8 < a * npStd y) :
    standardised (y.map (fun v => a * v + b)) = standardised y := by
  have hy : y ≠ [] := by
    rintro rfl
    have : npStd [] = 0 := by simp [npStd, npMean]
    rw [this] at h1
    norm_num at h1
  have hp : 0 < npStd y := lt_trans (by norm_num) h1
  unfold standardised
  rw [npStd_affine a b ha y hy, npMean_affine a b y hy, abs_of_pos hp, abs_of_pos (mul_pos ha hp), if_neg (not_le.2 h2), if_neg (not_le.2 h1),
    List.map_map]
  refine List.map_congr_left (fun v _ => ?_)
  simp only [Function.comp_apply]
  have h3 := hp.ne'
  field_simp
  ring

private theorem map_recIn_f (T : ℝ → ℝ) (d : List (Rec Row ℝ)) : (d.map (recIn T)).map Rec.f = (d.map Rec.f).map T := by
  simp [recIn, Function.comp_def]

private theorem map_recIn_x (T : ℝ → ℝ) (d : List (Rec Row ℝ)) : (d.map (recIn T)).map Rec.x = d.map Rec.x := by
  simp [recIn, Function.comp_def]

private theorem askStateOf_in (T : ℝ → ℝ) (u : RunSetup) (s : OptState Row ℝ) : askStateOf u (stateIn T s) = askStateOf u s := by
  unfold askStateOf
  cases hd : s.data with
  | none => simp [stateIn, hd]
  | some d => simp [stateIn, hd, recIn, Function.comp_def]

/-- **C153, partial**: if all recorded sets of values have a standard deviation above `1e-8`, in the old and in the new units, the units of the objective do not
matter: measured in units `a` times smaller and from another zero, with the target given in the same units, the run proposes the same points in the same steps, ends
in the same way and returns the same point.  For every surrogate, acquisition function, search, class of optimiser and batch size. -/
theorem c153_units_partial (cfg : Cfg ℝ) (u : RunSetup) (acq : AcqName × AcqPar) (L : Learner G) (a b : ℝ) (ha : 0 < a)
    (hs : SpreadAbove (max (1 / 10 ^ 8) (1 / 10 ^ 8 / a)) cfg u acq L) (fuel : ℕ) :
    learnRun (targetIn (fun v => a * v + b) cfg) u acq (objectiveIn (inUnits a b) L) fuel 0 {} [] =
      runIn (fun v => a * v + b) (inUnits a b) (learnRun cfg u acq L fuel 0 {} []) := by
  let Good : List (Rec Row ℝ) → Prop := fun d => 1 / 10 ^ 8 < npStd (d.map Rec.f) ∧ 1 / 10 ^ 8 < a * npStd (d.map Rec.f)
  have hT : ∀ d, Good d → trainingSet (d.map (recIn (fun v => a * v + b))) = trainingSet d := by
    intro d hd
    unfold trainingSet
    rw [map_recIn_f, map_recIn_x, standardised_affine a b ha _ hd.1 hd.2]
  refine learnRun_in (unitChange_affine cfg a b ha) u acq acq L (objectiveIn (inUnits a b) L) Good (fun _ _ => rfl) (fun _ _ => rfl) ?_ ?_ ?_ fuel 0 {} [] ?_
  · intro i d hd
    rw [hT d hd]
    rfl
  · intro d hd
    have hne : d.map Rec.f ≠ [] := by
      intro h0
      have h1 := hd.1
      rw [h0] at h1
      norm_num [npStd, npMean] at h1
    rw [not_flat_of_spread hd.1, not_flat_of_spread (by rw [npStd_affine a b ha _ hne]; exact hd.2)]
  · intro i s hgood
    unfold proposals
    rw [askStateOf_in]
    cases hd : s.data with
    | none => simp only [stateIn, hd, Option.map_none]; rfl
    | some d =>
      have hg := hgood d hd
      have : (stateIn (fun v => a * v + b) s).data = some (d.map (recIn (fun v => a * v + b))) := by simp [stateIn, hd]
      rw [this]
      have hc : criteriaOf (targetIn (fun v => a * v + b) cfg) u acq (objectiveIn (inUnits a b) L) i (d.map (recIn (fun v => a * v + b))) =
          criteriaOf cfg u acq L i d := by
        unfold criteriaOf optOf
        simp only [hT d hg, map_recIn_f, standardised_affine a b ha _ hg.1 hg.2]
        rfl
      simp only [hc]
      rfl
  · intro k d hd
    have h := hs k d hd
    have he : Real.sqrt ((d.map (fun r => (r.f - (d.map Rec.f).sum / d.length) ^ 2)).sum / d.length) = npStd (d.map Rec.f) := by
      unfold npStd npMean
      simp only [List.map_map, List.length_map, Function.comp_def]
    rw [he] at h
    refine ⟨(le_max_left _ _).trans_lt h, ?_⟩
    have h2 := (le_max_right _ _).trans_lt h
    rw [div_lt_iff₀ ha] at h2
    linarith

private theorem postEvalCheck_finite (n : ℕ) (g : Row → ℝ) : ∀ (X : List Row) (l : List String), X.length ≤ l.length →
    (postEvalCheck n ((X.zip (X.map (fun x => Obs.fin (g x)))).zip l)).map Rec.f = X.map g
  | [], l, _ => by simp [postEvalCheck]
  | x :: X, [], h => by simp at h
  | x :: X, i :: l, h => by
    simp only [List.map_cons, List.zip_cons_cons, postEvalCheck]
    rw [postEvalCheck_finite n g X l (by simpa using h)]

private theorem extended_fresh (cfg : Cfg ℝ) (X : List Row) (g : Row → ℝ) :
    (extended cfg {} X (X.map (fun x => Obs.fin (g x)))).map Rec.f = X.map g := by
  unfold extended
  rw [Option.getD_none, List.nil_append]
  exact postEvalCheck_finite _ g X _ (by simp [defaultIndex])

/-- **C153, refuted**: for any six or more points and any objective there are units small enough that `tell` raises: the test for equal values compares the standard deviation
with the fixed number `1e-8`. -/
theorem c153_small_units_raise (cfg : Cfg ℝ) (X : List Row) (g : Row → ℝ) (hX : 5 < X.length) : ∃ a0 : ℝ, 0 < a0 ∧ ∀ a, 0 < a → a < a0 → ∀ o,
    (tell cfg {} { X := X, vals := X.map (fun x => Obs.fin (a * g x)), oracle := o }).2 = .error .flatFitness := by
  have hne : X.map g ≠ [] := by
    intro h
    have : X = [] := by simpa using h
    rw [this] at hX
    simp at hX
  have h0 : 0 ≤ npMean ((X.map g).map (fun v => (v - npMean (X.map g)) ^ 2)) := by
    unfold npMean
    refine div_nonneg (List.sum_nonneg ?_) (Nat.cast_nonneg _)
    intro v hv
    obtain ⟨w, -, rfl⟩ := List.mem_map.1 hv
    exact sq_nonneg _
  refine ⟨1 / 10 ^ 8 / (1 + npStd (X.map g)), div_pos (by norm_num) (by unfold npStd; positivity), fun a ha1 ha2 o => ?_⟩
  have hst : 0 ≤ npStd (X.map g) := by unfold npStd; exact Real.sqrt_nonneg _
  have hle : a * npStd (X.map g) ≤ 1 / 10 ^ 8 := by
    rw [lt_div_iff₀ (by linarith)] at ha2
    nlinarith
  have hvar : npMean ((X.map (fun x => a * g x)).map (fun v => (v - npMean (X.map (fun x => a * g x))) ^ 2)) ≤ 1 / 10 ^ 16 := by
    have hm : X.map (fun x => a * g x) = (X.map g).map (fun v => a * v + 0) := by simp
    rw [hm, spread_affine a 0 _ hne]
    have : npMean ((X.map g).map (fun v => (v - npMean (X.map g)) ^ 2)) = npStd (X.map g) ^ 2 := by
      unfold npStd
      rw [Real.sq_sqrt h0]
    rw [this]
    have h1 : 0 ≤ a * npStd (X.map g) := mul_nonneg ha1.le hst
    nlinarith
  have hlen : (extended cfg {} X (X.map (fun x => Obs.fin (a * g x)))).length = X.length := by
    have := congrArg List.length (extended_fresh cfg X (fun x => a * g x))
    simpa using this
  rw [tell_points, if_neg (by simp; rintro rfl; simp at hX), if_neg (by simp)]
  unfold tellRest
  rw [if_neg (by rw [List.isEmpty_iff]; intro h; rw [h] at hlen; simp at hlen; omega), extended_fresh,
    if_pos ((isFlat_iff _).2 ⟨by simpa using hX, hvar⟩)]

/-- The six values `0, 1, 4, 9, 16, 25` are accepted. -/
example : ∃ (X : List Row) (g : Row → ℝ), 5 < X.length ∧
    (tell { minimize := true, maxFEs := none, ftarget := none } {} { X := X, vals := X.map (fun x => Obs.fin (g x)) }).2 = .ok () := by
  let g : Row → ℝ := fun r => match r with
    | [.real v] => v ^ 2
    | _ => 0
  refine ⟨[[.real 0], [.real 1], [.real 2], [.real 3], [.real 4], [.real 5]], g, by norm_num, ?_⟩
  have hflat : isFlat (([[.real 0], [.real 1], [.real 2], [.real 3], [.real 4], [.real 5]] : List Row).map g) = false := by
    rw [Bool.eq_false_iff]
    intro h
    have h2 := ((isFlat_iff _).1 h).2
    norm_num [npMean, g] at h2
  rw [tell_points, if_neg (by simp), if_neg (by simp)]
  unfold tellRest
  have hd := extended_fresh { minimize := true, maxFEs := none, ftarget := none } [[.real 0], [.real 1], [.real 2], [.real 3], [.real 4], [.real 5]] g
  rw [hd, hflat]
  simp [extended, postEvalCheck, defaultIndex, incumbent, getBest, g, List.range_succ]

/-- **C153, refuted**: as long as the values agree the surrogate gets them as they are, so that another zero gives it other data. -/
theorem c153_single_value_raw (r : Rec Row ℝ) (b : ℝ) : trainingSet [r] = [(r.x, r.f)] ∧ trainingSet [recIn (fun v => v + b) r] = [(r.x, r.f + b)] := by
  have h : ∀ v : ℝ, standardised [v] = [v] := by
    intro v
    unfold standardised
    rw [if_pos]
    norm_num [npStd, npMean]
  constructor
  · simp [trainingSet, h]
  · simp [trainingSet, h, recIn]

/-! ### C154 -/

/-- The training data of `-f`. -/
def negSet (t : List (Row × ℝ)) : List (Row × ℝ) := t.map (fun e => (e.1, -e.2))

/-- The surrogate treats the two directions alike: from the negated values it learns the negated function. -/
structure OddSurrogate (L : Learner G) : Prop where
  fit : ∀ i t, L.fit i (negSet t) = negModel (L.fit i t)
  predict : ∀ i t x j, L.predict i (negSet t) x j = negPred (L.predict i t x j)
  fitOk : ∀ i t, L.fitOk i (negSet t) = L.fitOk i t

private theorem getBest_anti (m : Bool) (l : List ℝ) : getBest (!m) (l.map (fun v => -v)) = (getBest m l).map (fun v => -v) := by
  cases l with
  | nil => rfl
  | cons x l =>
    simp only [getBest, List.map_cons, Option.map_some]
    congr 1
    induction l generalizing x with
    | nil => rfl
    | cons y l ih =>
      simp only [List.map_cons, List.foldl_cons]
      cases m
      · simp only [Bool.not_false, if_true, Bool.false_eq_true, if_false] at ih ⊢
        rw [min_neg_neg, ih]
      · simp only [Bool.not_true, if_true, Bool.false_eq_true, if_false] at ih ⊢
        rw [max_neg_neg, ih]

private theorem unitChange_neg (cfg : Cfg ℝ) (ht : cfg.ftarget = none) :
    UnitChange (fun v => -v) negated cfg { cfg with minimize := !cfg.minimize } where
  inj := neg_injective
  fin := fun v => rfl
  failed := fun o h v => by
    cases o with
    | fin c => exact absurd rfl (h c)
    | nan => simp [negated]
    | posInf => simp [negated]
    | negInf => simp [negated]
  best := fun l => getBest_anti _ l
  budget := rfl
  dict := rfl
  file := rfl
  target := Or.inl ⟨ht, ht⟩

private theorem mean_neg' (y : List ℝ) : npMean (y.map (fun v => -v)) = -npMean y := by
  by_cases hy : y = []
  · subst hy; simp [npMean]
  · have := npMean_affine (-1) 0 y hy
    simpa using this

private theorem spread_neg (y : List ℝ) : npMean ((y.map (fun v => -v)).map (fun v => (v - npMean (y.map (fun v => -v))) ^ 2)) =
    npMean (y.map (fun v => (v - npMean y) ^ 2)) := by
  rw [mean_neg', List.map_map]
  congr 1
  refine List.map_congr_left (fun v _ => ?_)
  simp only [Function.comp_apply]
  ring

private theorem standardised_neg' (y : List ℝ) : standardised (y.map (fun v => -v)) = (standardised y).map (fun v => -v) := by
  have hs : npStd (y.map (fun v => -v)) = npStd y := by unfold npStd; rw [spread_neg]
  unfold standardised
  rw [hs, mean_neg']
  split_ifs
  · rfl
  · rw [List.map_map, List.map_map]
    refine List.map_congr_left (fun v _ => ?_)
    simp only [Function.comp_apply]
    ring

private theorem trainingSet_neg (d : List (Rec Row ℝ)) : trainingSet (d.map (recIn (fun v => -v))) = negSet (trainingSet d) := by
  unfold trainingSet negSet
  rw [map_recIn_f, map_recIn_x, standardised_neg', List.zip_map_right]
  rfl

private noncomputable def critOf (mdl : AcqModel) (pr : Row → ℕ → AcqPred) (a : Acq) : Criterion := fun x j => (acqValue a mdl (pr x j), acqDx a mdl (pr x j))

private theorem crit_agree {mdl : AcqModel} {r r' : Except AcqErr Acq} (h : AgreeNeg mdl r r') (pr : Row → ℕ → AcqPred) :
    r'.map (critOf (negModel mdl) (fun x j => negPred (pr x j))) = r.map (critOf mdl pr) := by
  rcases h with ⟨e, rfl, rfl⟩ | ⟨a, b, rfl, rfl, h⟩
  · rfl
  · simp only [Except.map]
    congr 1
    funext x j
    unfold critOf
    rw [(h _).1, (h _).2]

private theorem mapM_map {α : Type} (g : ℝ → Except AcqErr Acq) (c : Acq → α) : ∀ zs : List ℝ,
    (zs.mapM g).map (List.map c) = zs.mapM (fun z => (g z).map c)
  | [] => rfl
  | z :: zs => by
    have ih := mapM_map g c zs
    rw [List.mapM_cons, List.mapM_cons, ← ih]
    cases g z with
    | error e => rfl
    | ok a =>
      cases zs.mapM g with
      | error e => rfl
      | ok l => rfl

private theorem sampler_neg (fn : AcqName) (par : AcqPar) (z : ℝ) : sampler fn (negPar par) z = (sampler fn par z).map negPar := by
  cases fn with
  | MGFI => simp only [sampler, negPar]; cases par.t <;> rfl
  | UCB => simp only [sampler, negPar]; cases par.alpha <;> rfl
  | _ => rfl

private theorem criteria_neg (cfg : Cfg ℝ) (u : RunSetup) (acq : AcqName × AcqPar) (L : Learner G) (hodd : OddSurrogate L) (i : ℕ) (d : List (Rec Row ℝ)) :
    criteriaOf { cfg with minimize := !cfg.minimize } u (acq.1, negPar acq.2) (objectiveIn negated L) i (d.map (recIn (fun v => -v))) =
      criteriaOf cfg u acq L i d := by
  obtain ⟨fn, par⟩ := acq
  unfold criteriaOf
  simp only [trainingSet_neg, map_recIn_f]
  have hf : (objectiveIn negated L).fit i (negSet (trainingSet d)) = negModel (L.fit i (trainingSet d)) := hodd.fit i _
  have hp : (objectiveIn negated L).predict i (negSet (trainingSet d)) = fun x j => negPred (L.predict i (trainingSet d) x j) := by
    funext x j; exact hodd.predict i _ x j
  have hn : (objectiveIn negated L).normals i = L.normals i := rfl
  rw [hf, hp, hn]
  generalize L.fit i (trainingSet d) = mdl
  generalize L.predict i (trainingSet d) = pr
  have key : ∀ p, (boCreate (optOf fn (negPar par) (!cfg.minimize) ((d.map Rec.f).map (fun v => -v)) (negModel mdl)) none (some (negPar p))).map
      (critOf (negModel mdl) (fun x j => negPred (pr x j))) =
      (boCreate (optOf fn par cfg.minimize (d.map Rec.f) mdl) none (some p)).map (critOf mdl pr) :=
    fun p => crit_agree (c36_optimiser_direction_consistent fn par p cfg.minimize (d.map Rec.f) mdl) pr
  by_cases h1 : 1 < u.nPoint
  · rw [if_pos h1, if_pos h1]
    unfold batchCreate
    refine (mapM_map _ (critOf (negModel mdl) (fun x j => negPred (pr x j))) _).trans (Eq.trans ?_ (mapM_map _ (critOf mdl pr) _).symm)
    congr 1
    funext z
    have ho : (optOf fn (negPar par) (!cfg.minimize) ((d.map Rec.f).map (fun v => -v)) (negModel mdl)).acqPar = negPar par := rfl
    have ho2 : (optOf fn (negPar par) (!cfg.minimize) ((d.map Rec.f).map (fun v => -v)) (negModel mdl)).fn = fn := rfl
    have ho3 : (optOf fn par cfg.minimize (d.map Rec.f) mdl).acqPar = par := rfl
    have ho4 : (optOf fn par cfg.minimize (d.map Rec.f) mdl).fn = fn := rfl
    rw [ho, ho2, ho3, ho4, sampler_neg]
    cases sampler fn par z with
    | error e => rfl
    | ok p => exact key p
  · rw [if_neg h1, if_neg h1]
    have h := key emptyPar
    have he : negPar emptyPar = emptyPar := rfl
    rw [he] at h
    unfold singleCreate
    revert h
    cases boCreate (optOf fn (negPar par) (!cfg.minimize) ((d.map Rec.f).map (fun v => -v)) (negModel mdl)) none (some emptyPar) with
    | error e =>
      cases boCreate (optOf fn par cfg.minimize (d.map Rec.f) mdl) none (some emptyPar) with
      | error e' => intro h; simpa [Except.map] using h
      | ok a => intro h; simp [Except.map] at h
    | ok a' =>
      cases boCreate (optOf fn par cfg.minimize (d.map Rec.f) mdl) none (some emptyPar) with
      | error e' => intro h; simp [Except.map] at h
      | ok a =>
        intro h
        have h : critOf (negModel mdl) (fun x j => negPred (pr x j)) a' = critOf mdl pr a := by simpa [Except.map] using h
        show Except.ok [critOf (negModel mdl) (fun x j => negPred (pr x j)) a'] = Except.ok [critOf mdl pr a]
        rw [h]

/-- **C154, partial** (without a target): maximising `-f` proposes the same points in the same steps as minimising `f`, ends in the same way and returns the same point
with the negated value; also the other way round.  For every class of optimiser, acquisition function, search, batch size, and every surrogate that treats the two directions alike. -/
theorem c154_direction_partial (cfg : Cfg ℝ) (u : RunSetup) (acq : AcqName × AcqPar) (L : Learner G) (hodd : OddSurrogate L) (ht : cfg.ftarget = none) (fuel : ℕ) :
    learnRun { cfg with minimize := !cfg.minimize } u (acq.1, negPar acq.2) (objectiveIn negated L) fuel 0 {} [] =
      runIn (fun v => -v) negated (learnRun cfg u acq L fuel 0 {} []) := by
  refine learnRun_in (unitChange_neg cfg ht) u acq (acq.1, negPar acq.2) L (objectiveIn negated L) (fun _ => True) (fun _ _ => rfl) (fun _ _ => rfl) ?_ ?_ ?_ fuel 0 {} [] (fun _ _ _ => trivial)
  · intro i d _
    rw [trainingSet_neg]
    exact hodd.fitOk i _
  · intro d _
    rw [Bool.eq_iff_iff, isFlat_iff, isFlat_iff, spread_neg, List.length_map]
  · intro i s _
    unfold proposals
    rw [askStateOf_in]
    cases hd : s.data with
    | none => simp only [stateIn, hd, Option.map_none]; rfl
    | some d =>
      have : (stateIn (fun v => -v) s).data = some (d.map (recIn (fun v => -v))) := by simp [stateIn, hd]
      rw [this]
      simp only [criteria_neg cfg u acq L hodd i d]
      rfl

/-! ### A run with a learning surrogate is a run of C146 -/

private theorem fullRun_congr (cfg : Cfg ℝ) (u : RunSetup) (w w' : ℕ → StepWorld G) : ∀ (fuel i : ℕ) (s : OptState Row ℝ) (log : List (ℕ × Row × Obs ℝ)),
    (∀ j, i ≤ j → w' j = w j) → fullRun cfg u w' fuel i s log = fullRun cfg u w fuel i s log := by
  intro fuel
  induction fuel with
  | zero => intro i s log _; rfl
  | succ fuel ih =>
    intro i s log h
    rw [fullRun, fullRun, h i le_rfl]
    cases checkStop cfg s with
    | mk s1 res =>
      cases res with
      | error e => rfl
      | ok b =>
        cases b with
        | true => rfl
        | false =>
          simp only
          cases askFull (w i).env (askStateOf u s1) none none with
          | error e => rfl
          | ok X =>
            simp only
            cases tell cfg s1 { X := X, vals := X.map (w i).objective, oracle := (w i).oracle } with
            | mk s2 r2 =>
              cases r2 with
              | error e => rfl
              | ok _ => exact ih (i + 1) s2 _ (fun j hj => h j (by omega))

theorem learn_full (cfg : Cfg ℝ) (u : RunSetup) (acq : AcqName × AcqPar) (L : Learner G) : ∀ (fuel i : ℕ) (s : OptState Row ℝ)
    (log : List (ℕ × Row × Obs ℝ)), ∃ (w : ℕ → StepWorld G) (k : ℕ), k ≤ fuel ∧ (∀ j, (∃ cs, (w j).env = L.search j cs) ∧ (w j).objective = L.objective j) ∧
      (fullRun cfg u w k i s log).log = (learnRun cfg u acq L fuel i s log).log ∧
      ((learnRun cfg u acq L fuel i s log).ending ≠ .raised → k = fuel ∧ fullRun cfg u w k i s log = learnRun cfg u acq L fuel i s log) := by
  intro fuel
  let w0 : ℕ → StepWorld G := fun j => { env := L.search j [], objective := L.objective j }
  have hw0 : ∀ j, (∃ cs, (w0 j).env = L.search j cs) ∧ (w0 j).objective = L.objective j := fun j => ⟨⟨[], rfl⟩, rfl⟩
  induction fuel with
  | zero => intro i s log; exact ⟨w0, 0, le_rfl, hw0, rfl, fun _ => ⟨rfl, rfl⟩⟩
  | succ fuel ih =>
    intro i s log
    cases hcs : checkStop cfg s with
    | mk s1 res =>
      cases res with
      | error e =>
        have h1 : learnRun cfg u acq L (fuel + 1) i s log = ⟨s1, log, .raised⟩ := by rw [learnRun, hcs]
        exact ⟨w0, 0, by omega, hw0, by rw [h1]; rfl, fun h => absurd (by rw [h1]) h⟩
      | ok b =>
        cases b with
        | true =>
          have h1 : fullRun cfg u w0 (fuel + 1) i s log = learnRun cfg u acq L (fuel + 1) i s log := by rw [learnRun, fullRun, hcs]; rfl
          exact ⟨w0, fuel + 1, le_rfl, hw0, by rw [h1], fun _ => ⟨rfl, h1⟩⟩
        | false =>
          cases hp : proposals cfg u acq L i s1 with
          | none =>
            have h1 : learnRun cfg u acq L (fuel + 1) i s log = ⟨s1, log, .raised⟩ := by rw [learnRun, hcs]; simp only [hp]
            exact ⟨w0, 0, by omega, hw0, by rw [h1]; rfl, fun h => absurd (by rw [h1]) h⟩
          | some X =>
            obtain ⟨cs, hask⟩ : ∃ cs, askFull (L.search i cs) (askStateOf u s1) none none = .ok X := by
              have hto : ∀ {r : Except AskErr (List Row)}, r.toOption = some X → r = .ok X := by
                intro r h
                cases r with
                | error e => cases h
                | ok Y => cases h; rfl
              unfold proposals at hp
              cases hd : s1.data with
              | none => rw [hd] at hp; exact ⟨[], hto hp⟩
              | some d =>
                rw [hd] at hp
                simp only at hp
                cases hc : criteriaOf cfg u acq L i d with
                | error e => rw [hc] at hp; cases hp
                | ok cs => rw [hc] at hp; exact ⟨cs, hto hp⟩
            let wi : StepWorld G := { env := L.search i cs, objective := L.objective i, oracle := oracleOf cfg L i s1 X }
            cases ht : tell cfg s1 { X := X, vals := X.map (L.objective i), oracle := oracleOf cfg L i s1 X } with
            | mk s2 r2 =>
              have hL : learnRun cfg u acq L (fuel + 1) i s log = match (s2, r2) with
                  | (s2, .error _) => ⟨s2, log ++ X.map (fun x => (i, x, L.objective i x)), .raised⟩
                  | (s2, .ok _) => learnRun cfg u acq L fuel (i + 1) s2 (log ++ X.map (fun x => (i, x, L.objective i x))) := by
                rw [learnRun, hcs]; simp only [hp, ht]; cases r2 <;> rfl
              have hF : ∀ (w : ℕ → StepWorld G) k, w i = wi → fullRun cfg u w (k + 1) i s log = match (s2, r2) with
                  | (s2, .error _) => ⟨s2, log ++ X.map (fun x => (i, x, L.objective i x)), .raised⟩
                  | (s2, .ok _) => fullRun cfg u w k (i + 1) s2 (log ++ X.map (fun x => (i, x, L.objective i x))) := by
                intro w k hw
                rw [fullRun, hcs]
                simp only [hw, wi, hask, ht]
                cases r2 <;> rfl
              have hup : ∀ (w : ℕ → StepWorld G), (∀ j, (∃ cs, (w j).env = L.search j cs) ∧ (w j).objective = L.objective j) →
                  ∀ j, (∃ cs, (Function.update w i wi j).env = L.search j cs) ∧ (Function.update w i wi j).objective = L.objective j := by
                intro w hw j
                by_cases hj : j = i
                · subst hj
                  rw [Function.update_self]
                  exact ⟨⟨cs, rfl⟩, rfl⟩
                · rw [Function.update_of_ne hj]
                  exact hw j
              cases r2 with
              | error e =>
                refine ⟨Function.update w0 i wi, 1, by omega, hup w0 hw0, ?_, fun h => absurd (by rw [hL]) h⟩
                rw [hF _ 0 (Function.update_self ..), hL]
              | ok _ =>
                obtain ⟨w, k, h1, h2, h3, h4⟩ := ih (i + 1) s2 (log ++ X.map (fun x => (i, x, L.objective i x)))
                have hc := fullRun_congr cfg u w (Function.update w i wi) k (i + 1) s2 (log ++ X.map (fun x => (i, x, L.objective i x)))
                  (fun j hj => Function.update_of_ne (by omega) _ _)
                refine ⟨Function.update w i wi, k + 1, by omega, hup w h2, ?_, fun h => ?_⟩
                · rw [hF _ k (Function.update_self ..), hL]
                  simp only [hc, h3]
                · rw [hL] at h
                  obtain ⟨h5, h6⟩ := h4 h
                  rw [hF _ k (Function.update_self ..), hL]
                  simp only [hc, h6]
                  exact ⟨by omega, trivial⟩

/-- **C146 for runs in which the surrogate learns**: the points evaluated lie in the space, differ from the earlier ones with a finite value, satisfy the constraints as far as C145 goes,
the budget is kept, and the point returned is the best one. -/
theorem c146_learning_run_partial (cfg : Cfg ℝ) (u : RunSetup) (acq : AcqName × AcqPar) (L : Learner G)
    (hok : ∀ w : ℕ → StepWorld G, (∀ j, ∃ cs, (w j).env = L.search j cs) → RunOk u w) (fuel : ℕ) :
    let out := learnRun cfg u acq L fuel 0 {} []
    (∀ i x v, (i, x, v) ∈ out.log → PointOf (u.vars.map Prod.snd) x ∧ v = L.objective i x ∧
      ∃ cs, FeasibleOrRounded (u.vars.map Prod.snd) (L.search i cs).h (L.search i cs).g x) ∧
    (∀ i x v j y c, (i, x, v) ∈ out.log → (j, y, Obs.fin c) ∈ out.log → j < i → Differs (u.vars.map Prod.snd) x y) ∧
    (∀ m, cfg.maxFEs = some m → (out.log.length : ℤ) ≤ max 0 (m - 1) + max u.nPoint u.doeSize) ∧
    (∀ r, out.ending = .stopped r → (∃ i, (i, r.x, Obs.fin r.f) ∈ out.log) ∧ ∀ i x v, (i, x, Obs.fin v) ∈ out.log → ¬ Better cfg.minimize v r.f) := by
  intro out
  obtain ⟨w, k, h1, h2, h3, h4⟩ := learn_full cfg u acq L fuel 0 {} []
  have hw := hok w (fun j => (h2 j).1)
  obtain ⟨p1, p2⟩ := c146_run_points_partial cfg u w hw k
  rw [h3] at p1 p2
  refine ⟨fun i x v hx => ?_, p2, fun m hm => ?_, fun r hr => ?_⟩
  · obtain ⟨q1, q2, q3⟩ := p1 i x v hx
    obtain ⟨⟨cs, hcs⟩, hobj⟩ := h2 i
    rw [hcs] at q3
    rw [hobj] at q2
    exact ⟨q1, q2, cs, q3⟩
  · have := (c146_run_budget cfg u w hw k m hm).2.1
    rw [h3] at this
    exact this
  · have he : (learnRun cfg u acq L fuel 0 {} []).ending = .stopped r := hr
    obtain ⟨-, h6⟩ := h4 (by rw [he]; simp)
    have hb := c146_run_best cfg u w hw k r (by rw [h6]; exact hr)
    rw [h6] at hb
    exact ⟨⟨hb.1.choose, hb.1.choose_spec.1⟩, hb.2⟩

/-! ### Concrete runs -/

/-- A surrogate that predicts the mean of its data everywhere; the sampler draws 0 and 1. -/
private noncomputable def demoLearner (G0 : AskEnv Unit) : Learner Unit where
  fit := fun _ t => { y := some (t.map Prod.snd) }
  predict := fun _ t _ _ => { mean := (t.map Prod.snd).sum, mse := 1 }
  normals := fun _ => []
  search := fun _ _ => G0
  objective := fun _ => demoObjective

private theorem demo_odd (G0 : AskEnv Unit) : OddSurrogate (demoLearner G0) where
  fit := fun i t => by simp [demoLearner, negModel, negSet, Function.comp_def]
  predict := fun i t x j => by
    have : ∀ t : List (Row × ℝ), ((negSet t).map Prod.snd).sum = -(t.map Prod.snd).sum := by
      intro t
      induction t with
      | nil => simp [negSet]
      | cons e t ih =>
        simp only [negSet, List.map_cons, List.sum_cons] at ih ⊢
        rw [ih]; ring
    simp only [demoLearner, negPred, this, neg_zero]
  fitOk := fun i t => rfl

theorem demo_oracle (cfg : Cfg ℝ) (L : Learner Unit) (h1 : L.fitOk = fun _ _ => true) (h2 : L.constraintOk = fun _ _ => true) (i : ℕ) (s : OptState Row ℝ)
    (X : List Row) : oracleOf cfg L i s X = {} := by
  have h : ∀ o : Option (Rec Row ℝ), (o.map (fun _ => true)).getD true = true := by rintro (_ | _) <;> rfl
  simp only [oracleOf, h1, h2, h]

/-- For the examples: the sampler draws 0 and 1. -/
noncomputable def twoEnv : AskEnv Unit :=
  { zeroEnv .bfgs none none [1 / 2] with rng := { uniform := fun _ _ _ => (fun i _ => if i = 0 then 0 else 1, ()), randint := fun _ _ _ => (fun _ => 0, ()), seed := fun _ => () } }

/-- For the examples: one variable on the unit interval, a design of two points. -/
noncomputable def twoSetup : RunSetup := { demoSetup with doeSize := 2 }

theorem two_first : askFull twoEnv (askStateOf twoSetup {}) none none = .ok [[.real 0], [.real 1]] := by
  have hsamp : unitVar.sample 0 = some 0 := by
    simp [RealVar.sample, unitVar, affine, scaleTrans, RealVar.toLinear, scaleInv, RealVar.round]
  have hsamp1 : unitVar.sample 1 = some 1 := by
    simp [RealVar.sample, unitVar, affine, scaleTrans, RealVar.toLinear, scaleInv, RealVar.round]
  have hv : twoSetup.vars = demoSetup.vars := rfl
  have hdes : ∀ k, designSample twoEnv demoSetup.vars [] k 2 = [[.real 0], [.real 1]] := by
    intro k
    have hfk : freeKinds demoSetup.vars [] = [.real unitVar] := by simp [freeKinds, demoSetup]
    unfold designSample
    simp only [hfk]
    rw [if_neg (by simp [twoEnv, zeroEnv])]
    simp [sampleFree, sampledRows, sampleRaw, pureType, sampleGroup, realCols, toRows, Kind.vtype, Kind.ofUniform, twoEnv, zeroEnv, hsamp, hsamp1,
      List.range_succ, List.zipIdx]
  have hnm : ∀ a b : ℝ, (a = 0 ∧ b = 1) ∨ (a = 1 ∧ b = 0) → ¬ matchesRow (demoSetup.vars.map Prod.snd) [.real a] [.real b] := by
    intro a b hab h
    have h0 : isClose a b := h.1 0 (by simp [typeIds, demoSetup, Kind.vtype])
    unfold isClose at h0
    rcases hab with ⟨rfl, rfl⟩ | ⟨rfl, rfl⟩ <;> norm_num at h0
  have hpre : preEvalCheck (demoSetup.vars.map Prod.snd) [] [[.real 0], [.real 1]] = [[.real 0], [.real 1]] := by
    unfold preEvalCheck
    rw [List.filter_eq_self.mpr]
    · simp [List.range_succ]
    · intro i hi
      rw [Bool.not_eq_true', List.any_eq_false]
      intro j hj hdec
      simp only [decide_eq_true_eq] at hdec
      obtain ⟨hne, hm⟩ := hdec
      have hi2 : i < 2 := by simpa using hi
      have hj2 : j < 2 := by simpa using hj
      obtain ⟨rfl, rfl⟩ | ⟨rfl, rfl⟩ : (i = 0 ∧ j = 1) ∨ (i = 1 ∧ j = 0) := by omega
      · exact hnm 1 0 (by norm_num) hm
      · exact hnm 0 1 (by norm_num) hm
  have hdoe : createDoE demoSetup.vars none [] (designSample twoEnv demoSetup.vars []) 2 = some [[.real 0], [.real 1]] := by
    simp only [createDoE, Option.getD_none]
    unfold doeLoop
    rw [if_neg two_ne_zero, hdes]
    have hfill : fillin (demoSetup.vars.map Prod.fst) (some []) [[Val.real 0], [Val.real 1]] = some [[.real 0], [.real 1]] := by
      simp [fillin, fillRow, List.lookup, demoSetup]
    rw [hfill, Option.bind_some]
    have hround : [[Val.real 0], [Val.real 1]].map (roundRow (demoSetup.vars.map Prod.snd)) = [[.real 0], [.real 1]] := by
      simp [roundRow, roundVal, demoSetup, RealVar.round, unitVar]
    simp only [List.isEmpty_cons, Bool.false_eq_true, if_false, hround, hpre, List.nil_append]
    unfold doeLoop
    simp
  unfold askFull ask askPoints
  have hf : (askStateOf twoSetup {}).fitted = false := rfl
  have hd : (none : Option ℤ).getD (askStateOf twoSetup {}).doeSize = 2 := rfl
  have hv : (askStateOf twoSetup {}).vars = demoSetup.vars := rfl
  have hda : (askStateOf twoSetup {}).data = [] := rfl
  rw [hf, hd, hv, hda]
  simp only [Option.getD_none, Bool.false_eq_true, if_false]
  rw [hdoe]
  rfl

private noncomputable def twoCfg : Cfg ℝ := { minimize := true, maxFEs := some 2, ftarget := none }

/-- The first point of the design, with value 1. -/
def twoWorse : Rec Row ℝ := { x := [.real 0], f := 1, nEval := 2, index := toString 0 }
/-- The second point of the design, with value 0. -/
def twoBetter : Rec Row ℝ := { x := [.real 1], f := 0, nEval := 2, index := toString 1 }

/-- The optimiser after the design. -/
def twoState : OptState Row ℝ := { evalCount := 2, iterCount := 1, data := some [twoWorse, twoBetter], histF := [0] }

/-- The evaluations of the design. -/
noncomputable def twoLog : List (ℕ × Row × Obs ℝ) := [(0, [.real 0], .fin 1), (0, [.real 1], .fin 0)]

private theorem two_run (k : ℕ) : learnRun twoCfg twoSetup (.EI, emptyPar) (demoLearner twoEnv) (k + 1) 0 {} [] =
    learnRun twoCfg twoSetup (.EI, emptyPar) (demoLearner twoEnv) k 1 twoState twoLog := by
  have h0 : checkStop twoCfg ({} : OptState Row ℝ) = ({}, .ok false) := by
    simp [checkStop, twoCfg, checkBudget, stopFlag]
  have hp : proposals twoCfg twoSetup (.EI, emptyPar) (demoLearner twoEnv) 0 {} = some [[.real 0], [.real 1]] := by
    show (askFull twoEnv (askStateOf twoSetup {}) none none).toOption = _
    rw [two_first]
    rfl
  have hor : oracleOf twoCfg (demoLearner twoEnv) 0 {} [[.real 0], [.real 1]] = {} := demo_oracle _ _ rfl rfl _ _ _
  have t0 : tell twoCfg ({} : OptState Row ℝ) { X := [[.real 0], [.real 1]], vals := [[Val.real 0], [.real 1]].map ((demoLearner twoEnv).objective 0), oracle := {} } =
      (twoState, .ok ()) := by
    simp [tell, observe, tellRest, postEvalCheck, demoLearner, demoObjective, twoCfg, labels, defaultIndex, isFlat, incumbent, getBest, twoState, twoWorse, twoBetter,
      List.range_succ]
  rw [learnRun, h0]
  simp only [hp, hor, t0]
  congr 1
  simp [demoLearner, demoObjective, twoLog]

private theorem two_end (k : ℕ) : learnRun twoCfg twoSetup (.EI, emptyPar) (demoLearner twoEnv) (k + 2) 0 {} [] =
    ⟨{ twoState with stopMaxFEs := some 2 }, twoLog, .stopped twoBetter⟩ := by
  rw [two_run, learnRun]
  have h1 : checkStop twoCfg twoState = ({ twoState with stopMaxFEs := some 2 }, .ok true) := by
    simp [checkStop, twoCfg, checkBudget, stopFlag, twoState]
  have hx : xopt twoCfg { twoState with stopMaxFEs := some 2 } = .ok (some twoBetter) := by
    simp [xopt, incumbent, getBest, twoState, twoWorse, twoBetter, twoCfg]
  simp only [h1, hx]

/-- The hypotheses of `c153_units_partial` are met by a run that evaluates the values 1 and 0 and returns the second point; in units a thousand times smaller. -/
example : SpreadAbove (max (1 / 10 ^ 8) (1 / 10 ^ 8 / 1000)) twoCfg twoSetup (.EI, emptyPar) (demoLearner twoEnv) ∧
    (learnRun twoCfg twoSetup (.EI, emptyPar) (demoLearner twoEnv) 2 0 {} []).ending = .stopped twoBetter := by
  refine ⟨?_, by rw [two_end 0]⟩
  intro k d hd
  have hdd : d = [twoWorse, twoBetter] := by
    match k, hd with
    | 0, hd => cases hd
    | 1, hd => rw [two_run 0] at hd; exact (Option.some.inj hd).symm
    | k + 2, hd => rw [two_end k] at hd; exact (Option.some.inj hd).symm
  subst hdd
  rw [max_eq_left (by norm_num)]
  refine Real.lt_sqrt_of_sq_lt ?_
  norm_num [twoWorse, twoBetter]

/-- The hypotheses of `c154_direction_partial` are met by the same run. -/
example : OddSurrogate (demoLearner twoEnv) ∧ twoCfg.ftarget = none ∧
    (learnRun { twoCfg with minimize := false } twoSetup (.EI, negPar emptyPar) (objectiveIn negated (demoLearner twoEnv)) 2 0 {} []).ending =
      .stopped (recIn (fun v => -v) twoBetter) := by
  refine ⟨demo_odd _, rfl, ?_⟩
  have h := c154_direction_partial twoCfg twoSetup (.EI, emptyPar) (demoLearner twoEnv) (demo_odd _) rfl 2
  rw [two_end 0] at h
  exact congrArg FullOut.ending h

/-- The hypothesis of `c146_learning_run_partial` is met by the searches of the example of C146. -/
example (w : ℕ → StepWorld Unit) (h : ∀ j, ∃ cs, (w j).env = (demoLearner (demoWorld demoObjective 0).env).search j cs) : RunOk demoSetup w := by
  have hd := demo_ok demoObjective
  refine ⟨hd.point, hd.design, hd.bounds, fun i => ?_, fun i => ?_⟩
  · obtain ⟨cs, hcs⟩ := h i
    rw [hcs]
    exact hd.libraries 0
  · obtain ⟨cs, hcs⟩ := h i
    rw [hcs]
    exact hd.space 0

/-- **C154, refuted**: with a target the directions differ: minimising stops when the target is passed, maximising the negated function does not. -/
theorem c154_target_refuted : ∃ (u : RunSetup) (cfg : Cfg ℝ) (L : Learner Unit) (r : Rec Row ℝ), OddSurrogate L ∧ cfg.minimize = true ∧
    (learnRun cfg u (.EI, emptyPar) L 2 0 {} []).ending = .stopped r ∧
    ∀ r', (learnRun { targetIn (fun v => -v) cfg with minimize := false } u (.EI, emptyPar) (objectiveIn negated L) 2 0 {} []).ending ≠ .stopped r' := by
  let cfg : Cfg ℝ := { minimize := true, maxFEs := none, ftarget := some (1 / 2) }
  let cfg' : Cfg ℝ := { minimize := false, maxFEs := none, ftarget := some (-(1 / 2)) }
  refine ⟨twoSetup, cfg, demoLearner twoEnv, twoBetter, demo_odd _, rfl, ?_, ?_⟩
  · have h0 : checkStop cfg ({} : OptState Row ℝ) = ({}, .ok false) := by
      simp [checkStop, cfg, checkBudget, stopFlag, xopt]
    have hp : proposals cfg twoSetup (.EI, emptyPar) (demoLearner twoEnv) 0 {} = some [[.real 0], [.real 1]] := by
      show (askFull twoEnv (askStateOf twoSetup {}) none none).toOption = _
      rw [two_first]
      rfl
    have hor : oracleOf cfg (demoLearner twoEnv) 0 {} [[.real 0], [.real 1]] = {} := demo_oracle _ _ rfl rfl _ _ _
    have t0 : tell cfg ({} : OptState Row ℝ) { X := [[.real 0], [.real 1]], vals := [[Val.real 0], [.real 1]].map ((demoLearner twoEnv).objective 0), oracle := {} } =
        (twoState, .ok ()) := by
      simp [tell, observe, tellRest, postEvalCheck, demoLearner, demoObjective, cfg, labels, defaultIndex, isFlat, incumbent, getBest, twoState, twoWorse, twoBetter,
        List.range_succ]
    have hx : xopt cfg twoState = .ok (some twoBetter) := by
      simp [xopt, incumbent, getBest, twoState, twoWorse, twoBetter, cfg]
    have h1 : checkStop cfg twoState = ({ twoState with stopFtarget := some 0 }, .ok true) := by
      have hb : checkBudget cfg twoState = twoState := rfl
      unfold checkStop
      rw [hb]
      simp only [cfg] at hx ⊢
      simp only [hx]
      norm_num [Model.compare, twoBetter, stopFlag, twoState]
    have hx2 : xopt cfg { twoState with stopFtarget := some 0 } = .ok (some twoBetter) := hx
    rw [learnRun, h0]
    simp only [hp, hor, t0]
    rw [learnRun, h1]
    simp only [hx2]
  · intro r' h
    have h0 : checkStop cfg' ({} : OptState Row ℝ) = ({}, .ok false) := by
      simp [checkStop, cfg', checkBudget, stopFlag, xopt]
    have hp : proposals cfg' twoSetup (.EI, emptyPar) (objectiveIn negated (demoLearner twoEnv)) 0 {} = some [[.real 0], [.real 1]] := by
      show (askFull twoEnv (askStateOf twoSetup {}) none none).toOption = _
      rw [two_first]
      rfl
    have hor : oracleOf cfg' (objectiveIn negated (demoLearner twoEnv)) 0 {} [[.real 0], [.real 1]] = {} := demo_oracle _ _ rfl rfl _ _ _
    have t0 : tell cfg' ({} : OptState Row ℝ) { X := [[.real 0], [.real 1]], vals := [[Val.real 0], [.real 1]].map ((objectiveIn negated (demoLearner twoEnv)).objective 0), oracle := {} } =
        (stateIn (fun v => -v) twoState, .ok ()) := by
      simp [tell, observe, tellRest, postEvalCheck, demoLearner, demoObjective, cfg', labels, defaultIndex, isFlat, incumbent, getBest, twoState, twoWorse, twoBetter,
        List.range_succ, objectiveIn, negated, stateIn, recIn]
    have hx : xopt cfg' (stateIn (fun v => -v) twoState) = .ok (some (recIn (fun v => -v) twoBetter)) := by
      simp [xopt, incumbent, getBest, twoState, twoWorse, twoBetter, cfg', stateIn, recIn]
    have h1 : checkStop cfg' (stateIn (fun v => -v) twoState) = (stateIn (fun v => -v) twoState, .ok false) := by
      have hb : checkBudget cfg' (stateIn (fun v => -v) twoState) = stateIn (fun v => -v) twoState := rfl
      unfold checkStop
      rw [hb]
      simp only [cfg'] at hx ⊢
      simp only [hx]
      norm_num [Model.compare, twoBetter, stopFlag, twoState, recIn, stateIn]
    have hc : ({ targetIn (fun v => -v) cfg with minimize := false } : Cfg ℝ) = cfg' := by simp [targetIn, cfg, cfg']
    rw [hc, learnRun, h0] at h
    simp only [hp, hor, t0] at h
    rw [learnRun, h1] at h
    simp only at h
    cases hq : proposals cfg' twoSetup (.EI, emptyPar) (objectiveIn negated (demoLearner twoEnv)) 1 (stateIn (fun v => -v) twoState) with
    | none => rw [hq] at h; cases h
    | some X =>
      rw [hq] at h
      simp only at h
      split at h <;> cases h

end Verif.Props
