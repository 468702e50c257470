import Verif.Props.FullRun

/-! # C160: small discrete spaces are searched exhaustively -/
namespace Verif.Props
open Verif.Model Verif.Spec Verif.Proofs

variable {G : Type*}

private theorem codes_all {ks : List Kind} {n : ℕ} (x : Fin n → Row) (hp : ∀ i, PointOf ks (x i)) (hd : ∀ i j, j < i → Differs ks (x i) (x j))
    (hn : distinctPoints ks ≤ n) (y : Row) (hy : PointOf ks y) : ∃ i, codeRow ks (x i) = codeRow ks y := by
  classical
  have hinj : Function.Injective (fun i => codeRow ks (x i)) := by
    intro i j he
    by_contra hne
    rcases lt_or_gt_of_ne hne with h | h
    · exact codeRow_differs (hp j) (hp i) (hd j i h) he.symm
    · exact codeRow_differs (hp i) (hp j) (hd i j h) he
  have hmem : ∀ z, PointOf ks z → codeRow ks z ∈ Fintype.piFinset (fun j : Fin ks.length => Finset.range (distinctValues ks[j])) := by
    intro z hz
    rw [Fintype.mem_piFinset]
    intro j
    rw [Finset.mem_range]
    have e : z[(j : ℕ)]? = some (z[(j : ℕ)]'(by rw [hz.1]; exact j.2)) := List.getElem?_eq_getElem _
    unfold codeRow
    rw [e]
    exact codeVal_lt (hz.2 j _ _ (List.getElem?_eq_getElem j.2) e)
  have hcard : (Fintype.piFinset (fun j : Fin ks.length => Finset.range (distinctValues ks[j]))).card = distinctPoints ks := by
    rw [Fintype.card_piFinset]
    simp only [Finset.card_range]
    unfold distinctPoints
    rw [← List.prod_ofFn]
    congr 1
    exact List.ext_getElem (by simp) (by simp)
  have himg : Finset.univ.image (fun i => codeRow ks (x i)) = Fintype.piFinset (fun j : Fin ks.length => Finset.range (distinctValues ks[j])) := by
    refine Finset.eq_of_subset_of_card_le ?_ ?_
    · intro c hc
      obtain ⟨i, -, rfl⟩ := Finset.mem_image.mp hc
      exact hmem _ (hp i)
    · rw [hcard, Finset.card_image_of_injective _ hinj, Finset.card_univ, Fintype.card_fin]
      exact hn
  have := hmem y hy
  rw [← himg] at this
  obtain ⟨i, -, h⟩ := Finset.mem_image.mp this
  exact ⟨i, h⟩

private theorem eq_of_code {ks : List Kind} (hk : DiscreteSpace ks) {x y : Row} (hx : PointOf ks x) (hy : PointOf ks y) (h : codeRow ks x = codeRow ks y) : x = y := by
  refine List.ext_getElem (hx.1.trans hy.1.symm) fun j h1 h2 => ?_
  have hj : j < ks.length := by rw [← hx.1]; exact h1
  have hc := congrFun h ⟨j, hj⟩
  simp only [codeRow, List.getElem?_eq_getElem h1, List.getElem?_eq_getElem h2, Option.map_some, Option.getD_some] at hc
  exact (codeVal_inj (hx.2 j _ _ (List.getElem?_eq_getElem hj) (List.getElem?_eq_getElem h1)) (hy.2 j _ _ (List.getElem?_eq_getElem hj) (List.getElem?_eq_getElem h2)) hc).1
    (hk _ (List.getElem_mem hj))

/-- **C160**: in a space without real variables, a run that has made more evaluations than fit in one step fewer than the space has points has evaluated every point of
the space.  If points are proposed one at a time this is the case as soon as the number of evaluations is the number of points. -/
theorem c160_all_points (cfg : Cfg ℝ) (u : RunSetup) (w : ℕ → StepWorld G) (hok : RunOk u w) (hdisc : DiscreteSpace (u.vars.map Prod.snd))
    (hfin : ∀ i x, PointOf (u.vars.map Prod.snd) x → ∃ c, (w i).objective x = .fin c) (fuel : ℕ)
    (hlen : ((distinctPoints (u.vars.map Prod.snd) : ℤ) - 1) * max u.nPoint u.doeSize < (fullRun cfg u w fuel 0 {} []).log.length)
    (x : Row) (hx : PointOf (u.vars.map Prod.snd) x) : ∃ i, (i, x, (w i).objective x) ∈ (fullRun cfg u w fuel 0 {} []).log := by
  obtain ⟨k, h1, h2, -⟩ := run_steps cfg u w hok fuel 0 {} [] (by simp) (by simp)
  obtain ⟨p1, p2⟩ := c146_run_points_partial cfg u w hok fuel
  choose z v hzv using h2
  have hB : 0 ≤ max u.nPoint u.doeSize := le_trans (by have := hok.point; omega) (le_max_left _ _)
  have hk : distinctPoints (u.vars.map Prod.snd) ≤ k := by
    have := lt_of_mul_lt_mul_right (hlen.trans_le h1) hB
    omega
  obtain ⟨i, hi⟩ := codes_all (fun i : Fin k => z i i.2) (fun i => (p1 _ _ _ (hzv i i.2)).1) (by
    intro i j hlt
    obtain ⟨q1, q2, -⟩ := p1 _ _ _ (hzv j j.2)
    obtain ⟨c, hc⟩ := hfin j _ q1
    exact p2 i _ _ j _ c (hzv i i.2) (by rw [← hc, ← q2]; exact hzv j j.2) hlt) hk x hx
  have he := eq_of_code hdisc (p1 _ _ _ (hzv i i.2)).1 hx hi
  have hv := (p1 _ _ _ (hzv i i.2)).2.1
  exact ⟨i, by rw [← he, ← hv]; exact hzv i i.2⟩

/-- **C160**: so a run of a deterministic objective that returns with such a budget returns a global optimum of the space. -/
theorem c160_global_optimum (cfg : Cfg ℝ) (u : RunSetup) (w : ℕ → StepWorld G) (hok : RunOk u w) (hdisc : DiscreteSpace (u.vars.map Prod.snd)) (f : Row → ℝ)
    (hf : ∀ i x, PointOf (u.vars.map Prod.snd) x → (w i).objective x = .fin (f x)) (ht : cfg.ftarget = none) (m : ℤ) (hm : cfg.maxFEs = some m)
    (hbud : ((distinctPoints (u.vars.map Prod.snd) : ℤ) - 1) * max u.nPoint u.doeSize < m) (fuel : ℕ) (r : Rec Row ℝ)
    (hr : (fullRun cfg u w fuel 0 {} []).ending = .stopped r) :
    PointOf (u.vars.map Prod.snd) r.x ∧ r.f = f r.x ∧ ∀ x, PointOf (u.vars.map Prod.snd) x → ¬ Better cfg.minimize (f x) (f r.x) := by
  obtain ⟨-, -, -, -, h5⟩ := c146_run_budget cfg u w hok fuel m hm
  obtain ⟨⟨i, hi, ho⟩, hbest⟩ := c146_run_best cfg u w hok fuel r hr
  have hp := ((c146_run_points_partial cfg u w hok fuel).1 _ _ _ hi).1
  have hrf : r.f = f r.x := by
    rw [hf i _ hp] at ho
    exact (Obs.fin.inj ho).symm
  refine ⟨hp, hrf, fun x hx => ?_⟩
  obtain ⟨j, hj⟩ := c160_all_points cfg u w hok hdisc (fun i x hx => ⟨_, hf i x hx⟩) fuel (hbud.trans_le (h5 r hr ht)) x hx
  rw [hf j x hx] at hj
  rw [← hrf]
  exact hbest j x _ hj

/-! ### The hypotheses are met -/

private abbrev no : Val := .lvl (.one (.bool false))
private abbrev yes : Val := .lvl (.one (.bool true))

/-- One Boolean variable, one point at a time. -/
private noncomputable def boolSetup : RunSetup := { vars := [("a", .bool)], parallel := false, nPoint := 1, doeSize := 1 }

/-- The value of `False` is 1, of `True` 0. -/
private noncomputable def boolObjective : Row → Obs ℝ
  | [.lvl (.one (.bool b))] => .fin (if b then 0 else 1)
  | _ => .nan

/-- The first step draws `False`, later steps draw `True`. -/
private noncomputable def boolWorld (i : ℕ) : StepWorld Unit :=
  { env := { zeroEnv .mies none none [0] with rng := { uniform := fun _ _ _ => (fun _ _ => 0, ()), randint := fun _ s _ => (fun _ => if i = 0 then 0 else s - 1, ()), seed := fun _ => () } },
    objective := boolObjective }

private theorem bool_ok : RunOk boolSetup boolWorld where
  point := le_rfl
  design := le_rfl
  bounds := by
    intro name v h
    simp [boolSetup] at h
  libraries := fun i => by
    have h := zeroEnv_libraries .mies none none [0] (boolSetup.vars.map Prod.snd) (by
      refine ⟨rfl, ?_⟩
      intro j v a hj ha
      cases j <;> simp [boolSetup] at hj)
    refine ⟨⟨fun _ _ _ _ _ => ⟨le_rfl, zero_le_one⟩, fun g s N j hs => ?_⟩, h.argsort, h.sortPop, h.bfgs, h.start, h.steps, h.parents, h.pick⟩
    show (if i = 0 then 0 else s - 1) < s
    split <;> omega
  space := fun i => by
    have hk : ∀ P : Kind → Prop, P .bool → ∀ k ∈ boolSetup.vars.map Prod.snd, P k := by
      intro P hP k hk
      rw [List.mem_singleton.mp hk]
      exact hP
    refine ⟨by simp [boolSetup], hk _ ?_, hk _ ?_, fun h => absurd rfl h, fun h => by simp [boolWorld, zeroEnv] at h⟩
    · simp [Proper]
    · simp [Regular]

private theorem bool_sample (i k : ℕ) : designSample (boolWorld i).env boolSetup.vars [] k 1 = [[if i = 0 then no else yes]] := by
  have hfk : freeKinds boolSetup.vars [] = [.bool] := by simp [freeKinds, boolSetup]
  unfold designSample
  simp only [hfk]
  rw [if_neg (by simp [boolWorld, zeroEnv])]
  by_cases h : i = 0 <;>
    simp [sampleFree, sampledRows, sampleRaw, pureType, sampleGroup, discCols, toRows, Kind.vtype, Kind.ofDraw, Kind.size, Kind.levels, boolWorld, zeroEnv,
      List.range_succ, h]

private theorem bool_match (a b : Val) : matchesRow (boolSetup.vars.map Prod.snd) [a] [b] ↔ a = b := by
  simp [matchesRow, typeIds, categoricalIds, boolSetup, Kind.vtype, List.range_succ]

private theorem bool_pre (a b : Val) (h : a ≠ b) : preEvalCheck (boolSetup.vars.map Prod.snd) [[a]] [[b]] = [[b]] ∧
    preEvalCheck (boolSetup.vars.map Prod.snd) [[a]] [[a]] = [] := by
  constructor
  · simp [preEvalCheck, List.range_succ, bool_match, h]
  · simp [preEvalCheck, List.range_succ, bool_match]

private theorem bool_doe (i : ℕ) (data : List Row) (b : Val) (hb : b = if i = 0 then no else yes)
    (hp : preEvalCheck (boolSetup.vars.map Prod.snd) data [[b]] = [[b]]) :
    createDoE boolSetup.vars none data (designSample (boolWorld i).env boolSetup.vars []) 1 = some [[b]] := by
  simp only [createDoE, Option.getD_none]
  unfold doeLoop
  rw [if_neg one_ne_zero, bool_sample, ← hb]
  have hfill : fillin (boolSetup.vars.map Prod.fst) (some []) [[b]] = some [[b]] := by
    simp [fillin, fillRow, List.lookup, boolSetup]
  rw [hfill, Option.bind_some]
  have hround : [[b]].map (roundRow (boolSetup.vars.map Prod.snd)) = [[b]] := by
    simp [roundRow, roundVal, boolSetup]
  simp only [List.isEmpty_cons, Bool.false_eq_true, if_false, hround, hp, List.nil_append]
  unfold doeLoop
  simp

private theorem bool_first : askFull (boolWorld 0).env (askStateOf boolSetup {}) none none = .ok [[no]] := by
  unfold askFull ask askPoints
  have hf : (askStateOf boolSetup {}).fitted = false := rfl
  have hd : (none : Option ℤ).getD (askStateOf boolSetup {}).doeSize = 1 := rfl
  have hv : (askStateOf boolSetup {}).vars = boolSetup.vars := rfl
  have hda : (askStateOf boolSetup {}).data = [] := rfl
  rw [hf, hd, hv, hda]
  simp only [Option.getD_none, Bool.false_eq_true, if_false]
  rw [bool_doe 0 [] no rfl (preEvalCheck_singleton _ _)]
  rfl

private theorem bool_second (s : OptState Row ℝ) (r : Rec Row ℝ) (hs : s.data = some [r]) (hr : r.x = [no]) :
    askFull (boolWorld 1).env (askStateOf boolSetup s) none none = .ok [[yes]] := by
  have hf : (askStateOf boolSetup s).fitted = true := by simp [askStateOf, hs]
  have hv : (askStateOf boolSetup s).vars = boolSetup.vars := rfl
  have hda : (askStateOf boolSetup s).data = [[no]] := by simp [askStateOf, hs, hr]
  have hn : (none : Option ℤ).getD (askStateOf boolSetup s).nPoint = 1 := rfl
  have hne : no ≠ yes := by simp
  have hdoe := bool_doe 1 [[no]] yes rfl (bool_pre no yes hne).1
  have hbest : acquisitionBest (boolWorld 1).env boolSetup.vars [] 0 = [] ∨ acquisitionBest (boolWorld 1).env boolSetup.vars [] 0 = [no] ∨
      acquisitionBest (boolWorld 1).env boolSetup.vars [] 0 = [yes] := by
    rcases best_spec (boolWorld 1).env boolSetup.vars [] (bool_ok.libraries 1) (bool_ok.space 1) 0 with h | ⟨h, -⟩
    · exact Or.inl h
    · generalize acquisitionBest (boolWorld 1).env boolSetup.vars [] 0 = b at h ⊢
      right
      obtain ⟨v, rfl⟩ : ∃ v, b = [v] := List.length_eq_one_iff.1 h.1
      have := h.2 0 .bool v rfl rfl
      cases v <;> simp [Kind.contains, Kind.levels] at this ⊢
      exact this
  unfold askFull ask askPoints
  rw [hf, hn, hv, hda]
  simp only [Option.getD_none, if_true]
  rcases hbest with h | h | h
  · have harg : argMaxAcquisition (askStateOf boolSetup s) 1 none (acquisitionBest (boolWorld 1).env boolSetup.vars []) = .ok [] := by
      simp [argMaxAcquisition, h, fillin, Except.bind]
    rw [harg]
    simp only [Except.bind, preEvalCheck, List.length_nil, List.range_zero, List.filter_nil, List.map_nil]
    rw [if_pos (by norm_num)]
    simp [hdoe, liftShape, Except.map]
  · have harg : argMaxAcquisition (askStateOf boolSetup s) 1 none (acquisitionBest (boolWorld 1).env boolSetup.vars []) = .ok [[no]] := by
      simp [argMaxAcquisition, h, fillin, Except.bind]
    rw [harg]
    simp only [Except.bind, (bool_pre no yes hne).2, List.length_nil]
    rw [if_pos (by norm_num)]
    simp [hdoe, liftShape, Except.map]
  · have harg : argMaxAcquisition (askStateOf boolSetup s) 1 none (acquisitionBest (boolWorld 1).env boolSetup.vars []) = .ok [[yes]] := by
      simp [argMaxAcquisition, h, fillin, Except.bind]
    rw [harg]
    simp only [Except.bind, (bool_pre no yes hne).1, List.length_singleton]
    rw [if_neg (by norm_num)]
    simp

/-- Both theorems apply to a run of two steps over a Boolean variable with a budget of two: it returns `True`. -/
example : let cfg : Cfg ℝ := { minimize := true, maxFEs := some 2, ftarget := none }
    distinctPoints (boolSetup.vars.map Prod.snd) = 2 ∧ DiscreteSpace (boolSetup.vars.map Prod.snd) ∧
      ∃ r, (fullRun cfg boolSetup boolWorld 3 0 {} []).ending = .stopped r ∧ r.x = [yes] := by
  intro cfg
  refine ⟨by simp [distinctPoints, boolSetup, distinctValues, Kind.levels], by simp [DiscreteSpace, boolSetup, Kind.vtype], ?_⟩
  have h0 : checkStop cfg ({} : OptState Row ℝ) = ({}, .ok false) := by
    simp [checkStop, cfg, checkBudget, stopFlag]
  let r0 : Rec Row ℝ := { x := [no], f := 1, nEval := 2, index := toString 0 }
  let s1 : OptState Row ℝ := { evalCount := 1, iterCount := 1, data := some [r0], histF := [1] }
  have t0 : tell cfg ({} : OptState Row ℝ) { X := [[no]], vals := [[no]].map (boolWorld 0).objective, oracle := (boolWorld 0).oracle } = (s1, .ok ()) := by
    simp [tell, observe, tellRest, postEvalCheck, boolWorld, boolObjective, cfg, labels, defaultIndex, isFlat, incumbent, getBest, s1, r0]
  have h1 : checkStop cfg s1 = (s1, .ok false) := by
    simp [checkStop, cfg, checkBudget, stopFlag, s1]
  let r1 : Rec Row ℝ := { x := [yes], f := 0, nEval := 2, index := toString 0 }
  let s2 : OptState Row ℝ := { evalCount := 2, iterCount := 2, data := some [r0, r1], histF := [1, 0] }
  have t1 : tell cfg s1 { X := [[yes]], vals := [[yes]].map (boolWorld 1).objective, oracle := (boolWorld 1).oracle } = (s2, .ok ()) := by
    simp [tell, observe, tellRest, postEvalCheck, boolWorld, boolObjective, cfg, labels, defaultIndex, isFlat, incumbent, getBest, s1, s2, r0, r1]
  have h2 : checkStop cfg s2 = ({ s2 with stopMaxFEs := some 2 }, .ok true) := by
    simp [checkStop, cfg, checkBudget, stopFlag, s2]
  have hx : xopt cfg { s2 with stopMaxFEs := some 2 } = .ok (some r1) := by
    simp [xopt, incumbent, getBest, s2, r0, r1, cfg]
  have hrun : (fullRun cfg boolSetup boolWorld 3 0 {} []).ending = .stopped r1 := by
    simp only [fullRun, h0, bool_first, t0, h1, bool_second s1 r0 rfl rfl, t1, h2, hx]
  exact ⟨r1, hrun, rfl⟩

end Verif.Props
