import Verif.Props.Learner
import Verif.Proofs.SideBySide

/-!
# C182: the optimisers of one program do not influence each other
-/
namespace Verif.Props

open Verif.Model Verif.Spec Verif.Proofs

variable {G : Type*}

/-- **C182, partial**: an optimiser whose surrogate and parameter dictionary are given to no other optimiser shows, in every program and under every interleaving of calls, exactly what it
shows when the calls of all the others are left out: the same constructor outcomes, the same proposed points and the same outcomes of `tell`, and it ends with
the same state, the same parameters and the same surrogate.

Missing: optimisers that share the default dictionary or a surrogate (see the refutations below). -/
theorem c182_no_interference_partial (name : ℕ) (h : List (ℕ × BoCall G)) (w : BoWorld) (h0 : NoOptimisers w) (hk : KeepsApart name h) :
    concerning name (boProgram w h).2 = (boProgram w (concerning name h)).2 ∧
    (boProgram w h).1.objs name = (boProgram w (concerning name h)).1.objs name ∧
    ∀ o, (boProgram w h).1.objs name = some o →
      (boProgram w h).1.pars o.par = (boProgram w (concerning name h)).1.pars o.par ∧
      (boProgram w h).1.models o.model = (boProgram w (concerning name h)).1.models o.model := by
  obtain ⟨h1, h2⟩ := program_agree h w w (footprint_of name h hk)
    ⟨rfl, fun _ _ => rfl, fun _ _ => rfl, fun o ho => absurd ((h0 name).symm.trans ho) (by simp), fun n o _ ho => absurd ((h0 n).symm.trans ho) (by simp)⟩
  exact ⟨h1, h2.obj, fun o ho => ⟨h2.pars _ (h2.mine o ho).1, h2.models _ (h2.mine o ho).2⟩⟩

/-- **C182, partial**: two programs that make the same calls for one optimiser, kept apart in both, show the same of it, whatever else they do and in whatever order. -/
theorem c182_others_irrelevant_partial (name : ℕ) (h h' : List (ℕ × BoCall G)) (w : BoWorld) (h0 : NoOptimisers w) (hk : KeepsApart name h) (hk' : KeepsApart name h')
    (hs : concerning name h = concerning name h') : concerning name (boProgram w h).2 = concerning name (boProgram w h').2 := by
  rw [(c182_no_interference_partial name h w h0 hk).1, (c182_no_interference_partial name h' w h0 hk').1, hs]

/-- The link with the runs of C146 and later: if the surrogate of the optimiser was last fitted to its own data and nobody else changed it, `ask` proposes what a step of
`run()` proposes, with the parameters that the dictionary has now. -/
theorem c182_ask_alone (L : Learner G) (i : ℕ) (w : BoWorld) (o : BoObj)
    (hm : w.models o.model = o.st.data.map (fun d => ⟨L.fit i (trainingSet d), L.predict i (trainingSet d)⟩))
    (hr : o.range = o.st.data.map (fun d => (npMin (standardised (d.map Rec.f)), npMax (standardised (d.map Rec.f))))) :
    (boAsk w o (L.normals i) (L.search i)).2 = proposals o.cfg o.setup (o.fn, w.pars o.par) L i o.st := by
  have hs : boAskState w o = askStateOf o.setup o.st := by
    unfold boAskState
    rw [hm]
    simp [askStateOf]
  unfold boAsk proposals
  rw [hs]
  cases hd : o.st.data with
  | none => rw [hd] at hm; simp only [Option.map_none] at hm; rw [hm]
  | some d =>
    rw [hd] at hm hr
    simp only [Option.map_some] at hm hr
    rw [hm]
    have hc : boCriteria o (w.pars o.par) ⟨L.fit i (trainingSet d), L.predict i (trainingSet d)⟩ (L.normals i) =
        (criteriaOf o.cfg o.setup (o.fn, w.pars o.par) L i d).toOption := by
      unfold boCriteria criteriaOf optOf
      rw [hr]
      simp only [Option.isNone_some, Bool.and_false, Bool.false_eq_true, if_false, Option.getD_some]
      generalize (if 1 < o.setup.nPoint then _ else _ : Except AcqErr (List Acq)) = x
      cases x <;> rfl
    simp only
    rw [hc]
    cases criteriaOf o.cfg o.setup (o.fn, w.pars o.par) L i d <;> rfl

/-- **C182, refuted**: creating an `AnnealingBO` overwrites the temperature of every optimiser that uses the same dictionary, in particular of every `ParallelBO` that was created
without `acquisition_par`. -/
theorem c182_temperature (w : BoWorld) (n : ℕ) (a : BoArgs) (t0 : ℝ) (s : Anneal) (hc : a.cls = .annealing t0 (some s)) (hok : (boMake w n a).2 = true)
    (o : BoObj) (ho : o.par = parRefOf w n a) : ((boMake w n a).1.pars o.par).t = some t0 := by
  unfold boMake at hok ⊢
  simp only [ho] at hok ⊢
  have hi : ∀ p mdl q, initialPar a p mdl = some q → q.t = some t0 := by
    intro p mdl q hq
    unfold initialPar at hq
    rw [hc] at hq
    simp only at hq
    split_ifs at hq
    cases hp : (parallelInit a.fn (some p) true mdl).toOption with
    | none => rw [hp] at hq; cases hq
    | some r => rw [hp] at hq; cases hq; rfl
  cases h : initialPar a (if parRefOf w n a = .own n then emptyPar else w.pars (parRefOf w n a)) (((w.models a.model).map Fitted.attrs).getD {}) with
  | none => rw [h] at hok; cases hok
  | some q =>
    have hf : a.cls.failsLate = false := by rw [hc]; rfl
    simp only [hf, Bool.false_eq_true, if_false, Function.update_self]
    exact hi _ _ _ h

/-- An optimiser with the criterion MGFI can build no acquisition function once its dictionary has the key `alpha`. -/
theorem mgfi_with_alpha (o : BoObj) (hfn : o.fn = .MGFI) (hn : 1 < o.setup.nPoint) (p : AcqPar) (hp : p.alpha.isSome = true) (m : Fitted) (z : ℝ) (zs : List ℝ) :
    boCriteria o p m (z :: zs) = none := by
  unfold boCriteria
  simp only [hn, if_true]
  split_ifs
  · rfl
  · have hb : ∀ r : ℝ × ℝ, batchCreate { fn := o.fn, acqPar := p, minimize := o.cfg.minimize, fmin := r.1, fmax := r.2, mdl := m.attrs } (z :: zs) = .error .keyError ∨
        batchCreate { fn := o.fn, acqPar := p, minimize := o.cfg.minimize, fmin := r.1, fmax := r.2, mdl := m.attrs } (z :: zs) = .error .typeError := by
      intro r
      unfold batchCreate
      rw [List.mapM_cons]
      simp only [hfn, sampler]
      cases ht : p.t with
      | none => left; rfl
      | some t =>
        right
        have : boCreate { fn := .MGFI, acqPar := p, minimize := o.cfg.minimize, fmin := r.1, fmax := r.2, mdl := m.attrs } none
            (some { p with t := some (Real.exp (Real.log t + 1 / 2 * z)) }) = .error .typeError := by
          unfold boCreate baseCreate
          have ha : ∀ q : AcqOpt, ∀ v : Option ℝ, (boPar q .MGFI { p with t := v }).alpha = p.alpha := by
            intro q v
            unfold boPar
            split_ifs <;> rfl
          simp only [Option.getD_none, Option.getD_some, acqInit, ha, hp, Bool.true_or, if_true]
        simp only [bind, Except.bind, this]
    rcases hb (o.range.getD (0, 0)) with h | h <;> rw [h] <;> rfl

/-! ### Concrete programs -/

/-- One variable on the unit interval, batches of two, an initial design of two points, no `acquisition_par`. -/
private noncomputable def sideArgs (fn : AcqName) (model : ℕ) : BoArgs where
  cls := .parallel
  cfg := { minimize := true, maxFEs := none, ftarget := none }
  vars := demoSetup.vars
  nPoint := 2
  doeSize := 2
  fn := fn
  par := none
  model := model

/-- The program start: the default argument is `{"t": 2}`, nothing is fitted. -/
def programStart : BoWorld := ⟨fun r => if r = .default then { t := some 2 } else {}, fun _ => none, fun _ => none⟩

private noncomputable def sideTell : BoCall Unit :=
  .tell { X := [[.real (1 / 2)]], vals := [.fin 1] } (fun _ _ => (some ⟨{}, fun _ _ => { mean := 0, mse := 1 }⟩, true))

private noncomputable def sideAsk : BoCall Unit := .ask [0, 0] (fun _ => { twoEnv with nRestart := 0 })

private noncomputable def sideObj (fn : AcqName) (model : ℕ) : BoObj where
  cfg := { minimize := true, maxFEs := none, ftarget := none }
  setup := { demoSetup with parallel := true, nPoint := 2, doeSize := 2 }
  fn := fn
  par := .default
  model := model
  anneal := none

private theorem side_make_mgfi (w : BoWorld) (n m : ℕ) (p : AcqPar) (hp : w.pars .default = p) (ht : p.t = some 2) :
    boMake w n (sideArgs .MGFI m) =
      ({ w with pars := Function.update w.pars .default p, objs := Function.update w.objs n (some (sideObj .MGFI m)) }, true) := by
  have hr : parRefOf w n (sideArgs .MGFI m) = .default := rfl
  have hi : ∀ mdl, initialPar (sideArgs .MGFI m) p mdl = some p := by
    intro mdl
    obtain ⟨p1, p2, p3, p4⟩ := p
    simp only at ht
    simp [initialPar, sideArgs, parallelInit, acqInit, emptyPar, Except.toOption, ht]
  unfold boMake
  simp only [hr, hp, reduceCtorEq, if_false, hi]
  simp [sideArgs, BoClass.failsLate, sideObj, BoClass.batch, BoClass.callback]

private theorem side_make_ucb (w : BoWorld) (n m : ℕ) (p : AcqPar) (hp : w.pars .default = p) :
    boMake w n (sideArgs .UCB m) =
      ({ w with pars := Function.update w.pars .default { p with alpha := some (p.alpha.getD (1 / 2)) }, objs := Function.update w.objs n (some (sideObj .UCB m)) }, true) := by
  have hr : parRefOf w n (sideArgs .UCB m) = .default := rfl
  have hi : ∀ mdl, initialPar (sideArgs .UCB m) p mdl = some { p with alpha := some (p.alpha.getD (1 / 2)) } := by
    intro mdl
    simp [initialPar, sideArgs, parallelInit, acqInit, emptyPar, Except.toOption]
  unfold boMake
  simp only [hr, hp, reduceCtorEq, if_false, hi]
  simp [sideArgs, BoClass.failsLate, sideObj, BoClass.batch, BoClass.callback]

private noncomputable def sideRec : Rec Row ℝ := { x := [.real (1 / 2)], f := 1, nEval := 2, index := toString 0 }

private noncomputable def sideFitted : Fitted := ⟨{}, fun _ _ => { mean := 0, mse := 1 }⟩

private noncomputable def sideTold (fn : AcqName) (model : ℕ) : BoObj :=
  { sideObj fn model with
    st := { evalCount := 1, iterCount := 1, data := some [sideRec], histF := [1] }
    range := some (npMin (standardised [1]), npMax (standardised [1])) }

private theorem side_tell (w : BoWorld) (n : ℕ) (fn : AcqName) (m : ℕ) (ho : w.objs n = some (sideObj fn m)) :
    boCall w n sideTell = ({ w with models := Function.update w.models m (some sideFitted), objs := Function.update w.objs n (some (sideTold fn m)) }, .told (.ok ())) := by
  have hd : dataToFit (sideObj fn m).cfg (sideObj fn m).st { X := [[.real (1 / 2)]], vals := [.fin 1] } = some [sideRec] := by
    simp [dataToFit, sideObj, tell, observe, tellRest, postEvalCheck, labels, defaultIndex, isFlat, sideRec, List.range_succ]
  have ht : tell (sideObj fn m).cfg (sideObj fn m).st { X := [[.real (1 / 2)]], vals := [.fin 1] } = (({ evalCount := 1, iterCount := 1, data := some [sideRec], histF := [1] } : OptState Row ℝ), .ok ()) := by
    simp [sideObj, tell, observe, tellRest, postEvalCheck, labels, defaultIndex, isFlat, sideRec, List.range_succ, incumbent, getBest]
  unfold boCall sideTell
  simp only [ho]
  unfold boTell
  simp only [hd, ht]
  rfl

private theorem side_criteria (p : AcqPar) (hp : p = { t := some 2 }) (m : ℕ) : ∃ cs, boCriteria (sideTold .MGFI m) p sideFitted [0, 0] = some cs := by
  subst hp
  have hpos : (0 : ℝ) < Real.exp (Real.log 2 + 1 / 2 * 0) := Real.exp_pos _
  unfold boCriteria
  simp only [sideTold, sideObj, Option.isNone_some, Bool.and_false, Bool.false_eq_true, if_false]
  norm_num [batchCreate, sampler, boCreate, baseCreate, boPar, hasPlugin, acqInit, hpos, bind, Except.bind, pure, Except.pure, Except.toOption, List.mapM_cons, Real.exp_pos]

private theorem side_ask_points (s : AskState) (hv : s.vars = demoSetup.vars) (hd : s.data = [[.real (1 / 2)]]) (hf : s.fitted = true) (hp : s.parallel = true)
    (hn : s.nPoint = 2) : askFull { twoEnv with nRestart := 0 } s none none = .ok [[.real 0], [.real 1]] := by
  have hsamp : unitVar.sample 0 = some 0 := by
    simp [RealVar.sample, unitVar, affine, scaleTrans, RealVar.toLinear, scaleInv, RealVar.round]
  have hsamp1 : unitVar.sample 1 = some 1 := by
    simp [RealVar.sample, unitVar, affine, scaleTrans, RealVar.toLinear, scaleInv, RealVar.round]
  have hdes : ∀ k, designSample { twoEnv with nRestart := 0 } demoSetup.vars [] k 2 = [[.real 0], [.real 1]] := by
    intro k
    have hfk : freeKinds demoSetup.vars [] = [.real unitVar] := by simp [freeKinds, demoSetup]
    unfold designSample
    simp only [hfk]
    rw [if_neg (by simp [twoEnv, zeroEnv])]
    simp [sampleFree, sampledRows, sampleRaw, pureType, sampleGroup, realCols, toRows, Kind.vtype, Kind.ofUniform, twoEnv, zeroEnv, hsamp, hsamp1,
      List.range_succ, List.zipIdx]
  have hbest : ∀ i, acquisitionBest { twoEnv with nRestart := 0 } demoSetup.vars [] i = [] := by
    intro i
    simp [acquisitionBest, argmaxRestart, restartRun, restartLoop]
  have hnm : ∀ a b : ℝ, 1 / 4 < |a - b| → |b| ≤ 1 → ¬ matchesRow (demoSetup.vars.map Prod.snd) [.real a] [.real b] := by
    intro a b hab hb h
    have h0 : isClose a b := h.1 0 (by simp [typeIds, demoSetup, Kind.vtype])
    unfold isClose at h0
    have : (1 / 10 ^ 5 : ℝ) * |b| ≤ 1 / 10 ^ 5 := by nlinarith
    norm_num at h0 this ⊢
    linarith
  have hpre : preEvalCheck (demoSetup.vars.map Prod.snd) [[.real (1 / 2)]] [[.real 0], [.real 1]] = [[.real 0], [.real 1]] := by
    unfold preEvalCheck
    rw [List.filter_eq_self.mpr]
    · simp [List.range_succ]
    · intro i hi
      rw [Bool.not_eq_true', List.any_eq_false]
      intro j hj hdec
      simp only [decide_eq_true_eq] at hdec
      obtain ⟨hne, hm⟩ := hdec
      have hi2 : i < 2 := by simpa using hi
      have hj2 : j < 3 := by simpa using hj
      have : (i = 0 ∧ j = 1) ∨ (i = 0 ∧ j = 2) ∨ (i = 1 ∧ j = 0) ∨ (i = 1 ∧ j = 2) := by omega
      rcases this with ⟨rfl, rfl⟩ | ⟨rfl, rfl⟩ | ⟨rfl, rfl⟩ | ⟨rfl, rfl⟩
      · exact hnm 1 0 (by norm_num) (by norm_num) hm
      · exact hnm (1 / 2) 0 (by norm_num [abs_of_pos]) (by norm_num) hm
      · exact hnm 0 1 (by norm_num) (by norm_num) hm
      · exact hnm (1 / 2) 1 (by norm_num [abs_of_neg]) (by norm_num) hm
  have hnil : preEvalCheck (demoSetup.vars.map Prod.snd) [[.real (1 / 2)]] [] = [] := by simp [preEvalCheck]
  have hdoe : createDoE demoSetup.vars none [[.real (1 / 2)]] (designSample { twoEnv with nRestart := 0 } demoSetup.vars []) 2 = some [[.real 0], [.real 1]] := by
    simp only [createDoE, Option.getD_none]
    unfold doeLoop
    rw [if_neg two_ne_zero, hdes]
    have hfill : fillin (demoSetup.vars.map Prod.fst) (some []) [[Val.real 0], [Val.real 1]] = some [[.real 0], [.real 1]] := by
      simp [fillin, fillRow, List.lookup, demoSetup]
    rw [hfill, Option.bind_some]
    have hround : [[Val.real 0], [Val.real 1]].map (roundRow (demoSetup.vars.map Prod.snd)) = [[.real 0], [.real 1]] := by
      simp [roundRow, roundVal, demoSetup, RealVar.round, unitVar]
    simp only [List.isEmpty_cons, Bool.false_eq_true, if_false, hround, hpre, List.nil_append]
    unfold doeLoop
    simp
  unfold askFull ask askPoints
  rw [hf, hv, hd]
  have harg : argMaxAcquisition s 2 none (acquisitionBest { twoEnv with nRestart := 0 } demoSetup.vars []) = .ok [] := by
    unfold argMaxAcquisition
    simp [hp, hbest, List.range_succ, fillin, Except.bind]
  simp only [Option.getD_none, hn, if_true]
  rw [harg]
  simp only [Except.bind, hnil, List.length_nil]
  norm_num
  rw [hdoe]
  rfl

private theorem side_alone : (boProgram programStart [(0, .make (sideArgs .MGFI 0)), (0, sideTell), (0, sideAsk)]).2 =
    [(0, .made true), (0, .told (.ok ())), (0, .points (some [[.real 0], [.real 1]]))] := by
  have h1 := side_make_mgfi programStart 0 0 { t := some 2 } rfl rfl
  simp only [boProgram]
  have e1 : boCall programStart 0 (.make (sideArgs .MGFI 0) : BoCall Unit) =
      ({ programStart with pars := Function.update programStart.pars .default { t := some 2 }, objs := Function.update programStart.objs 0 (some (sideObj .MGFI 0)) }, .made true) := by
    unfold boCall
    simp only [h1]
  rw [e1]
  simp only
  rw [side_tell _ 0 .MGFI 0 (by simp)]
  simp only
  obtain ⟨cs, hcs⟩ := side_criteria { t := some 2 } rfl 0
  have e3 : ∀ w : BoWorld, w.objs 0 = some (sideTold .MGFI 0) → w.models 0 = some sideFitted → w.pars .default = { t := some 2 } →
      (boCall w 0 sideAsk).2 = .points (some [[.real 0], [.real 1]]) := by
    intro w a1 a2 a3
    unfold boCall sideAsk
    simp only [a1]
    unfold boAsk
    have b1 : (sideTold .MGFI 0).model = 0 := rfl
    have b2 : (sideTold .MGFI 0).par = .default := rfl
    simp only [b1, a2, b2, a3, hcs]
    rw [side_ask_points _ rfl rfl (by simp [boAskState, b1, a2]) rfl rfl]
    rfl
  rw [e3 _ (by simp) (by simp) (by simp)]

/-- **C182, refuted**: a `ParallelBO` with the default criterion proposes two points after it has been told a value; if the program also creates another `ParallelBO`, for
the confidence bound, which it never uses, the same call raises. -/
theorem c182_default_dictionary_refuted : ∃ a b : BoArgs, a.fn = .MGFI ∧ b.fn = .UCB ∧ a.model ≠ b.model ∧ a.par = none ∧ b.par = none ∧ ∃ tell ask : BoCall Unit,
    (boProgram programStart [(0, .make a), (0, tell), (0, ask)]).2 =
      [(0, .made true), (0, .told (.ok ())), (0, .points (some [[.real 0], [.real 1]]))] ∧
    (boProgram programStart [(0, .make a), (1, .make b), (0, tell), (0, ask)]).2 =
      [(0, .made true), (1, .made true), (0, .told (.ok ())), (0, .points none)] := by
  refine ⟨sideArgs .MGFI 0, sideArgs .UCB 1, rfl, rfl, by simp [sideArgs], rfl, rfl, sideTell, sideAsk, ?_, ?_⟩
  · exact side_alone
  · have h1 := side_make_mgfi programStart 0 0 { t := some 2 } rfl rfl
    simp only [boProgram]
    have e1 : boCall programStart 0 (.make (sideArgs .MGFI 0) : BoCall Unit) =
        ({ programStart with pars := Function.update programStart.pars .default { t := some 2 }, objs := Function.update programStart.objs 0 (some (sideObj .MGFI 0)) }, .made true) := by
      unfold boCall
      simp only [h1]
    rw [e1]
    simp only
    have e2 : ∀ w : BoWorld, w.pars .default = { t := some 2 } → boCall w 1 (.make (sideArgs .UCB 1) : BoCall Unit) =
        ({ w with pars := Function.update w.pars .default { t := some 2, alpha := some (1 / 2) }, objs := Function.update w.objs 1 (some (sideObj .UCB 1)) }, .made true) := by
      intro w hw
      unfold boCall
      simp only [side_make_ucb w 1 1 _ hw]
      rfl
    rw [e2 _ (by simp)]
    simp only
    rw [side_tell _ 0 .MGFI 0 (by simp)]
    simp only
    have e3 : ∀ w : BoWorld, w.objs 0 = some (sideTold .MGFI 0) → w.models 0 = some sideFitted → w.pars .default = { t := some 2, alpha := some (1 / 2) } →
        (boCall w 0 sideAsk).2 = .points none := by
      intro w a1 a2 a3
      unfold boCall sideAsk
      simp only [a1]
      unfold boAsk
      have b1 : (sideTold .MGFI 0).model = 0 := rfl
      have b2 : (sideTold .MGFI 0).par = .default := rfl
      simp only [b1, a2, b2, a3]
      rw [mgfi_with_alpha _ rfl (by norm_num [sideTold, sideObj]) _ rfl]
    rw [e3 _ (by simp) (by simp) (by simp)]

/-- **C182, refuted**: two optimisers with one surrogate object.  The second makes its initial design if the first has not been told anything; after the first `tell` of the first
optimiser it makes none, and `ask` raises. -/
theorem c182_shared_model_refuted : ∃ a b : BoArgs, a.model = b.model ∧ (a.fn, b.fn) = (.MGFI, .MGFI) ∧ ∃ tell ask : BoCall Unit,
    (boProgram programStart [(0, .make a), (1, .make b), (1, ask)]).2 = [(0, .made true), (1, .made true), (1, .points (some [[.real 0], [.real 1]]))] ∧
    (boProgram programStart [(0, .make a), (1, .make b), (0, tell), (1, ask)]).2 =
      [(0, .made true), (1, .made true), (0, .told (.ok ())), (1, .points none)] := by
  let ask : BoCall Unit := .ask [0, 0] (fun _ => twoEnv)
  refine ⟨sideArgs .MGFI 0, sideArgs .MGFI 0, rfl, rfl, sideTell, ask, ?_, ?_⟩
  all_goals
    have e1 : ∀ n (w : BoWorld), w.pars .default = { t := some 2 } → boCall w n (.make (sideArgs .MGFI 0) : BoCall Unit) =
        ({ w with pars := Function.update w.pars .default { t := some 2 }, objs := Function.update w.objs n (some (sideObj .MGFI 0)) }, .made true) := by
      intro n w hw
      unfold boCall
      simp only [side_make_mgfi w n 0 _ hw rfl]
    simp only [boProgram]
    rw [e1 0 _ rfl]
    simp only
    rw [e1 1 _ (by simp)]
    simp only
  · have e3 : ∀ w : BoWorld, w.objs 1 = some (sideObj .MGFI 0) → w.models 0 = none → (boCall w 1 ask).2 = .points (some [[.real 0], [.real 1]]) := by
      intro w a1 a2
      unfold boCall
      simp only [ask, a1]
      unfold boAsk
      have b1 : (sideObj .MGFI 0).model = 0 := rfl
      simp only [b1, a2]
      have hst : askFull twoEnv (boAskState w (sideObj .MGFI 0)) none none = askFull twoEnv (askStateOf twoSetup {}) none none := by
        unfold askFull Model.ask askPoints
        have f1 : (boAskState w (sideObj .MGFI 0)).fitted = false := by simp [boAskState, b1, a2]
        have f2 : (askStateOf twoSetup {}).fitted = false := rfl
        rw [f1, f2]
        rfl
      rw [hst, two_first]
      rfl
    rw [e3 _ (by simp) (by simp [programStart])]
  · rw [side_tell _ 0 .MGFI 0 (by simp)]
    simp only
    have e3 : ∀ w : BoWorld, w.objs 1 = some (sideObj .MGFI 0) → w.models 0 = some sideFitted → w.pars .default = { t := some 2 } → (boCall w 1 ask).2 = .points none := by
      intro w a1 a2 a3
      unfold boCall
      simp only [ask, a1]
      unfold boAsk
      have b1 : (sideObj .MGFI 0).model = 0 := rfl
      have b2 : (sideObj .MGFI 0).par = .default := rfl
      simp only [b1, a2, b2, a3]
      rfl
    rw [e3 _ (by simp) (by simp) (by simp)]

/-- **C182 on a concrete program**: the same two optimisers as in `c182_default_dictionary_refuted`, but the one for the confidence bound is given a dictionary of its own and is called in between;
the hypotheses of `c182_no_interference_partial` hold and the first proposes its two points. -/
theorem c182_concrete : ∃ a b : BoArgs, a.fn = .MGFI ∧ b.fn = .UCB ∧ a.cls = .parallel ∧ b.cls = .parallel ∧ a.par = none ∧ b.par = some 0 ∧ ∃ tell ask : BoCall Unit,
    NoOptimisers programStart ∧ KeepsApart 0 [(0, .make a), (1, .make b), (1, ask), (0, tell), (1, tell), (0, ask)] ∧
    concerning 0 (boProgram programStart [(0, .make a), (1, .make b), (1, ask), (0, tell), (1, tell), (0, ask)]).2 =
      [(0, .made true), (0, .told (.ok ())), (0, .points (some [[.real 0], [.real 1]]))] := by
  have hk : KeepsApart 0 [(0, .make (sideArgs .MGFI 0)), (1, .make { sideArgs .UCB 1 with par := some 0 }), (1, sideAsk), (0, sideTell), (1, sideTell), (0, sideAsk)] := by
    intro a ha m b hm hb
    simp only [List.mem_cons, Prod.mk.injEq, sideAsk, sideTell, reduceCtorEq, and_false, List.not_mem_nil, or_false, BoCall.make.injEq, zero_ne_one, false_and,
      true_and] at ha hb
    rcases hb with ⟨rfl, -⟩ | ⟨-, rfl⟩
    · exact absurd rfl hm
    · subst ha
      simp [sideArgs, OneDictionary]
  refine ⟨sideArgs .MGFI 0, { sideArgs .UCB 1 with par := some 0 }, rfl, rfl, rfl, rfl, rfl, rfl, sideTell, sideAsk, fun _ => rfl, hk, ?_⟩
  rw [(c182_no_interference_partial 0 _ programStart (fun _ => rfl) hk).1]
  exact side_alone

/-- The hypotheses of `c182_ask_alone` are met after a `tell`. -/
example : ∃ (L : Learner Unit) (w : BoWorld), w.models (sideTold .MGFI 0).model =
    (sideTold .MGFI 0).st.data.map (fun d => ⟨L.fit 0 (trainingSet d), L.predict 0 (trainingSet d)⟩) ∧
    (sideTold .MGFI 0).range = (sideTold .MGFI 0).st.data.map (fun d => (npMin (standardised (d.map Rec.f)), npMax (standardised (d.map Rec.f)))) :=
  ⟨{ fit := fun _ _ => {}, predict := fun _ _ _ _ => { mean := 0, mse := 1 }, normals := fun _ => [], search := fun _ _ => twoEnv, objective := fun _ _ => .fin 0 },
    { programStart with models := fun _ => some sideFitted }, rfl, rfl⟩

/-- The hypotheses of `c182_temperature` are met by an `AnnealingBO` with `t0 = 5` and default arguments, beside a `ParallelBO` with default arguments. -/
example : ∃ (a : BoArgs) (s : Anneal), a.cls = .annealing 5 (some s) ∧ (boMake programStart 1 a).2 = true ∧ (sideObj .MGFI 0).par = parRefOf programStart 1 a := by
  refine ⟨{ sideArgs .MGFI 1 with cls := .annealing 5 (some (.exp (1 / 2))) }, .exp (1 / 2), rfl, ?_, rfl⟩
  simp [boMake, parRefOf, BoClass.batch, initialPar, sideArgs, parallelInit, acqInit, emptyPar, Except.toOption, BoClass.failsLate]

end Verif.Props
