import Verif.Spec.AskFull
import Verif.Props.Ask
import Verif.Props.ArgmaxRestart
import Verif.Props.Mies
import Verif.Props.OnePlusOne
import Verif.Props.Sampling

/-! # C144, C145: `ask` with its acquisition search and samplers -/
namespace Verif.Props
open Verif.Model Verif.Spec Verif.Proofs

variable {G : Type*}

/-- The declarations of the variables that are covered: those accepted by the constructors, without the two declarations for which sampling
itself leaves the space (`c17_logit_upper_bound_one`, `c17_fractional_bounds`); with constraints, the random walk needs variables that are not
subsets and levels that are all strings or all not strings (`c29_subset_raises`, `c29_mixed_levels_leave_space`); the two continuous
methods need real variables. -/
structure SpaceOk (e : AskEnv G) (ks : List Kind) : Prop where
  nonempty : ks ≠ []
  proper : ∀ k ∈ ks, Proper k
  regular : ∀ k ∈ ks, Regular k
  real : e.algo ≠ .mies → ∀ k ∈ ks, ∃ v, k = .real v
  walk : (e.h.isSome || e.g.isSome) = true → ∀ k ∈ ks, (∀ b, k ≠ .subset b) ∧ UniformLevels k

private theorem isPoint_row {ks : List Kind} {row : List (Option Val)} (h : IsPoint ks row) :
    PointOf ks (row.filterMap id) := by
  have key : ∀ (row : List (Option Val)), (∀ o ∈ row, ∃ v, o = some v) → row = (row.filterMap id).map some := by
    intro row
    induction row with
    | nil => simp
    | cons o l ih =>
      intro ho
      obtain ⟨v, rfl⟩ := ho o (by simp)
      exact congrArg (some v :: ·) (ih (fun o h => ho o (by simp [h])))
  have hall : ∀ o ∈ row, ∃ v, o = some v := by
    intro o ho
    obtain ⟨j, hj⟩ := List.getElem?_of_mem ho
    have hlt : j < ks.length := by rw [← h.1]; exact (List.getElem?_eq_some_iff.mp hj).1
    obtain ⟨v, hv, -⟩ := h.2 j _ (List.getElem?_eq_getElem hlt)
    rw [hj] at hv
    exact ⟨v, Option.some.inj hv⟩
  have hk := key row hall
  generalize row.filterMap id = r at hk ⊢
  subst hk
  refine ⟨by simpa using h.1, ?_⟩
  intro j k v hj hv
  obtain ⟨w, hw, hc⟩ := h.2 j k hj
  rw [List.getElem?_map, hv] at hw
  simp only [Option.map_some, Option.some.injEq] at hw
  subst hw
  exact hc

/-- The uniform sampler returns the requested number of points of the space. -/
theorem sampled_points (e : AskEnv G) (ks : List Kind) (hrng : e.rng.Valid) (hs : SpaceOk e ks) (N : ℕ) (hN : 0 < N) (gen : G) :
    ∃ rows g', sampleFree e.rng e.fresh e.seed ks N gen = some (rows, g') ∧
      rows = (sampleRaw e.rng e.fresh e.seed ks N gen).1 ∧ (sampledRows rows).length = N ∧
      ∀ r ∈ sampledRows rows, PointOf ks r := by
  obtain ⟨rows, g', h1, h2, h3⟩ := c17_sample_in_space_partial e.rng hrng e.fresh e.seed ks hs.proper hs.regular hs.nonempty N hN gen
  refine ⟨rows, g', h1, ?_, by simp [sampledRows, h2], ?_⟩
  · unfold sampleFree at h1
    split at h1
    · cases h1
    · rw [Option.some.inj h1]
  · intro r hr
    obtain ⟨row, hrow, rfl⟩ := List.mem_map.mp hr
    exact isPoint_row (h3 row hrow)

private theorem proper_bounds {k : Kind} (hp : Proper k) (hr : Regular k) : ProperBounds k := by
  cases k with
  | real v => exact hp.1
  | integer v => exact ⟨hp.1, hr.1, hr.2⟩
  | _ => trivial

private theorem realVarAt_eq {ks : List Kind} {j : ℕ} {v : RealVar} (h : ks[j]? = some (.real v)) : realVarAt ks j = v := by
  simp [realVarAt, h]

/-- A vector in the box of the (1+1)-CMA-ES is a point of the space. -/
theorem cma_point (e : AskEnv G) (ks : List Kind) (i : ℕ) (b : ℤ) (hreal : ∀ k ∈ ks, ∃ v, k = .real v)
    (x : Fin ks.length → ℝ) (hx : InBox (cmaCfgOf e ks i b) x) : PointOf ks (vectorRow x) := by
  refine ⟨by simp [vectorRow], ?_⟩
  intro j k v hj hv
  obtain ⟨w, rfl⟩ := hreal k (List.mem_of_getElem? hj)
  have hlt : j < ks.length := (List.getElem?_eq_some_iff.mp hj).1
  simp only [vectorRow, List.getElem?_ofFn, hlt, dif_pos, Option.some.injEq] at hv
  subst hv
  have := hx ⟨j, hlt⟩
  simp only [cmaCfgOf, realVarAt_eq hj] at this
  exact this

/-- A run of the (1+1)-CMA-ES is a sequence of steps. -/
theorem cma_run_steps {n : ℕ} (cfg : CmaCfg n) (noise : ℕ → CmaNoise n) : ∀ (fuel k : ℕ) (s : CmaState n),
    ∃ ws : List (CmaNoise n), (∀ w ∈ ws, ∃ t, w = noise t) ∧ (cmaRun cfg noise fuel k s).1 = cmaSteps cfg ws s
  | 0, k, s => ⟨[], by simp, rfl⟩
  | fuel + 1, k, s => by
    unfold cmaRun
    by_cases h : s.stop = true
    · exact ⟨[], by simp, by rw [if_pos h]; rfl⟩
    · obtain ⟨ws, h1, h2⟩ := cma_run_steps cfg noise fuel (k + 1) (cmaStep cfg (noise k) s)
      refine ⟨noise k :: ws, ?_, by rw [if_neg h, h2]; rfl⟩
      intro w hw
      rcases List.mem_cons.mp hw with rfl | hw
      · exact ⟨k, rfl⟩
      · exact h1 w hw

/-- The bounds of the (1+1)-CMA-ES are ordered. -/
theorem cma_bounds (e : AskEnv G) (ks : List Kind) (hs : SpaceOk e ks) (hreal : ∀ k ∈ ks, ∃ v, k = .real v) (i : ℕ) (b : ℤ) (j : Fin ks.length) :
    ((cmaCfgOf e ks i b).vars j).lo < ((cmaCfgOf e ks i b).vars j).hi := by
  obtain ⟨w, hw⟩ := hreal (ks[j.1]) (List.getElem_mem j.2)
  have hj : ks[j.1]? = some (.real w) := by rw [List.getElem?_eq_getElem j.2, hw]
  have : (cmaCfgOf e ks i b).vars j = w := realVarAt_eq hj
  rw [this]
  have := hs.proper _ (List.getElem_mem j.2)
  rw [hw] at this
  exact this.1

/-- The first point of the (1+1)-CMA-ES lies in the box. -/
theorem cma_start {n : ℕ} (cfg : CmaCfg n) (hlt : ∀ j, (cfg.vars j).lo < (cfg.vars j).hi) (u : Fin n → ℝ) (hu : ∀ j, 0 ≤ u j ∧ u j ≤ 1) (j : Fin n) :
    (cfg.vars j).lo ≤ cmaSample cfg u j ∧ cmaSample cfg u j ≤ (cfg.vars j).hi := by
  obtain ⟨h0, h1⟩ := hu j
  have := hlt j
  unfold cmaSample
  constructor
  · nlinarith
  · nlinarith

/-- The MIES of a restart meets the conditions of C31. -/
theorem mies_ok (e : AskEnv G) (ks : List Kind) (hl : LibrariesOk e ks) (hs : SpaceOk e ks) (i k : ℕ) (b : ℤ) (rows : List (List (Option Val)))
    (h3 : (sampledRows rows).length = 4) (h4 : ∀ r ∈ sampledRows rows, PointOf ks r) :
    MiesOk (miesCfgOf e ks i b) (sampledRows rows) (e.draws ks.length i k).noise :=
  { sort := hl.sortPop, bounds := fun kd hk => proper_bounds (hs.proper kd hk) (hs.regular kd hk), mu := by simp [miesCfgOf],
    lam := Or.inl (by simp [miesCfgOf]), len := h3, points := h4, noise := hl.parents i k }

/-- C144: every restart of every inner search, with any of the three methods, ends with a result, and the result is a point of the searched
space. -/
theorem c144_search_in_space (e : AskEnv G) (ks : List Kind) (hl : LibrariesOk e ks) (hs : SpaceOk e ks) (i k : ℕ) (b : ℤ) :
    ∃ o, innerRun e ks i k b = some o ∧ PointOf ks o.x := by
  cases ha : e.algo with
  | bfgs =>
    have hreal := hs.real (by rw [ha]; decide)
    unfold innerRun
    simp only [ha]
    refine ⟨_, rfl, ?_⟩
    obtain ⟨h1, h2⟩ := hl.bfgs i k b
    refine ⟨by simpa using h1, ?_⟩
    intro j kd v hj hv
    obtain ⟨w, rfl⟩ := hreal kd (List.mem_of_getElem? hj)
    simp only [List.getElem?_map, Option.map_eq_some_iff] at hv
    obtain ⟨a, ha', rfl⟩ := hv
    exact h2 j w a hj ha'
  | onePlusOne =>
    have hreal := hs.real (by rw [ha]; decide)
    unfold innerRun
    simp only [ha]
    set cfg := cmaCfgOf e ks i b with hcfg
    have hlt : ∀ j, (cfg.vars j).lo < (cfg.vars j).hi := cma_bounds e ks hs hreal i b
    set d := e.draws ks.length i k with hd
    have hinit : cmaInit cfg (cmaSample cfg d.start) 0 =
        some (cmaSetX cfg (cmaEmpty (cmaSample cfg d.start) 0) (cmaSample cfg d.start)) := by
      unfold cmaInit
      rw [if_pos (cma_start cfg hlt d.start (hl.start i k))]
    rw [hinit, Option.bind_some]
    obtain ⟨ws, h1, h2⟩ := cma_run_steps cfg d.steps (cfg.maxFEs + 1) 0
      (cmaSetX cfg (cmaEmpty (cmaSample cfg d.start) 0) (cmaSample cfg d.start))
    have hreach : CmaReachable cfg 0 (cmaRun cfg d.steps (cfg.maxFEs + 1) 0
        (cmaSetX cfg (cmaEmpty (cmaSample cfg d.start) 0) (cmaSample cfg d.start))).1 :=
      ⟨_, _, ws, hinit, fun w hw => by obtain ⟨t, rfl⟩ := h1 w hw; exact hl.steps i k t, h2⟩
    obtain ⟨xopt, fopt, fpen, h3, h4, -, -⟩ := c32_xopt_feasible cfg hlt 0 _ hreach
    rw [h3]
    exact ⟨_, rfl, cma_point e ks i b hreal xopt h4⟩
  | mies =>
    unfold innerRun
    simp only [ha]
    set d := e.draws ks.length i k with hd
    obtain ⟨rows, g', h1, -, h3, h4⟩ := sampled_points e ks hl.rng hs 4 (by omega) d.gen
    rw [h1, Option.bind_some]
    have hok : MiesOk (miesCfgOf e ks i b) (sampledRows rows) d.noise := mies_ok e ks hl hs i k b rows h3 h4
    obtain ⟨s0, e0, -⟩ := c31_invariant_partial _ _ _ hok 0
    have e0' : miesInit (miesCfgOf e ks i b) (sampledRows rows) = some s0 := e0
    obtain ⟨r, t, h5, h6⟩ := c63_terminates _ _ _ hok (by simp [miesCfgOf]) d.flat s0 e0' ((miesCfgOf e ks i b).maxEval + 2) le_rfl
    obtain ⟨s, h7, -, -, -, h8, -⟩ := c31_invariant_partial _ _ _ hok t
    rw [h6] at h7
    obtain rfl := Option.some.inj h7
    simp only [e0', Option.bind_some, h5, miesOutcome]
    exact ⟨_, rfl, h8⟩

theorem best_spec (e : AskEnv G) (vars : Vars) (fixed : List (String × Val)) (hl : LibrariesOk e (freeKinds vars fixed))
    (hs : SpaceOk e (freeKinds vars fixed)) (i : ℕ) :
    acquisitionBest e vars fixed i = [] ∨ (PointOf (freeKinds vars fixed) (acquisitionBest e vars fixed i) ∧
      FeasibleUpTo (e.h.map (partialConstraint (vars.map Prod.fst) fixed)) (e.g.map (partialConstraint (vars.map Prod.fst) fixed))
        (acquisitionBest e vars fixed i)) := by
  unfold acquisitionBest
  simp only []
  set restart : ℕ → ℤ → Outcome Row ℝ := fun k b => (innerRun e (freeKinds vars fixed) i k b).getD ⟨[], none, 0⟩ with hre
  set H := e.h.map (partialConstraint (vars.map Prod.fst) fixed)
  set Gc := e.g.map (partialConstraint (vars.map Prod.fst) fixed)
  cases hr : argmaxRestart e.argsort restart H Gc e.waitIter e.nRestart e.budget with
  | none => left; rfl
  | some p =>
    right
    obtain ⟨x, f⟩ := p
    obtain ⟨o, ho, hf, hx, -⟩ := (c30_empty_iff_infeasible e.argsort hl.argsort restart H Gc e.waitIter e.nRestart e.budget).2 x f hr
    obtain ⟨-, -, h2, -⟩ := c30_early_stop_partial restart H Gc e.waitIter e.nRestart e.budget
    obtain ⟨k, hk⟩ := List.getElem?_of_mem ho
    have hb := h2 k (List.getElem?_eq_some_iff.mp hk).1
    rw [hk] at hb
    generalize e.budget - _ = b at hb
    obtain ⟨o', ho', hp⟩ := c144_search_in_space e _ hl hs i k b
    have : o = o' := by
      rw [Option.some.inj hb, hre]
      simp [ho']
    subst this
    subst hx
    exact ⟨hp, hf⟩

private theorem design_spec (e : AskEnv G) (vars : Vars) (fixed : List (String × Val)) (hl : LibrariesOk e (freeKinds vars fixed))
    (hs : SpaceOk e (freeKinds vars fixed)) (k : ℕ) (n : ℤ) (hn : 0 < n) :
    ((designSample e vars fixed k n).length : ℤ) ≤ n ∧ ∀ r ∈ designSample e vars fixed k n, PointOf (freeKinds vars fixed) r ∧
      SatisfiesUpTo (1 / 100) (e.h.map (partialConstraint (vars.map Prod.fst) fixed))
        (e.g.map (partialConstraint (vars.map Prod.fst) fixed)) r := by
  have hN : 0 < n.toNat := by omega
  unfold designSample
  simp only []
  split_ifs with hc
  · obtain ⟨rows, g', h1, h2, h3, h4⟩ := sampled_points e _ hl.rng hs (max n.toNat 10) (by omega) (e.doeGen k)
    rw [← h2]
    obtain ⟨g1, g2, -, -⟩ := c18_feasible ((e.h.map (partialConstraint (vars.map Prod.fst) fixed)).getD (fun _ => []))
      ((e.g.map (partialConstraint (vars.map Prod.fst) fixed)).getD (fun _ => [])) (1 / 100) n.toNat
      ((sampledRows rows).mapIdx (fun i r => scmcRow (freeKinds vars fixed) (e.walkNoise k i) (e.walkAccept k i) e.walkSteps r))
      (e.pick k n.toNat) (fun m hm => hl.pick k _ m hm)
    refine ⟨by omega, ?_⟩
    intro r hr
    obtain ⟨hmem, hf⟩ := g1 r hr
    constructor
    · rw [List.mem_mapIdx] at hmem
      obtain ⟨i, hi, rfl⟩ := hmem
      obtain ⟨out, ho, hin⟩ := c29_walk_in_space_partial (freeKinds vars fixed) (fun kd hk => (hs.walk hc kd hk).1) hs.proper hs.regular
        (fun kd hk => (hs.walk hc kd hk).2) (e.walkNoise k i) (e.walkAccept k i) e.walkSteps _ (h4 _ (List.getElem_mem hi))
      have hsup : scmcSupports (freeKinds vars fixed) := fun kd hk => (hs.walk hc kd hk).1
      unfold scmcRun at ho
      rw [if_pos (Or.inr hsup)] at ho
      rw [Option.some.inj ho]
      exact hin
    · constructor
      · intro f hf' v hv
        apply hf.1
        rw [hf']
        exact hv
      · intro f hf' v hv
        apply hf.2
        rw [hf']
        exact hv
  · obtain ⟨rows, g', h1, -, h3, h4⟩ := sampled_points e _ hl.rng hs n.toNat hN (e.doeGen k)
    rw [h1]
    simp only [Option.map_some, Option.getD_some]
    refine ⟨by omega, fun r hr => ⟨h4 r hr, ?_⟩⟩
    simp only [Bool.or_eq_true, not_or, Option.not_isSome_iff_eq_none] at hc
    rw [hc.1, hc.2]
    exact ⟨by simp, by simp⟩

/-- C144, partial: for a request of at least one point, `ask` returns between one and the requested number of points, each of full dimension,
with the fixed values and, elsewhere, in the space; nothing is assumed about the acquisition search and the sampler beyond what numpy and scipy promise.
(The declarations excluded by `SpaceOk` and `RoundStable` and a request of zero points are refuted elsewhere.) -/
theorem c144_ask_in_space_partial (e : AskEnv G) (s : AskState) (n? : Option ℤ) (fixed : Option (List (String × Val))) (X : List Row)
    (hn : 1 ≤ requested s n?) (hb : OrderedBounds s.vars) (hr : RoundStable s.vars (fixed.getD []))
    (hl : LibrariesOk e ((freeVars s.vars (fixed.getD [])).map Prod.snd))
    (hs : SpaceOk e ((freeVars s.vars (fixed.getD [])).map Prod.snd)) (h : askFull e s n? fixed = .ok X) :
    1 ≤ X.length ∧ (X.length : ℤ) ≤ requested s n? ∧ ∀ x ∈ X, Honours s.vars (fixed.getD []) x := by
  refine c14_ask_partial s n? fixed _ _ X hn hb hr ?_ ?_ h
  · intro k n hn
    obtain ⟨h1, h2⟩ := design_spec e s.vars (fixed.getD []) hl hs k n hn
    exact ⟨h1, fun r hr => (h2 r hr).1⟩
  · intro i
    rcases best_spec e s.vars (fixed.getD []) hl hs i with h | h
    · exact Or.inl h
    · exact Or.inr h.1

/-- C144: otherwise `ask` raises `AskEmptyError`, or `NotImplementedError` for the sequential class asked for several points with a fitted
model. -/
theorem c144_ask_errors (e : AskEnv G) (s : AskState) (n? : Option ℤ) (fixed : Option (List (String × Val))) (err : AskErr)
    (hn : 1 ≤ requested s n?) (hb : OrderedBounds s.vars) (hr : RoundStable s.vars (fixed.getD []))
    (hl : LibrariesOk e ((freeVars s.vars (fixed.getD [])).map Prod.snd))
    (hs : SpaceOk e ((freeVars s.vars (fixed.getD [])).map Prod.snd)) (h : askFull e s n? fixed = .error err) :
    err = .empty ∨ (err = .notImplemented ∧ s.fitted = true ∧ s.parallel = false ∧ 1 < requested s n?) := by
  refine c14_errors s n? fixed _ _ err hn hb hr ?_ ?_ h
  · intro k n hn
    obtain ⟨h1, h2⟩ := design_spec e s.vars (fixed.getD []) hl hs k n hn
    exact ⟨h1, fun r hr => (h2 r hr).1⟩
  · intro i
    rcases best_spec e s.vars (fixed.getD []) hl hs i with h | h
    · exact Or.inl h
    · exact Or.inr h.1

/-! ## C145 -/

private theorem mapM_mem {α β : Type*} (f : α → Option β) : ∀ (l : List α) (bs : List β), l.mapM f = some bs →
    ∀ b ∈ bs, ∃ a ∈ l, f a = some b := by
  intro l
  induction l with
  | nil => intro bs h b hb; simp at h; subst h; simp at hb
  | cons a l ih =>
    intro bs h b hb
    cases ha : f a with
    | none => simp [List.mapM_cons, ha] at h
    | some c =>
      cases hl : l.mapM f with
      | none => simp [List.mapM_cons, ha, hl] at h
      | some cs =>
        simp [List.mapM_cons, ha, hl] at h
        subst h
        rcases List.mem_cons.mp hb with rfl | hb
        · exact ⟨a, by simp, ha⟩
        · obtain ⟨a', h1, h2⟩ := ih cs hl b hb
          exact ⟨a', by simp [h1], h2⟩

private theorem doe_origin (vars : Vars) (fixed : List (String × Val)) (data : List Row) (sample : ℕ → ℤ → List Row)
    (hlen : ∀ k n, 0 < n → ((sample k n).length : ℤ) ≤ n) :
    ∀ k n acc X, 0 ≤ n → doeLoop vars fixed data sample k n acc = some X → ∀ x ∈ X, x ∈ acc ∨
      ∃ k' n' r y, 0 < n' ∧ r ∈ sample k' n' ∧ fillRow fixed (vars.map Prod.fst) r = some y ∧ x = roundRow (vars.map Prod.snd) y := by
  intro k
  induction k with
  | zero =>
    intro n acc X _ h x hx
    simp only [doeLoop, Option.some.injEq] at h
    subst h
    exact Or.inl hx
  | succ k ih =>
    intro n acc X hn h x hx
    unfold doeLoop at h
    split_ifs at h with h0
    · cases h; exact Or.inl hx
    · have hpos : 0 < n := by omega
      cases hf : fillin (vars.map Prod.fst) (some fixed) (sample k n) with
      | none => rw [hf] at h; cases h
      | some F =>
        rw [hf, Option.bind_some] at h
        split_ifs at h with he
        · exact ih n acc X hn h x hx
        · have hmap : (sample k n).mapM (fillRow fixed (vars.map Prod.fst)) = some F := by
            unfold fillin at hf
            split at hf
            · rename_i hcon; cases hcon
            · rename_i f hcon
              cases hcon
              split_ifs at hf with hse
              · cases hf; exact absurd hse he
              · exact hf
          have hFl : F.length = (sample k n).length := by
            have : ∀ (l : List Row) (bs : List Row), l.mapM (fillRow fixed (vars.map Prod.fst)) = some bs → bs.length = l.length := by
              intro l
              induction l with
              | nil => intro bs h; simp at h; simp [h]
              | cons a l ihl =>
                intro bs h
                cases ha : fillRow fixed (vars.map Prod.fst) a with
                | none => simp [List.mapM_cons, ha] at h
                | some c =>
                  cases hl : l.mapM (fillRow fixed (vars.map Prod.fst)) with
                  | none => simp [List.mapM_cons, ha, hl] at h
                  | some cs =>
                    simp [List.mapM_cons, ha, hl] at h
                    subst h
                    simp [ihl cs hl]
            exact this _ _ hmap
          have hl2 := preEvalCheck_length (vars.map Prod.snd) data (F.map (roundRow (vars.map Prod.snd)))
          rw [List.length_map, hFl] at hl2
          have hl3 := hlen k n hpos
          rcases ih _ _ X (by omega) h x hx with hx | hx
          · rcases List.mem_append.mp hx with hx | hx
            · exact Or.inl hx
            · obtain ⟨y, hy, rfl⟩ := List.mem_map.mp (preEvalCheck_subset hx)
              obtain ⟨r, hr, hfr⟩ := mapM_mem _ _ _ hmap y hy
              exact Or.inr ⟨k, n, r, y, hpos, hr, hfr, rfl⟩
          · exact Or.inr hx

private theorem ask_origin (s : AskState) (n? : Option ℤ) (fixed : Option (List (String × Val))) (best : ℕ → Row)
    (sample : ℕ → ℤ → List Row) (hlen : ∀ k n, 0 < n → ((sample k n).length : ℤ) ≤ n) (X : List Row) (hn : 1 ≤ requested s n?)
    (h : ask s n? fixed best sample = .ok X) (x : Row) (hx : x ∈ X) :
    (s.fitted = true ∧ ∃ i, best i ≠ [] ∧ ((fixed = none ∧ x = best i) ∨
        ∃ f, fixed = some f ∧ fillRow f (s.vars.map Prod.fst) (best i) = some x)) ∨
      ∃ k' n' r y, 0 < n' ∧ r ∈ sample k' n' ∧ fillRow (fixed.getD []) (s.vars.map Prod.fst) r = some y ∧
        x = roundRow (s.vars.map Prod.snd) y := by
  have hdoe : ∀ m D, 0 ≤ m → createDoE s.vars fixed s.data sample m = some D → ∀ x ∈ D, ∃ k' n' r y, 0 < n' ∧ r ∈ sample k' n' ∧
      fillRow (fixed.getD []) (s.vars.map Prod.fst) r = some y ∧ x = roundRow (s.vars.map Prod.snd) y := by
    intro m D hm hD x hx
    rcases doe_origin s.vars (fixed.getD []) s.data sample hlen 4 m [] D hm hD x hx with h | h
    · simp at h
    · exact h
  unfold ask at h
  cases hp : askPoints s n? fixed best sample with
  | error e => rw [hp] at h; cases h
  | ok X' =>
    rw [hp] at h
    simp only [Except.bind] at h
    split_ifs at h with he
    cases h
    unfold askPoints at hp
    cases hf : s.fitted with
    | false =>
      have hreq : requested s n? = n?.getD s.doeSize := by simp [requested, hf]
      rw [hf] at hp
      simp only [Bool.false_eq_true, if_false] at hp
      cases hD : createDoE s.vars fixed s.data sample (n?.getD s.doeSize) with
      | none => rw [hD] at hp; cases hp
      | some D =>
        rw [hD] at hp
        cases hp
        exact Or.inr (hdoe _ _ (by omega) hD x hx)
    | true =>
      rw [hf] at hp
      simp only [if_true] at hp
      cases hC : argMaxAcquisition s (n?.getD s.nPoint) fixed best with
      | error e => rw [hC] at hp; cases hp
      | ok C =>
        rw [hC] at hp
        simp only [Except.bind] at hp
        have hcand : ∀ x ∈ C, ∃ i, best i ≠ [] ∧ ((fixed = none ∧ x = best i) ∨
            ∃ f, fixed = some f ∧ fillRow f (s.vars.map Prod.fst) (best i) = some x) := by
          have key : ∀ cands : List Row, (∀ c ∈ cands, ∃ i, c = best i) → ∀ C, fillin (s.vars.map Prod.fst) fixed
              (cands.filter (fun c => !c.isEmpty)) = some C → ∀ x ∈ C, ∃ i, best i ≠ [] ∧ ((fixed = none ∧ x = best i) ∨
                ∃ f, fixed = some f ∧ fillRow f (s.vars.map Prod.fst) (best i) = some x) := by
            intro cands hc C hC x hx
            have hne : ∀ c ∈ cands.filter (fun c => !c.isEmpty), ∃ i, c = best i ∧ best i ≠ [] := by
              intro c hcm
              rw [List.mem_filter] at hcm
              obtain ⟨i, rfl⟩ := hc c hcm.1
              refine ⟨i, rfl, ?_⟩
              intro hnil
              rw [hnil] at hcm
              simp at hcm
            cases hfx : fixed with
            | none =>
              rw [hfx] at hC
              simp only [fillin, Option.some.injEq] at hC
              subst hC
              obtain ⟨i, rfl, hi⟩ := hne x hx
              exact ⟨i, hi, Or.inl ⟨rfl, rfl⟩⟩
            | some f =>
              rw [hfx] at hC
              simp only [fillin] at hC
              split_ifs at hC with hem
              · cases hC
                rw [List.isEmpty_iff] at hem
                rw [hem] at hx
                simp at hx
              · obtain ⟨r, hr, hfr⟩ := mapM_mem _ _ _ hC x hx
                obtain ⟨i, rfl, hi⟩ := hne r hr
                exact ⟨i, hi, Or.inr ⟨f, rfl, hfr⟩⟩
          unfold argMaxAcquisition at hC
          simp only [] at hC
          split_ifs at hC with h1 h2
          · simp only [Except.bind] at hC
            split at hC
            · cases hC
            · rename_i Y hY
              cases hC
              exact key _ (by intro c hc; obtain ⟨i, _, rfl⟩ := List.mem_map.mp hc; exact ⟨i, rfl⟩) _ hY
          · cases hC
          · simp only [Except.bind] at hC
            split at hC
            · cases hC
            · rename_i Y hY
              cases hC
              exact key _ (by intro c hc; exact ⟨0, List.mem_singleton.mp hc⟩) _ hY
        split_ifs at hp with hlt
        · cases hD : createDoE s.vars fixed s.data sample
              (n?.getD s.nPoint - (preEvalCheck (s.vars.map Prod.snd) s.data C).length) with
          | none => rw [hD] at hp; cases hp
          | some D =>
            rw [hD] at hp
            cases hp
            rcases List.mem_append.mp hx with hx | hx
            · exact Or.inl ⟨rfl, hcand x (preEvalCheck_subset hx)⟩
            · exact Or.inr (hdoe _ _ (by omega) hD x hx)
        · cases hp
          exact Or.inl ⟨rfl, hcand x (preEvalCheck_subset hx)⟩

private theorem fillRow_nil : ∀ (names : List String) (r : Row), r.length = names.length → fillRow [] names r = some r
  | [], [], _ => rfl
  | _ :: ns, x :: xs, h => by
    simp only [fillRow, List.lookup]
    rw [fillRow_nil ns xs (by simpa using h)]
    rfl

private theorem satisfies_partial {tol : ℝ} {h g : Option (Row → List ℝ)} {names : List String} {fixed : List (String × Val)} {r y : Row}
    (hy : fillRow fixed names r = some y)
    (hs : SatisfiesUpTo tol (h.map (partialConstraint names fixed)) (g.map (partialConstraint names fixed)) r) :
    SatisfiesUpTo tol h g y := by
  constructor
  · intro f hf v hv
    refine hs.1 (partialConstraint names fixed f) (by rw [hf]; rfl) v ?_
    simpa [partialConstraint, hy] using hv
  · intro f hf v hv
    refine hs.2 (partialConstraint names fixed f) (by rw [hf]; rfl) v ?_
    simpa [partialConstraint, hy] using hv

/-- C145, partial: every point returned by `ask` satisfies the user's constraints (the equalities up to 1/10), or it comes from the random sampling
and is the rounded version of a point that satisfies them (the equalities up to 1/100).  Without a fitted model only the second kind occurs. The
rounding can violate a constraint, see `c145_rounding_violates`. -/
theorem c145_ask_feasible_partial (e : AskEnv G) (s : AskState) (n? : Option ℤ) (fixed : Option (List (String × Val))) (X : List Row)
    (hn : 1 ≤ requested s n?) (hl : LibrariesOk e ((freeVars s.vars (fixed.getD [])).map Prod.snd))
    (hs : SpaceOk e ((freeVars s.vars (fixed.getD [])).map Prod.snd)) (h : askFull e s n? fixed = .ok X) :
    ∀ x ∈ X, (s.fitted = true ∧ SatisfiesUpTo (1 / 10) e.h e.g x) ∨
      ∃ y, SatisfiesUpTo (1 / 100) e.h e.g y ∧ Honours s.vars (fixed.getD []) y ∧ x = roundedPoint (s.vars.map Prod.snd) y := by
  intro x hx
  have hds := design_spec e s.vars (fixed.getD []) hl hs
  rcases ask_origin s n? fixed _ _ (fun k n hn => (hds k n hn).1) X hn h x hx with ⟨hfit, i, hne, hi⟩ | ⟨k, n, r, y, hpos, hr, hy, rfl⟩
  · left
    refine ⟨hfit, ?_⟩
    rcases best_spec e s.vars (fixed.getD []) hl hs i with hb | ⟨hp, hfe⟩
    · exact absurd hb hne
    · have hfe' : SatisfiesUpTo (1 / 10) (e.h.map (partialConstraint (s.vars.map Prod.fst) (fixed.getD [])))
        (e.g.map (partialConstraint (s.vars.map Prod.fst) (fixed.getD []))) (acquisitionBest e s.vars (fixed.getD []) i) := hfe
      rcases hi with ⟨rfl, rfl⟩ | ⟨f, rfl, hfr⟩
      · refine satisfies_partial (fillRow_nil _ _ ?_) hfe'
        have := hp.1
        simpa [freeKinds] using this
      · exact satisfies_partial hfr hfe'
  · right
    obtain ⟨h1, h2⟩ := (hds k n hpos).2 r hr
    obtain ⟨y', hy', hon⟩ := fillRow_spec (fixed.getD []) s.vars r h1
    rw [hy] at hy'
    obtain rfl := Option.some.inj hy'
    refine ⟨y, satisfies_partial hy h2, hon, ?_⟩
    rfl

/-- C145: without precisions on the real variables, every point returned by `ask` satisfies the constraints, the equalities up to 1/10. -/
theorem c145_ask_feasible_no_precision (e : AskEnv G) (s : AskState) (n? : Option ℤ) (fixed : Option (List (String × Val))) (X : List Row)
    (hn : 1 ≤ requested s n?) (hl : LibrariesOk e ((freeVars s.vars (fixed.getD [])).map Prod.snd))
    (hs : SpaceOk e ((freeVars s.vars (fixed.getD [])).map Prod.snd)) (hprec : ∀ name v, (name, Kind.real v) ∈ s.vars → v.precision = none)
    (h : askFull e s n? fixed = .ok X) : ∀ x ∈ X, SatisfiesUpTo (1 / 10) e.h e.g x := by
  intro x hx
  rcases c145_ask_feasible_partial e s n? fixed X hn hl hs h x hx with ⟨-, h1⟩ | ⟨y, h1, h2, rfl⟩
  · exact h1
  · have hid : roundedPoint (s.vars.map Prod.snd) y = y := by
      have key : ∀ (vars : Vars) (y : Row), (∀ name v, (name, Kind.real v) ∈ vars → v.precision = none) → y.length = vars.length →
          roundedPoint (vars.map Prod.snd) y = y := by
        intro vars
        induction vars with
        | nil => intro y _ hy; cases y with
          | nil => rfl
          | cons a l => simp at hy
        | cons p vars ih =>
          intro y hpv hy
          cases y with
          | nil => simp at hy
          | cons a l =>
            have hrec := ih l (fun name v hv => hpv name v (by simp [hv])) (by simpa using hy)
            unfold roundedPoint at hrec ⊢
            simp only [List.map_cons, List.zipWith_cons_cons, hrec]
            congr 1
            obtain ⟨name, k⟩ := p
            cases k with
            | real v =>
              cases a with
              | real z => simp [RealVar.round, hpv name v (by simp)]
              | _ => rfl
            | _ => rfl
      exact key s.vars y hprec h2.1
    rw [hid]
    exact ⟨fun f hf v hv => (h1.1 f hf v hv).trans (by norm_num), h1.2⟩

/-! ## A concrete process -/

open Classical in
/-- An `argsort` that puts NaN last. -/
noncomputable def nanSort (l : List (Option ℝ)) : List ℕ :=
  List.insertionSort (fun i j => nanLe (l.getD i none) (l.getD j none)) (List.range l.length)

open Classical in
theorem nanSort_ok (l : List (Option ℝ)) : IsArgsort l (nanSort l) := by
  refine ⟨List.perm_insertionSort _ _, ?_⟩
  have htr : ∀ a b c : Option ℝ, nanLe a b → nanLe b c → nanLe a c := by
    intro a b c h1 h2
    cases a <;> cases b <;> cases c <;> simp_all [nanLe]
    exact h1.trans h2
  have hto : ∀ a b : Option ℝ, nanLe a b ∨ nanLe b a := by
    intro a b
    cases a <;> cases b <;> simp [nanLe]
    exact le_total _ _
  have : IsTrans ℕ (fun i j => nanLe (l.getD i none) (l.getD j none)) := ⟨fun _ _ _ h1 h2 => htr _ _ _ h1 h2⟩
  have : Std.Total (fun i j => nanLe (l.getD i none) (l.getD j none)) := ⟨fun _ _ => hto _ _⟩
  refine (List.pairwise_insertionSort (fun i j => nanLe (l.getD i none) (l.getD j none)) (List.range l.length)).imp ?_
  intro i j h a b ha hb
  simpa [List.getD_eq_getElem?_getD, ha, hb] using h

noncomputable def realSort (l : List ℝ) : List ℕ :=
  List.insertionSort (fun i j => l.getD i 0 ≤ l.getD j 0) (List.range l.length)

theorem realSort_ok : SortsValues realSort := by
  intro l
  refine ⟨List.perm_insertionSort _ _, ?_⟩
  have : IsTrans ℕ (fun i j => l.getD i 0 ≤ l.getD j 0) := ⟨fun _ _ _ h1 h2 => le_trans h1 h2⟩
  have : Std.Total (fun i j => l.getD i 0 ≤ l.getD j 0) := ⟨fun _ _ => le_total _ _⟩
  refine (List.pairwise_insertionSort (fun i j => l.getD i 0 ≤ l.getD j 0) (List.range l.length)).imp ?_
  intro i j h a b ha hb
  simpa [List.getD_eq_getElem?_getD, ha, hb] using h

/-- A process whose random numbers are all 0, with one step of the random walk that moves every real coordinate by 3/5. -/
noncomputable def zeroEnv (a : Algo) (h g : Option (Row → List ℝ)) (lower : List ℝ) : AskEnv Unit where
  rng := { uniform := fun _ _ _ => (fun _ _ => 0, ()), randint := fun _ _ _ => (fun _ => 0, ()), seed := fun _ => () }
  fresh := fun _ => ()
  seed := none
  argsort := nanSort
  sortPop := realSort
  algo := a
  nRestart := 5
  waitIter := 3
  budget := 100
  h := h
  g := g
  value := fun _ _ => 0
  penalty := fun _ _ => 0
  draws := fun _ _ _ => { bfgs := fun _ => (lower, some 0, 1), start := fun _ => 0, steps := fun _ => ⟨fun x => x, false, fun _ => 0⟩, gen := (), noise := fun _ _ => ⟨0, 0, fun _ => false, fun _ => 0, fun _ => 0, fun _ => none⟩, flat := fun _ => true }
  doeGen := fun _ => ()
  walkNoise := fun _ _ _ _ => { shift := 3 / 5 }
  walkAccept := fun _ _ _ _ => true
  walkSteps := 1
  pick := fun _ N _ => List.range N

theorem zeroEnv_libraries (a : Algo) (h g : Option (Row → List ℝ)) (lower : List ℝ) (ks : List Kind)
    (hw : WithinBounds ks lower) : LibrariesOk (zeroEnv a h g lower) ks where
  rng := ⟨fun _ _ _ _ _ => ⟨le_rfl, zero_le_one⟩, fun _ _ _ _ h => h⟩
  argsort := nanSort_ok
  sortPop := realSort_ok
  bfgs := fun _ _ _ => hw
  start := fun _ _ _ => ⟨le_rfl, zero_le_one⟩
  steps := fun _ _ _ _ => ⟨le_rfl, zero_le_one⟩
  parents := fun _ _ _ _ => ⟨by simp [zeroEnv], by simp [zeroEnv]⟩
  pick := fun _ N n hN => ⟨by simp [zeroEnv], by simp [zeroEnv, List.nodup_range], fun i hi => by simp [zeroEnv] at hi; omega⟩

private noncomputable def gridVar : RealVar := { lo := 0, hi := 1, precision := some 0 }

/-- The user's constraint `x[0] <= 7/10`. -/
private noncomputable def capConstraint : Row → List ℝ
  | .real x :: _ => [x - 7 / 10]
  | _ => []

private theorem gridVar_round (x : ℝ) (n : ℤ) (h : rint x = n) (h0 : 0 ≤ (n : ℝ)) (h1 : (n : ℝ) ≤ 1) : gridVar.round x = n := by
  simp [RealVar.round, gridVar, npRound, clip, h, h0, h1]

/-- C145 refuted: a real variable in [0, 1] kept at precision 0, the constraint `x <= 7/10`.  The random walk delivers the feasible point 3/5, `ask` returns
the rounded point 1, which violates the constraint; all the assumptions of `c145_ask_feasible_partial` hold. -/
theorem c145_rounding_violates :
    ∃ (e : AskEnv Unit) (s : AskState) (x : Row), LibrariesOk e ((freeVars s.vars []).map Prod.snd) ∧
      SpaceOk e ((freeVars s.vars []).map Prod.snd) ∧ 1 ≤ requested s none ∧ askFull e s none none = .ok [x] ∧
      PointOf (s.vars.map Prod.snd) x ∧ ¬ SatisfiesUpTo (1 / 10) e.h e.g x := by
  let e := zeroEnv .onePlusOne none (some capConstraint) [0]
  let s : AskState := { vars := [("a", .real gridVar)], data := [], fitted := false, parallel := false, nPoint := 1, doeSize := 1 }
  have hfree : (freeVars s.vars []).map Prod.snd = [.real gridVar] := by simp [freeVars, s]
  have hfk : freeKinds s.vars [] = [.real gridVar] := hfree
  have hr0 : gridVar.round 0 = 0 := by
    have := gridVar_round 0 0 (by unfold rint; norm_num) (by norm_num) (by norm_num)
    simpa using this
  have hr1 : gridVar.round (3 / 5) = 1 := by
    have h : rint (3 / 5 : ℝ) = 1 := by
      unfold rint
      have hfl : ⌊(3 / 5 : ℝ)⌋ = 0 := by rw [Int.floor_eq_iff]; norm_num
      rw [hfl]
      norm_num
    have := gridVar_round (3 / 5) 1 h (by norm_num) (by norm_num)
    simpa using this
  have hsamp : gridVar.sample 0 = some 0 := by
    have : (RealVar.sample gridVar 0) = some (gridVar.round 0) := by
      simp [RealVar.sample, gridVar, affine, scaleTrans, RealVar.toLinear, scaleInv]
    rw [this, hr0]
  have hraw : (sampleRaw e.rng e.fresh e.seed [.real gridVar] 10 ()).1 = List.replicate 10 [some (.real 0)] := by
    simp [sampleRaw, pureType, sampleGroup, realCols, toRows, Kind.vtype, Kind.ofUniform, e, zeroEnv, hsamp, List.range_succ,
      List.zipIdx, List.replicate]
  have hwalk : scmcRow [.real gridVar] (fun _ _ => { shift := 3 / 5 }) (fun _ _ => true) 1 [.real 0] = [.real (3 / 5)] := by
    simp [scmcRow, mhRow, propose, List.range_succ, List.zipIdx, clip, gridVar]
    norm_num
  have hdes : ∀ k, designSample e s.vars [] k 1 = [[.real (3 / 5)]] := by
    intro k
    unfold designSample
    simp only [hfk]
    rw [if_pos (by simp [e, zeroEnv])]
    have hgen : e.doeGen k = () := rfl
    have hmax : max (1 : ℤ).toNat 10 = 10 := rfl
    rw [hgen, hmax, hraw]
    have hrows : (sampledRows (List.replicate 10 [some (Val.real 0)])).mapIdx
        (fun i r => scmcRow [.real gridVar] (e.walkNoise k i) (e.walkAccept k i) e.walkSteps r) =
        List.replicate 10 [.real (3 / 5)] := by
      have hw : ∀ i, scmcRow [.real gridVar] (e.walkNoise k i) (e.walkAccept k i) e.walkSteps [.real 0] = [.real (3 / 5)] :=
        fun i => hwalk
      simp [sampledRows, List.replicate, List.mapIdx_cons, hw]
    rw [hrows]
    have hcap : partialConstraint (s.vars.map Prod.fst) [] capConstraint [.real (3 / 5)] = [3 / 5 - 7 / 10] := by
      simp [partialConstraint, s, fillRow, List.lookup, capConstraint]
    have hgs : e.g.map (partialConstraint (s.vars.map Prod.fst) []) = some (partialConstraint (s.vars.map Prod.fst) [] capConstraint) := rfl
    have hhs : e.h.map (partialConstraint (s.vars.map Prod.fst) []) = none := rfl
    rw [hgs, hhs]
    unfold sampleConstrained
    simp only [Option.getD_none, Option.getD_some]
    rw [List.filter_eq_self.mpr (by
      intro a ha
      rw [List.eq_of_mem_replicate ha]
      rw [decide_eq_true_iff]
      refine ⟨by simp, ?_⟩
      intro c hc
      simp only [Option.getD_some, hcap, List.mem_singleton] at hc
      rw [hc]
      norm_num)]
    simp [e, zeroEnv, List.range_succ, List.replicate]
  refine ⟨e, s, [.real 1], ?_, ?_, by decide, ?_, ?_, ?_⟩
  · rw [hfree]
    refine zeroEnv_libraries _ _ _ _ _ ⟨rfl, ?_⟩
    intro j v a hj ha
    cases j with
    | succ j => simp at hj
    | zero =>
      simp at hj ha
      subst hj
      subst ha
      simp [gridVar]
  · rw [hfree]
    have hk : ∀ P : Kind → Prop, P (.real gridVar) → ∀ k ∈ [Kind.real gridVar], P k := by
      intro P hP k hk
      rw [List.mem_singleton.mp hk]
      exact hP
    refine ⟨by simp, hk _ ?_, hk _ ?_, fun _ => hk _ ⟨_, rfl⟩, fun _ => hk _ ⟨by simp, ?_⟩⟩
    · simp [Proper, gridVar, scaleDomain]
    · simp [Regular, gridVar]
    · simp [UniformLevels, Kind.levels]
  · have hdoe : createDoE s.vars none s.data (designSample e s.vars []) 1 = some [[.real 1]] := by
      simp only [createDoE, Option.getD_none]
      unfold doeLoop
      rw [if_neg one_ne_zero, hdes]
      have hfill : fillin (s.vars.map Prod.fst) (some []) [[Val.real (3 / 5)]] = some [[.real (3 / 5)]] := by
        simp [fillin, fillRow, List.lookup, s]
      rw [hfill, Option.bind_some]
      have hround : [[Val.real (3 / 5)]].map (roundRow (s.vars.map Prod.snd)) = [[.real 1]] := by
        simp [roundRow, roundVal, s, hr1]
      have hch : preEvalCheck (s.vars.map Prod.snd) s.data [[Val.real 1]] = [[.real 1]] := preEvalCheck_singleton _ _
      simp only [List.isEmpty_cons, Bool.false_eq_true, if_false, hround, hch, List.nil_append]
      unfold doeLoop
      simp
    unfold askFull ask askPoints
    have hf : s.fitted = false := rfl
    have hd : (none : Option ℤ).getD s.doeSize = 1 := rfl
    rw [hf, hd]
    simp only [Option.getD_none, Bool.false_eq_true, if_false]
    rw [hdoe]
    rfl
  · refine ⟨rfl, ?_⟩
    intro j k v hj hv
    cases j with
    | succ j => simp [s] at hj
    | zero =>
      simp [s] at hj hv
      subst hj
      subst hv
      simp [Kind.contains, RealVar.contains, gridVar]
  · intro hsat
    have := hsat.2 capConstraint rfl (1 - 7 / 10) (by simp [capConstraint])
    norm_num at this

/-- The hypotheses of C144 and C145 also hold for a mixed space, searched by MIES. -/
example : LibrariesOk (zeroEnv .mies none none [1, 0, 0, 0, 0]) sampleKinds ∧ SpaceOk (zeroEnv .mies none none []) sampleKinds := by
  refine ⟨zeroEnv_libraries _ _ _ _ _ ⟨by simp [sampleKinds], ?_⟩, by simp [sampleKinds], fun k hk => (sampleKinds_ok k hk).1,
    fun k hk => (sampleKinds_ok k hk).2, fun h => absurd rfl h, fun h => by simp [zeroEnv] at h⟩
  intro j v a hj ha
  rcases j with _ | _ | _ | _ | _ | j <;> simp [sampleKinds] at hj ha
  subst hj
  subst ha
  norm_num

end Verif.Props
