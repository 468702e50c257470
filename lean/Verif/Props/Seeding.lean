import Verif.Spec.Seeding
import Verif.Props.Ask
import Verif.Proofs.Optimizer

/-!
# C187: a seeded optimisation can be repeated
-/
set_option linter.unusedSectionVars false
namespace Verif.Props

open Verif.Model Verif.Spec Verif.Proofs

variable {P K M G : Type*} [Field K] [LinearOrder K] [IsStrictOrderedRing K]

private theorem sampleGen_seeded (rng : Rng G) (en en' : ℕ → G) (s : ℕ) (ks : List Kind) (N : ℕ) (w w' : GenState G) (h : w.gen = w'.gen) :
    (sampleGen ⟨rng, en⟩ (some s) ks N w).1 = (sampleGen ⟨rng, en'⟩ (some s) ks N w').1 ∧
      (sampleGen ⟨rng, en⟩ (some s) ks N w).2.gen = (sampleGen ⟨rng, en'⟩ (some s) ks N w').2.gen := by
  have e : sampleFree rng (fun τ => en (w.restarts + supportedTypes.idxOf τ)) (some s) ks N w.gen =
      sampleFree rng (fun τ => en' (w'.restarts + supportedTypes.idxOf τ)) (some s) ks N w'.gen := by
    rw [h]
    rfl
  unfold sampleGen
  simp only
  rw [e]
  cases sampleFree rng (fun τ => en' (w'.restarts + supportedTypes.idxOf τ)) (some s) ks N w'.gen with
  | none => exact ⟨rfl, h⟩
  | some r => exact ⟨rfl, rfl⟩

private theorem doeLoop_seeded (rng : Rng G) (en en' : ℕ → G) (s : ℕ) (vars : Vars) (fixed : List (String × Val)) (data : List Row) :
    ∀ (k : ℕ) (n : ℤ) (acc : List Row) (w w' : GenState G), w.gen = w'.gen →
      (doeLoopGen ⟨rng, en⟩ (some s) vars fixed data k n acc w).1 = (doeLoopGen ⟨rng, en'⟩ (some s) vars fixed data k n acc w').1 ∧
        (doeLoopGen ⟨rng, en⟩ (some s) vars fixed data k n acc w).2.gen = (doeLoopGen ⟨rng, en'⟩ (some s) vars fixed data k n acc w').2.gen := by
  intro k
  induction k with
  | zero => intro n acc w w' h; exact ⟨rfl, h⟩
  | succ k ih =>
    intro n acc w w' h
    unfold doeLoopGen
    by_cases hn : n = 0
    · simp only [hn, ↓reduceIte]
      exact ⟨trivial, h⟩
    · obtain ⟨h1, h2⟩ := sampleGen_seeded rng en en' s (freeKinds vars fixed) n.toNat w w' h
      simp only [hn, ↓reduceIte]
      rw [h1]
      cases fillin (vars.map Prod.fst) (some fixed) (sampleGen ⟨rng, en'⟩ (some s) (freeKinds vars fixed) n.toNat w').1 with
      | none => exact ⟨rfl, h2⟩
      | some X =>
        simp only
        by_cases hX : X.isEmpty = true
        · simp only [hX, ↓reduceIte]
          exact ih _ _ _ _ h2
        · simp only [hX, Bool.false_eq_true, ↓reduceIte]
          refine ih _ _ _ _ ?_
          unfold roundGen
          split_ifs
          · rfl
          · exact h2

/-- **C187**: if the search space has a seed, an initial design is a function of this seed and of the recorded points: neither the entropy of the operating system, nor what was
drawn before, nor the seed of the optimiser matter.  The generator is left in the same state, too. -/
theorem c187_design_seeded (rng : Rng G) (en en' : ℕ → G) (s : ℕ) (vars : Vars) (fixed : Option (List (String × Val))) (data : List Row) (n : ℤ) (w w' : GenState G) :
    (createDoEGen ⟨rng, en⟩ (some s) vars fixed data n w).1 = (createDoEGen ⟨rng, en'⟩ (some s) vars fixed data n w').1 ∧
      (createDoEGen ⟨rng, en⟩ (some s) vars fixed data n w).2.gen = (createDoEGen ⟨rng, en'⟩ (some s) vars fixed data n w').2.gen :=
  doeLoop_seeded rng en en' s vars (fixed.getD []) data 4 n [] _ _ rfl

/-- The designs are those of the model of `create_DoE` in C14 and C15 for some samples. -/
theorem c187_refines (e : GenSource G) (seed : Option ℕ) (vars : Vars) (fixed : Option (List (String × Val))) (data : List Row) (n : ℤ) (w : GenState G) :
    ∃ sample, (createDoEGen e seed vars fixed data n w).1 = createDoE vars fixed data sample n := by
  have key : ∀ (k : ℕ) (n : ℤ) (acc : List Row) (w : GenState G), ∃ sample : ℕ → ℤ → List Row, ∀ sample' : ℕ → ℤ → List Row, (∀ j < k, sample' j = sample j) →
      (doeLoopGen e seed vars (fixed.getD []) data k n acc w).1 = doeLoop vars (fixed.getD []) data sample' k n acc := by
    intro k
    induction k with
    | zero => intro n acc w; exact ⟨fun _ _ => [], fun _ _ => rfl⟩
    | succ k ih =>
      intro n acc w
      by_cases hn : n = 0
      · exact ⟨fun _ _ => [], fun sample' _ => by simp [doeLoopGen, doeLoop, hn]⟩
      · cases hf : fillin (vars.map Prod.fst) (some (fixed.getD [])) (sampleGen e seed (freeKinds vars (fixed.getD [])) n.toNat w).1 with
        | none =>
          refine ⟨fun _ _ => (sampleGen e seed (freeKinds vars (fixed.getD [])) n.toNat w).1, fun sample' h => ?_⟩
          simp [doeLoopGen, doeLoop, hn, h k (Nat.lt_succ_self k), hf]
        | some X =>
          by_cases hX : X.isEmpty = true
          · obtain ⟨sample, hs⟩ := ih n acc (sampleGen e seed (freeKinds vars (fixed.getD [])) n.toNat w).2
            refine ⟨fun j => if j = k then fun _ => (sampleGen e seed (freeKinds vars (fixed.getD [])) n.toNat w).1 else sample j, fun sample' h => ?_⟩
            have h0 : sample' k n = (sampleGen e seed (freeKinds vars (fixed.getD [])) n.toNat w).1 := by
              rw [h k (Nat.lt_succ_self k)]
              simp
            have h1 := hs sample' fun j hj => by
              rw [h j (by omega)]
              simp [Nat.ne_of_lt hj]
            simp only [doeLoopGen, doeLoop, hn, ↓reduceIte, h0, hf, hX, Option.bind_some]
            exact h1
          · obtain ⟨sample, hs⟩ := ih (n - (preEvalCheck (vars.map Prod.snd) data (X.map (roundRow (vars.map Prod.snd)))).length)
              (acc ++ preEvalCheck (vars.map Prod.snd) data (X.map (roundRow (vars.map Prod.snd))))
              (roundGen e seed (vars.map Prod.snd) (sampleGen e seed (freeKinds vars (fixed.getD [])) n.toNat w).2)
            refine ⟨fun j => if j = k then fun _ => (sampleGen e seed (freeKinds vars (fixed.getD [])) n.toNat w).1 else sample j, fun sample' h => ?_⟩
            have h0 : sample' k n = (sampleGen e seed (freeKinds vars (fixed.getD [])) n.toNat w).1 := by
              rw [h k (Nat.lt_succ_self k)]
              simp
            have h1 := hs sample' fun j hj => by
              rw [h j (by omega)]
              simp [Nat.ne_of_lt hj]
            simp only [doeLoopGen, doeLoop, hn, ↓reduceIte, h0, hf, hX, Option.bind_some, Bool.false_eq_true]
            exact h1
  obtain ⟨sample, hs⟩ := key 4 n [] (npSeed e seed w)
  exact ⟨sample, hs sample fun _ _ => rfl⟩

private theorem npSeed_gen (e : GenSource G) (seed : Option ℕ) (w w' : GenState G) (h : w.restarts = w'.restarts) : npSeed e seed w = npSeed e seed w' := by
  cases seed with
  | none => simp [npSeed, h]
  | some s => simp [npSeed, h]

private theorem setSeed_restarts (e : GenSource G) (seed : Option ℕ) (w : GenState G) : (setRandomSeed e seed w).restarts = w.restarts := by
  unfold setRandomSeed
  cases seed with
  | none => rfl
  | some s =>
    simp only
    split_ifs <;> rfl

/-- **C187 refuted**, in general: the argument `random_seed` of the optimiser has no influence on the initial design, whatever the space and its seed. -/
theorem c187_random_seed_ignored (e : GenSource G) (seed : Option ℕ) (a b : Option ℕ) (vars : Vars) (fixed : Option (List (String × Val))) (data : List Row) (n : ℤ)
    (w : GenState G) :
    createDoEGen e seed vars fixed data n (setRandomSeed e a w) = createDoEGen e seed vars fixed data n (setRandomSeed e b w) := by
  unfold createDoEGen
  rw [npSeed_gen e seed (setRandomSeed e a w) (setRandomSeed e b w) (by rw [setSeed_restarts, setSeed_restarts])]

/-- **C187 refuted**: with a seed for the space, designs asked for one after the other repeat: as long as the recorded points are the same, the same points are proposed again. -/
theorem c187_designs_repeat (e : GenSource G) (s : ℕ) (vars : Vars) (fixed : Option (List (String × Val))) (data : List Row) (n : ℤ) (w : GenState G) :
    (createDoEGen e (some s) vars fixed data n (createDoEGen e (some s) vars fixed data n w).2).1 = (createDoEGen e (some s) vars fixed data n w).1 :=
  (c187_design_seeded e.rng e.entropy e.entropy s vars fixed data n _ _).1

/-- **C187 refuted**: with a seed for the space, the parameters of the criteria of a batch are not drawn anew: in every iteration they are the current `t` times the same factors. -/
theorem c187_temperatures_repeat (e : GenSource G) (s : ℕ) (randn : G → ℝ × G) (n : ℕ) :
    ∃ factors : List ℝ, factors.length = n ∧ (∀ c ∈ factors, 0 < c) ∧ ∀ (t : ℝ) (w : GenState G), 0 < t →
      batchTemperatures e (some s) randn t n w = factors.map (fun c => t * c) := by
  refine ⟨(drawMany randn n (e.rng.seed s)).map (fun z => Real.exp (1 / 2 * z)), ?_, ?_, fun t w ht => ?_⟩
  · rw [List.length_map]
    generalize e.rng.seed s = g
    induction n generalizing g with
    | zero => rfl
    | succ n ih => simp [drawMany, ih]
  · intro c hc
    obtain ⟨z, -, rfl⟩ := List.mem_map.mp hc
    exact Real.exp_pos _
  · unfold batchTemperatures
    rw [List.map_map]
    refine List.map_congr_left fun z _ => ?_
    simp only [Function.comp_apply]
    rw [Real.exp_add, Real.exp_log ht]

/-! ### Whole runs -/

/-- **C187**: with a seed for the space, a whole run is a function of that seed: two runs, in programs that have drawn different numbers before and on systems that deliver different
entropy, give the same data, the same surrogate and the same end, provided that proposing and training use no other source of randomness. -/
theorem c187_run_seeded (cfg : Cfg K) (rng : Rng G) (en en' : ℕ → G) (n : ℕ) (L : GenLearner P K M G) (hL : NoEntropy L) (fuel : ℕ) (s : OptState P K) (m : M) (w w' : GenState G) :
    genRun cfg ⟨rng, en⟩ (some n) L fuel s m w = genRun cfg ⟨rng, en'⟩ (some n) L fuel s m w' := by
  induction fuel generalizing s m w w' with
  | zero => rfl
  | succ fuel ih =>
    unfold genRun
    rcases checkStop cfg s with ⟨s1, r⟩
    cases r with
    | error _ => rfl
    | ok b =>
      cases b with
      | true => rfl
      | false =>
        simp only
        obtain ⟨h1, h2⟩ := hL.1 s1 m (npSeed ⟨rng, en⟩ (some n) w) (npSeed ⟨rng, en'⟩ (some n) w') rfl
        rcases ha : L.ask s1 m (npSeed ⟨rng, en⟩ (some n) w) with ⟨x, v⟩
        rcases ha' : L.ask s1 m (npSeed ⟨rng, en'⟩ (some n) w') with ⟨x', v'⟩
        rw [ha, ha'] at h1 h2
        simp only at h1 h2
        subst h1
        cases x with
        | none => rfl
        | some X =>
          simp only
          obtain ⟨h3, -⟩ := hL.2 s1 X m v v' h2
          rw [h3]
          rcases tell cfg s1 { X := X, vals := X.map L.objective, oracle := (L.train s1 X m v').1.2 } with ⟨s2, r⟩
          cases r with
          | error _ => rfl
          | ok _ => exact ih _ _ _ _

/-- **C187 refuted**, in general: without a seed for the space, `random_seed` of the optimiser and whatever was done to the generator before have no influence on the run. -/
theorem c187_run_ignores_random_seed (cfg : Cfg K) (e : GenSource G) (seed : Option ℕ) (a b : Option ℕ) (L : GenLearner P K M G) (fuel : ℕ) (s : OptState P K) (m : M) (w : GenState G) :
    genRun cfg e seed L fuel s m (setRandomSeed e a w) = genRun cfg e seed L fuel s m (setRandomSeed e b w) := by
  cases fuel with
  | zero => rfl
  | succ fuel =>
    unfold genRun
    rw [npSeed_gen e seed (setRandomSeed e a w) (setRandomSeed e b w) (by rw [setSeed_restarts, setSeed_restarts])]

/-! ### Witnesses -/

/-- A generator whose state is the number it yields. -/
private noncomputable def counting : Rng ℕ where
  uniform := fun g _ _ => (fun _ _ => (g : ℝ) / (g + 1), g + 1)
  randint := fun g s _ => (fun _ => g % s, g + 1)
  seed := fun s => s

private theorem counting_valid : counting.Valid := by
  refine ⟨fun g N d i j => ⟨by simp only [counting]; positivity, ?_⟩, fun g s N i hs => Nat.mod_lt _ hs⟩
  simp only [counting]
  rw [div_le_one (by positivity)]
  linarith

private abbrev digits : Vars := [("i", .integer { lo := 0, hi := 9 })]

private theorem design_digit (en : ℕ → ℕ) (seed : Option ℕ) (w : GenState ℕ) (k : ℕ) (hk : (npSeed ⟨counting, en⟩ seed w).gen = k) (h9 : k < 10) :
    (createDoEGen ⟨counting, en⟩ seed digits none [] 1 w).1 = some [[.int k]] := by
  have hs : (sampleGen ⟨counting, en⟩ seed [Kind.integer { lo := 0, hi := 9 }] 1 (npSeed ⟨counting, en⟩ seed w)).1 = [[.int k]] := by
    rcases hw : npSeed ⟨counting, en⟩ seed w with ⟨g, r⟩
    rw [hw] at hk
    simp only at hk
    subst hk
    have hm : ((g : ℤ) % 10) = g := by omega
    simp [sampleGen, sampleFree, sampleRaw, pureType, sampleGroup, Kind.vtype, discCols, toRows, sampledRows, List.range_succ, counting, Kind.ofDraw, Kind.size, IntVar.size,
      IntVar.sample, hm, trunc]
  unfold createDoEGen doeLoopGen
  have hf : freeKinds digits ((none : Option (List (String × Val))).getD []) = [Kind.integer { lo := 0, hi := 9 }] := by simp [freeKinds, digits]
  simp only [hf]
  have h1 : ((1 : ℤ)).toNat = 1 := rfl
  simp only [h1, hs]
  simp [fillin, fillRow, List.lookup, roundRow, roundVal, preEvalCheck_singleton, doeLoopGen]

/-- **C187 refuted**: two programs create an optimiser with `random_seed=42` for the same space, which has no seed; their initial designs differ. -/
theorem c187_not_reproducible_refuted : ∃ (rng : Rng ℕ) (en en' : ℕ → ℕ) (vars : Vars) (w : GenState ℕ), rng.Valid ∧
    (createDoEGen ⟨rng, en⟩ none vars none [] 1 (setRandomSeed ⟨rng, en⟩ (some 42) w)).1 = some [[.int 3]] ∧
      (createDoEGen ⟨rng, en'⟩ none vars none [] 1 (setRandomSeed ⟨rng, en'⟩ (some 42) w)).1 = some [[.int 7]] :=
  ⟨counting, fun _ => 3, fun _ => 7, digits, ⟨0, 0⟩, counting_valid, design_digit _ _ _ 3 rfl (by norm_num), design_digit _ _ _ 7 rfl (by norm_num)⟩

/-- Random search over the digits: it proposes designs only. -/
private noncomputable def randomSearch (rng : Rng ℕ) (en : ℕ → ℕ) (seed : Option ℕ) : GenLearner Row ℚ Unit ℕ where
  ask := fun s _ w => doeLoopGen ⟨rng, en⟩ seed digits [] ((s.data.getD []).map Rec.x) 4 1 [] w
  objective := fun _ => .fin 0
  train := fun _ _ _ w => (((), {}), w)

/-- Non-vacuity: the hypotheses of the theorem about whole runs are met, and a run with the space seed 5 proposes 5, whatever the entropy. -/
theorem c187_concrete : (∀ en s, NoEntropy (randomSearch counting en (some s))) ∧
    ∀ (en : ℕ → ℕ) (w : GenState ℕ), (createDoEGen ⟨counting, en⟩ (some 5) digits none [] 1 w).1 = some [[.int 5]] :=
  ⟨fun en s => ⟨fun st m w w' h => doeLoop_seeded counting en en s digits [] ((st.data.getD []).map Rec.x) 4 1 [] w w' h, fun _ _ _ _ _ h => ⟨rfl, h⟩⟩,
    fun en w => design_digit en (some 5) w 5 rfl (by norm_num)⟩

end Verif.Props
