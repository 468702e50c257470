import Verif.Spec.MiesStrength
import Verif.Proofs.Mies

/-! # Lemmas about the self-adaptation of MIES -/
namespace Verif.Proofs
open Verif.Model Verif.Spec

variable {K : Type*}

/-! ### The strengths -/

theorem stepFactor_pos (N : ℕ) (z zj : ℝ) : 0 < stepFactor N z zj := by
  unfold stepFactor
  split_ifs <;> exact Real.exp_pos _

theorem geometricPar_mem {N : ℕ} (hN : 0 < N) {eta : ℝ} (h : 0 < eta) : 0 < geometricPar N eta ∧ geometricPar N eta < 1 := by
  unfold geometricPar
  have hs : 0 < eta / N := div_pos h (by exact_mod_cast hN)
  have hq : eta / N ≤ Real.sqrt (1 + (eta / N) ^ 2) := Real.le_sqrt_of_sq_le (by linarith)
  have hd : 0 < 1 + Real.sqrt (1 + (eta / N) ^ 2) := by linarith
  have h1 : eta / N / (1 + Real.sqrt (1 + (eta / N) ^ 2)) < 1 := (div_lt_one hd).2 (by linarith)
  have h2 : 0 < eta / N / (1 + Real.sqrt (1 + (eta / N) ^ 2)) := div_pos hs hd
  constructor <;> linarith

theorem probUsed_mem (ks : List Kind) (n : StrengthNoise) (a : Individual) (h0 : 0 < a.prob) (h1 : a.prob ≤ 1) : 0 < probUsed ks n a ∧ probUsed ks n a ≤ 1 := by
  unfold probUsed
  have : 0 ≤ (1 - a.prob) / a.prob * Real.exp (-tauGlobal (countCategorical ks) * n.zd) :=
    mul_nonneg (div_nonneg (by linarith) h0.le) (Real.exp_pos _).le
  exact ⟨by positivity, (div_le_one (by linarith)).2 (by linarith)⟩

theorem countCategorical_pos {ks : List Kind} (h : ∃ k ∈ ks, k.vtype ≠ .real ∧ k.vtype ≠ .integer) : 0 < countCategorical ks := by
  obtain ⟨k, hk, h1, h2⟩ := h
  unfold countCategorical countType
  exact List.length_pos_of_mem (List.mem_filter.2 ⟨hk, by simp [h1, h2]⟩)

theorem countInteger_pos {ks : List Kind} {j : ℕ} {v : IntVar} (h : ks[j]? = some (.integer v)) : 0 < countInteger ks := by
  unfold countInteger countType
  exact List.length_pos_of_mem (List.mem_filter.2 ⟨List.mem_of_getElem? h, by simp [Kind.vtype]⟩)

theorem storedProb_mem {N : ℕ} (hN : 0 < N) (p : ℝ) : 0 < reflect (1 / (3 * N : ℝ)) (1 / 2) p ∧ reflect (1 / (3 * N : ℝ)) (1 / 2) p ≤ 1 := by
  have hN1 : (1 : ℝ) ≤ N := by exact_mod_cast hN
  have h0 : (0 : ℝ) < 1 / (3 * N) := by positivity
  have hlt : (1 : ℝ) / (3 * N) < 1 / 2 := by
    rw [div_lt_div_iff₀ (by linarith) (by norm_num)]
    linarith
  obtain ⟨h1, h2⟩ := reflect_mem hlt p
  constructor <;> linarith

theorem recombineInd_proper {ks : List Kind} {a b : Individual} (n : StrengthNoise) (ha : ProperStrengths ks a) (hb : ProperStrengths ks b) :
    ProperStrengths ks (recombineInd ks n a b) := by
  refine ⟨fun j v hj => ?_, fun j v hj => ?_, fun hc => ?_⟩
  · have h1 := ha.step j v hj
    have h2 := hb.step j v hj
    simp only [recombineInd]
    split_ifs
    · exact h1
    · linarith
  · have h1 := ha.integer j v hj
    have h2 := hb.integer j v hj
    simp only [recombineInd]
    split_ifs
    · exact h1
    · linarith
  · have h1 := ha.category hc
    have h2 := hb.category hc
    simp only [recombineInd]
    split_ifs
    · exact h1
    · constructor <;> linarith

theorem mutateInd_proper {ks : List Kind} {a : Individual} (n : StrengthNoise) (ha : ProperStrengths ks a) : ProperStrengths ks (mutateInd ks n a) :=
  ⟨fun _ _ _ => abs_nonneg _, fun j v hj => lt_min (mul_pos (ha.integer j v hj) (stepFactor_pos _ _ _)) one_pos,
    fun hc => storedProb_mem (countCategorical_pos hc) _⟩

theorem startInd_proper {ks : List Kind} (h : ∀ k ∈ ks, boundsChecked k) (row : Row) : ProperStrengths ks (startInd ks row) := by
  refine ⟨fun j v hj => ?_, fun j v hj => ?_, fun hc => ?_⟩
  · have := h _ (List.mem_of_getElem? hj)
    simp only [boundsChecked] at this
    simp only [startInd, hj]
    linarith
  · have := h _ (List.mem_of_getElem? hj)
    simp only [boundsChecked] at this
    simp only [startInd, hj]
    linarith
  · have : (1 : ℝ) ≤ countCategorical ks := by exact_mod_cast countCategorical_pos hc
    simp only [startInd]
    exact ⟨by positivity, (div_le_one (by linarith)).2 this⟩

/-! ### The run with strengths is a run of MIES -/

/-- The proposals behind one offspring. -/
noncomputable def offProposals (ks : List Kind) (pop : List (Individual × K)) (n : StrengthNoise) : MNoise :=
  proposalsOf ks n (((pop[n.p1]?).bind fun a => (pop[n.p2]?).map fun b => recombineInd ks n a.1 b.1).getD ⟨[], 0, 0, 0⟩)

/-- The rows of a population. -/
def rowsOf (pop : List (Individual × K)) : List (Row × K) := pop.map fun e => (e.1.row, e.2)

theorem offspring_row (cfg : MiesCfg K) (pop : List (Individual × K)) (n : StrengthNoise) :
    miesOffspring cfg (rowsOf pop) (offProposals cfg.kinds pop n) = (strengthOffspring cfg pop n).map Individual.row := by
  unfold miesOffspring strengthOffspring rowsOf
  rw [show (offProposals cfg.kinds pop n).p1 = n.p1 from rfl, show (offProposals cfg.kinds pop n).p2 = n.p2 from rfl, List.getElem?_map, List.getElem?_map]
  unfold offProposals
  cases h1 : pop[n.p1]? with
  | none => rfl
  | some a =>
    cases h2 : pop[n.p2]? with
    | none => rfl
    | some b => rfl

theorem mapM_map_option {α β γ : Type*} (f : α → Option β) (g : β → γ) (l : List α) : l.mapM (fun i => (f i).map g) = (l.mapM f).map (List.map g) := by
  induction l with
  | nil => rfl
  | cons a l ih =>
    rw [List.mapM_cons, List.mapM_cons, ih]
    cases f a with
    | none => rfl
    | some b =>
      cases l.mapM f with
      | none => rfl
      | some c => rfl

theorem select_rows (cfg : MiesCfg K) (pop off : List (Individual × K)) :
    rowsOf (strengthSelect cfg pop off) = miesSelect cfg (rowsOf pop) (rowsOf off) := by
  unfold strengthSelect miesSelect
  have hall : (if cfg.elitism then rowsOf pop ++ rowsOf off else rowsOf off) = rowsOf (if cfg.elitism then pop ++ off else off) := by
    split_ifs
    · exact (List.map_append).symm
    · rfl
  have hsnd : (rowsOf (if cfg.elitism then pop ++ off else off)).map Prod.snd = (if cfg.elitism then pop ++ off else off).map Prod.snd := by
    simp [rowsOf]
  simp only [hall, hsnd]
  unfold rowsOf
  rw [List.map_filterMap]
  congr 1
  funext i
  rw [List.getElem?_map]

theorem select_mem (cfg : MiesCfg K) (pop off : List (Individual × K)) (e : Individual × K) (h : e ∈ strengthSelect cfg pop off) :
    e ∈ off ∨ (cfg.elitism = true ∧ e ∈ pop) := by
  unfold strengthSelect at h
  rw [List.mem_filterMap] at h
  obtain ⟨i, -, hi⟩ := h
  have := List.mem_of_getElem? hi
  split_ifs at this with he
  · rcases List.mem_append.1 this with h | h
    · exact .inr ⟨he, h⟩
    · exact .inl h
  · exact .inl this

theorem mem_mapM {α β : Type*} {f : α → Option β} {l : List α} {r : List β} (h : l.mapM f = some r) {b : β} (hb : b ∈ r) : ∃ a ∈ l, f a = some b := by
  induction l generalizing r with
  | nil =>
    obtain rfl : r = [] := by simpa using h.symm
    cases hb
  | cons a l ih =>
    rw [List.mapM_cons] at h
    cases ha : f a with
    | none => rw [ha] at h; cases h
    | some c =>
      rw [ha] at h
      cases hl : l.mapM f with
      | none => rw [hl] at h; cases h
      | some t =>
        rw [hl] at h
        obtain rfl : r = c :: t := (Option.some.inj h).symm
        rcases List.mem_cons.1 hb with rfl | hb
        · exact ⟨a, List.mem_cons_self .., ha⟩
        · obtain ⟨x, hx, hfx⟩ := ih hl hb
          exact ⟨x, List.mem_cons_of_mem _ hx, hfx⟩

theorem offspring_parents {cfg : MiesCfg K} {pop : List (Individual × K)} {n : StrengthNoise} {c : Individual} (h : strengthOffspring cfg pop n = some c) :
    ∃ a ∈ pop, ∃ b ∈ pop, pop[n.p1]? = some a ∧ pop[n.p2]? = some b ∧ c = mutateInd cfg.kinds n (recombineInd cfg.kinds n a.1 b.1) := by
  unfold strengthOffspring at h
  rw [Option.bind_eq_some_iff] at h
  obtain ⟨a, ha, h⟩ := h
  rw [Option.map_eq_some_iff] at h
  obtain ⟨b, hb, rfl⟩ := h
  exact ⟨a, List.mem_of_getElem? ha, b, List.mem_of_getElem? hb, ha, hb, rfl⟩

/-- Everything an individual of the next generation can be. -/
theorem step_cases {cfg : MiesCfg K} {s s' : StrengthState K} {noise : ℕ → StrengthNoise} (h : strengthStep cfg s noise = some s') :
    ∃ inds : List Individual, (List.range cfg.lam).mapM (fun i => strengthOffspring cfg s.pop (noise i)) = some inds ∧
      s'.pop = strengthSelect cfg s.pop (inds.map fun a => (a, cfg.fit s.iterCount a.row)) ∧ s'.iterCount = s.iterCount + 1 ∧
      s'.evaluated = s.evaluated ++ inds.map fun a => (a.row, cfg.fit s.iterCount a.row) := by
  unfold strengthStep at h
  rw [Option.map_eq_some_iff] at h
  obtain ⟨inds, h1, rfl⟩ := h
  exact ⟨inds, h1, rfl, rfl, rfl⟩

/-- A property that offspring inherit holds in the next generation. -/
theorem step_inherits {cfg : MiesCfg K} {s s' : StrengthState K} {noise : ℕ → StrengthNoise} (Q : Individual → Prop) (hpop : ∀ e ∈ s.pop, Q e.1)
    (hoff : ∀ i a b, Q a → Q b → Q (mutateInd cfg.kinds (noise i) (recombineInd cfg.kinds (noise i) a b))) (h : strengthStep cfg s noise = some s') :
    ∀ e ∈ s'.pop, Q e.1 := by
  obtain ⟨inds, h1, h2, -, -⟩ := step_cases h
  intro e he
  rw [h2] at he
  rcases select_mem cfg _ _ e he with h | ⟨-, h⟩
  · obtain ⟨c, hc, rfl⟩ := List.mem_map.1 h
    obtain ⟨i, -, hi⟩ := mem_mapM h1 hc
    obtain ⟨a, ha, b, hb, -, -, rfl⟩ := offspring_parents hi
    exact hoff i a.1 b.1 (hpop a ha) (hpop b hb)
  · exact hpop e h

theorem step_refines [LinearOrder K] {cfg : MiesCfg K} {s : StrengthState K} {m m' : MiesState K} {noise : ℕ → StrengthNoise} (hp : m.pop = rowsOf s.pop)
    (hi : m.iterCount = s.iterCount) (he : m.evaluated = s.evaluated) (h : miesStep cfg m (fun i => offProposals cfg.kinds s.pop (noise i)) = some m') :
    ∃ s', strengthStep cfg s noise = some s' ∧ m'.pop = rowsOf s'.pop ∧ m'.iterCount = s'.iterCount ∧ m'.evaluated = s'.evaluated := by
  unfold miesStep at h
  rw [hp] at h
  simp only [offspring_row] at h
  rw [mapM_map_option] at h
  unfold strengthStep
  cases hinds : (List.range cfg.lam).mapM (fun i => strengthOffspring cfg s.pop (noise i)) with
  | none => rw [hinds] at h; cases h
  | some inds =>
    rw [hinds, Option.map_some, Option.bind_some] at h
    rw [Option.map_eq_some_iff] at h
    obtain ⟨c, -, rfl⟩ := h
    refine ⟨_, rfl, ?_, by simp [hi], by simp [hi, he, Function.comp_def]⟩
    rw [select_rows]
    simp [rowsOf, hi, Function.comp_def]

/-! ### Frozen coordinates -/

theorem mutateRow_get {ks : List Kind} {m : MNoise} {r : Row} {j : ℕ} {k : Kind} {v : Val} (hk : ks[j]? = some k) (hv : r[j]? = some v) :
    (mutateRow ks m r)[j]? = some (mutateVal m j k v) := by
  unfold mutateRow
  rw [List.getElem?_mapIdx, List.getElem?_zip_eq_some (z := (k, v)) |>.2 ⟨hk, hv⟩]
  rfl

theorem recombineRow_get {m : MNoise} {a b : Row} {j : ℕ} {x y : Val} (ha : a[j]? = some x) (hb : b[j]? = some y) :
    (recombineRow m a b)[j]? = some x ∨ (recombineRow m a b)[j]? = some y := by
  unfold recombineRow
  split_ifs
  · exact .inl ha
  · rw [List.getElem?_mapIdx, List.getElem?_zip_eq_some (z := (x, y)) |>.2 ⟨ha, hb⟩]
    simp only [Option.map_some]
    split_ifs
    · exact .inr rfl
    · exact .inl rfl

theorem realAt_of {r : Row} {j : ℕ} {x : ℝ} (h : r[j]? = some (.real x)) : realAt r j = x := by
  unfold realAt
  rw [h]

/-- Step size 0 and a value that repair and rounding keep. -/
structure FrozenAt (v : RealVar) (j : ℕ) (V : Set ℝ) (a : Individual) : Prop where
  step : a.sigma j = 0
  value : ∃ x ∈ V, v.round (reflect v.lo v.hi x) = x ∧ a.row[j]? = some (.real x)

theorem frozen_inherits {ks : List Kind} {j : ℕ} {v : RealVar} (hj : ks[j]? = some (.real v)) (V : Set ℝ) (n : StrengthNoise) {a b : Individual}
    (ha : FrozenAt v j V a) (hb : FrozenAt v j V b) : FrozenAt v j V (mutateInd ks n (recombineInd ks n a b)) := by
  obtain ⟨c, hc⟩ : ∃ c, c = recombineInd ks n a b := ⟨_, rfl⟩
  have hcF : FrozenAt v j V c := by
    rw [hc]
    refine ⟨by simp [recombineInd, ha.step, hb.step], ?_⟩
    obtain ⟨x, hx, hx1, hx2⟩ := ha.value
    obtain ⟨y, hy, hy1, hy2⟩ := hb.value
    rcases recombineRow_get (m := proposalsOf ks n a) hx2 hy2 with h | h
    · exact ⟨x, hx, hx1, h⟩
    · exact ⟨y, hy, hy1, h⟩
  rw [← hc]
  obtain ⟨x, hx, hx1, hx2⟩ := hcF.value
  have hrow : (mutateInd ks n c).row[j]? = some (.real x) := by
    show (mutateRow ks (proposalsOf ks n c) c.row)[j]? = _
    rw [mutateRow_get hj hx2]
    simp only [mutateVal, proposalsOf, sigmaUsed, hcF.step, realAt_of hx2, zero_mul, add_zero, hx1]
  refine ⟨?_, x, hx, hx1, hrow⟩
  show |(realAt (mutateInd ks n c).row j - realAt c.row j) / n.R j| = 0
  rw [realAt_of hrow, realAt_of hx2, sub_self, zero_div, abs_zero]

/-- The new step size is the step made, and it is 0 exactly when no step was made. -/
theorem newSigma_pos_iff {ks : List Kind} {n : StrengthNoise} {a : Individual} {j : ℕ} (hR : n.R j ≠ 0) :
    0 < (mutateInd ks n a).sigma j ↔ realAt (mutateInd ks n a).row j ≠ realAt a.row j := by
  show 0 < |(realAt (mutateInd ks n a).row j - realAt a.row j) / n.R j| ↔ _
  rw [abs_pos, ne_eq, div_eq_zero_iff, not_or, sub_eq_zero]
  exact ⟨fun h => h.1, fun h => ⟨h, hR⟩⟩

end Verif.Proofs
