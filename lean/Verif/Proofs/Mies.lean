import Verif.Spec.Mies
import Verif.Proofs.BoxConstraint
import Verif.Proofs.Variables

/-! # Lemmas about MIES -/
namespace Verif.Proofs
open Verif.Model Verif.Spec

variable {K : Type*} [LinearOrder K]

theorem reflect_int {lb ub : ℤ} (h : lb < ub) (x : ℤ) :
    ∃ z : ℤ, reflect (lb : ℝ) (ub : ℝ) (x : ℝ) = z ∧ lb ≤ z ∧ z ≤ ub := by
  have h' : (lb : ℝ) < ub := by exact_mod_cast h
  obtain ⟨m1, m2⟩ := reflect_mem h' (x : ℝ)
  obtain ⟨n, hn | hn⟩ := reflect_orbit h' (x : ℝ)
  · refine ⟨x + 2 * n * (ub - lb), by rw [hn]; push_cast; ring, ?_⟩
    rw [hn] at m1 m2
    constructor
    · have : (lb : ℝ) ≤ ((x + 2 * n * (ub - lb) : ℤ) : ℝ) := by push_cast; linarith
      exact_mod_cast this
    · have : ((x + 2 * n * (ub - lb) : ℤ) : ℝ) ≤ ub := by push_cast; linarith
      exact_mod_cast this
  · refine ⟨2 * lb - x + 2 * n * (ub - lb), by rw [hn]; push_cast; ring, ?_⟩
    rw [hn] at m1 m2
    constructor
    · have : (lb : ℝ) ≤ ((2 * lb - x + 2 * n * (ub - lb) : ℤ) : ℝ) := by push_cast; linarith
      exact_mod_cast this
    · have : ((2 * lb - x + 2 * n * (ub - lb) : ℤ) : ℝ) ≤ ub := by push_cast; linarith
      exact_mod_cast this

theorem round_stays {v : RealVar} {x : ℝ} (h : v.contains x) : v.contains (v.round x) := by
  unfold RealVar.round
  cases v.precision with
  | none => exact h
  | some p => exact clip_mem (h.1.trans h.2) _

theorem mutateVal_contains (n : MNoise) (j : ℕ) {k : Kind} {v : Val} (hk : ProperBounds k) (h : k.contains v) :
    k.contains (mutateVal n j k v) := by
  have hlev : ∀ (l : Lvl) (L : List Lvl), l ∈ L → ((n.cat j).bind (fun i => L[i]?)).getD l ∈ L := by
    intro l L hl
    cases hc : (n.cat j).bind (fun i => L[i]?) with
    | none => simpa using hl
    | some l' =>
      rw [Option.bind_eq_some_iff] at hc
      obtain ⟨i, -, hi⟩ := hc
      simpa using List.mem_of_getElem? hi
  cases k with
  | real rv =>
    cases v with
    | real x =>
      simp only [mutateVal, Kind.contains]
      exact round_stays (reflect_mem hk _)
    | int z => exact h.elim
    | lvl l => exact h.elim
  | integer iv =>
    cases v with
    | int z =>
      obtain ⟨hlt, ⟨l, hl⟩, ⟨u, hu⟩⟩ := hk
      have hlu : l < u := by rw [hl, hu] at hlt; exact_mod_cast hlt
      obtain ⟨w, hw, h1, h2⟩ := reflect_int hlu (z + n.int j)
      simp only [mutateVal, Kind.contains, IntVar.contains]
      rw [hl, hu, hw, trunc_intCast]
      exact ⟨by exact_mod_cast h1, by exact_mod_cast h2⟩
    | real x => exact h.elim
    | lvl l => exact h.elim
  | ordinal L =>
    cases v with
    | lvl l => exact hlev l L h
    | real x => exact h.elim
    | int z => exact h.elim
  | discrete L =>
    cases v with
    | lvl l => exact hlev l L h
    | real x => exact h.elim
    | int z => exact h.elim
  | bool =>
    cases v with
    | lvl l => exact hlev l _ h
    | real x => exact h.elim
    | int z => exact h.elim
  | subset b =>
    cases v with
    | lvl l => exact hlev l _ h
    | real x => exact h.elim
    | int z => exact h.elim

theorem mutateRow_point (n : MNoise) {ks : List Kind} {r : Row} (hk : ∀ k ∈ ks, ProperBounds k) (h : PointOf ks r) :
    PointOf ks (mutateRow ks n r) := by
  refine ⟨by simp [mutateRow, h.1], ?_⟩
  intro j k v hj hv
  simp only [mutateRow, List.getElem?_mapIdx, Option.map_eq_some_iff] at hv
  obtain ⟨⟨k', w⟩, h1, rfl⟩ := hv
  rw [List.getElem?_zip_eq_some] at h1
  rw [hj] at h1
  obtain ⟨e, hw⟩ := h1
  obtain rfl := Option.some.inj e
  exact mutateVal_contains n j (hk k (List.mem_of_getElem? hj)) (h.2 j k w hj hw)

theorem recombineRow_point (n : MNoise) {ks : List Kind} {a b : Row} (ha : PointOf ks a) (hb : PointOf ks b) :
    PointOf ks (recombineRow n a b) := by
  unfold recombineRow
  split
  · exact ha
  · refine ⟨by simp [ha.1, hb.1], ?_⟩
    intro j k v hj hv
    simp only [List.getElem?_mapIdx, Option.map_eq_some_iff] at hv
    obtain ⟨⟨x, y⟩, h1, rfl⟩ := hv
    rw [List.getElem?_zip_eq_some] at h1
    split
    · exact hb.2 j k y hj h1.2
    · exact ha.2 j k x hj h1.1

theorem not_better_iff (m : Bool) (a b : K) : betterThan m a b = false ↔ AtLeastAsGood m b a := by
  cases m <;> simp [betterThan, AtLeastAsGood]

theorem good_of_better {m : Bool} {a b : K} (h : betterThan m a b = true) : AtLeastAsGood m a b := by
  cases m <;> simp [betterThan, AtLeastAsGood] at * <;> exact h.le

theorem good_refl (m : Bool) (a : K) : AtLeastAsGood m a a := by cases m <;> simp [AtLeastAsGood]

theorem good_trans {m : Bool} {a b c : K} (h1 : AtLeastAsGood m a b) (h2 : AtLeastAsGood m b c) :
    AtLeastAsGood m a c := by
  cases m <;> simp [AtLeastAsGood] at *
  · exact h2.trans h1
  · exact h1.trans h2

theorem firstBest_spec (m : Bool) (l : List (Row × K)) (hne : l ≠ []) :
    ∃ e, firstBest m l = some e ∧ e ∈ l ∧ ∀ e' ∈ l, AtLeastAsGood m e.2 e'.2 := by
  induction l with
  | nil => exact absurd rfl hne
  | cons e l ih =>
    by_cases hl : l = []
    · subst hl
      exact ⟨e, rfl, by simp, by simp [good_refl]⟩
    · obtain ⟨e', h1, h2, h3⟩ := ih hl
      unfold firstBest
      rw [h1]
      by_cases hb : betterThan m e'.2 e.2 = true
      · refine ⟨e', by simp [hb], by simp [h2], ?_⟩
        intro f hf
        rcases List.mem_cons.mp hf with rfl | hf
        · exact good_of_better hb
        · exact h3 f hf
      · refine ⟨e, by simp [hb], by simp, ?_⟩
        have hb' := (not_better_iff m _ _).mp (by simpa using hb)
        intro f hf
        rcases List.mem_cons.mp hf with rfl | hf
        · exact good_refl _ _
        · exact good_trans hb' (h3 f hf)

theorem filterMap_getElem {α : Type*} (l : List α) (idx : List ℕ) (h : ∀ i ∈ idx, i < l.length) :
    (idx.filterMap (fun i => l[i]?)).length = idx.length ∧
    (∀ i rest, idx = i :: rest → (idx.filterMap (fun i => l[i]?)).head? = l[i]?) := by
  induction idx with
  | nil => simp
  | cons i idx ih =>
    obtain ⟨h1, -⟩ := ih (fun j hj => h j (List.mem_cons_of_mem _ hj))
    have hi := h i (List.mem_cons_self ..)
    have hg : l[i]? = some l[i] := List.getElem?_eq_getElem hi
    constructor
    · simp [hg, h1]
    · intro j rest hjr
      obtain ⟨rfl, rfl⟩ := List.cons.inj hjr
      simp [hg]

theorem select_spec (cfg : MiesCfg K) (hs : SortsValues cfg.argsort) (pop off : List (Row × K)) (hmu : 1 ≤ cfg.mu)
    (hlen : cfg.mu ≤ (if cfg.elitism then pop ++ off else off).length) :
    (miesSelect cfg pop off).length = cfg.mu ∧ (∀ e ∈ miesSelect cfg pop off, e ∈ pop ++ off) ∧
    ∃ c, (miesSelect cfg pop off).head? = some c ∧ ∀ e ∈ off, AtLeastAsGood cfg.minimize c.2 e.2 := by
  obtain ⟨hp, hpw⟩ := hs ((if cfg.elitism then pop ++ off else off).map Prod.snd)
  set all := (if cfg.elitism then pop ++ off else off) with hall
  have hsub : ∀ e ∈ all, e ∈ pop ++ off := by
    intro e he
    rw [hall] at he
    split at he
    · exact he
    · exact List.mem_append_right _ he
  have hoff : ∀ e ∈ off, e ∈ all := by
    intro e he
    rw [hall]
    split
    · exact List.mem_append_right _ he
    · exact he
  -- the rank, best first
  obtain ⟨rank, hrank, hperm, hgood⟩ : ∃ rank,
      rank = (if cfg.minimize then cfg.argsort (all.map Prod.snd) else (cfg.argsort (all.map Prod.snd)).reverse) ∧
      rank.Perm (List.range all.length) ∧
      rank.Pairwise (fun i j => ∀ a b, all[i]? = some a → all[j]? = some b → AtLeastAsGood cfg.minimize a.2 b.2) := by
    refine ⟨_, rfl, ?_, ?_⟩
    · split
      · simpa using hp
      · exact (List.reverse_perm _).trans (by simpa using hp)
    · cases hm : cfg.minimize with
      | true =>
        simp only [if_true]
        refine hpw.imp ?_
        intro i j h a b ha hb
        exact h a.2 b.2 (by simp [ha]) (by simp [hb])
      | false =>
        simp only [Bool.false_eq_true, if_false]
        rw [List.pairwise_reverse]
        refine hpw.imp ?_
        intro i j h a b ha hb
        exact h b.2 a.2 (by simp [hb]) (by simp [ha])
  have hsel : miesSelect cfg pop off = (rank.take cfg.mu).filterMap (fun i => all[i]?) := by
    unfold miesSelect
    simp only [← hall, hrank]
  have hin : ∀ i ∈ rank, i < all.length := fun i hi => by
    have := hperm.subset hi
    simpa using this
  have hrl : rank.length = all.length := by simpa using hperm.length_eq
  rw [hsel]
  obtain ⟨f1, f2⟩ := filterMap_getElem all (rank.take cfg.mu) (fun i hi => hin i (List.mem_of_mem_take hi))
  refine ⟨?_, ?_, ?_⟩
  · rw [f1, List.length_take, hrl]
    omega
  · intro e he
    rw [List.mem_filterMap] at he
    obtain ⟨i, -, hi⟩ := he
    exact hsub e (List.mem_of_getElem? hi)
  · cases hr : rank with
    | nil => rw [hr] at hrl; simp at hrl; omega
    | cons i rest =>
      have ht : rank.take cfg.mu = i :: rest.take (cfg.mu - 1) := by
        rw [hr]
        cases hmu' : cfg.mu with
        | zero => omega
        | succ m => simp
      have hi : i < all.length := hin i (by rw [hr]; simp)
      refine ⟨all[i], ?_, ?_⟩
      · rw [← hr, f2 i _ ht, List.getElem?_eq_getElem hi]
      · intro e he
        obtain ⟨j, hj⟩ := List.mem_iff_getElem?.mp (hoff e he)
        have hjr : j ∈ rank := by
          rw [hperm.mem_iff, List.mem_range]
          exact (List.getElem?_eq_some_iff.mp hj).1
        rw [hr] at hjr hgood
        rcases List.mem_cons.mp hjr with rfl | hjr
        · rw [List.getElem?_eq_getElem hi] at hj
          rw [Option.some.inj hj]
          exact good_refl _ _
        · exact (List.pairwise_cons.mp hgood).1 j hjr _ _ (List.getElem?_eq_getElem hi) hj

/-- The invariant of the loop. -/
structure MiesInv (cfg : MiesCfg K) (s : MiesState K) : Prop where
  pop_len : s.pop.length = cfg.mu
  pop_sub : ∀ e ∈ s.pop, e ∈ s.evaluated
  valid : ∀ e ∈ s.evaluated, PointOf cfg.kinds e.1
  mem : (s.xopt, s.fopt) ∈ s.evaluated
  best : ∀ e ∈ s.evaluated, AtLeastAsGood cfg.minimize s.fopt e.2
  count : s.evalCount = s.evaluated.length
  formula : s.evalCount = cfg.mu + cfg.lam * s.iterCount

theorem mapM_offspring (cfg : MiesCfg K) (pop : List (Row × K)) (noise : ℕ → MNoise) (hk : ∀ k ∈ cfg.kinds, ProperBounds k)
    (hpop : ∀ e ∈ pop, PointOf cfg.kinds e.1)
    (hn : ∀ i, (noise i).p1 < pop.length ∧ (noise i).p2 < pop.length) (l : List ℕ) :
    ∃ rows, l.mapM (fun i => miesOffspring cfg pop (noise i)) = some rows ∧ rows.length = l.length ∧
      ∀ r ∈ rows, PointOf cfg.kinds r := by
  induction l with
  | nil => exact ⟨[], rfl, rfl, by simp⟩
  | cons i l ih =>
    obtain ⟨rows, h1, h2, h3⟩ := ih
    obtain ⟨n1, n2⟩ := hn i
    have hoff : miesOffspring cfg pop (noise i) =
        some (mutateRow cfg.kinds (noise i) (recombineRow (noise i) pop[(noise i).p1].1 pop[(noise i).p2].1)) := by
      unfold miesOffspring
      rw [List.getElem?_eq_getElem n1, List.getElem?_eq_getElem n2]
      rfl
    refine ⟨mutateRow cfg.kinds (noise i) (recombineRow (noise i) pop[(noise i).p1].1 pop[(noise i).p2].1) :: rows,
      ?_, by simp [h2], ?_⟩
    · rw [List.mapM_cons, hoff, h1]
      rfl
    · intro r hr
      rcases List.mem_cons.mp hr with rfl | hr
      · exact mutateRow_point _ hk (recombineRow_point _ (hpop _ (List.getElem_mem n1)) (hpop _ (List.getElem_mem n2)))
      · exact h3 r hr

theorem mies_step_inv (cfg : MiesCfg K) (hs : SortsValues cfg.argsort) (hk : ∀ k ∈ cfg.kinds, ProperBounds k)
    (hmu : 1 ≤ cfg.mu) (hlam : cfg.mu ≤ cfg.lam ∨ cfg.elitism = true) (s : MiesState K) (hi : MiesInv cfg s)
    (noise : ℕ → MNoise) (hn : ∀ i, (noise i).p1 < cfg.mu ∧ (noise i).p2 < cfg.mu) :
    ∃ s', miesStep cfg s noise = some s' ∧ MiesInv cfg s' ∧ s'.iterCount = s.iterCount + 1 ∧
      AtLeastAsGood cfg.minimize s'.fopt s.fopt ∧ (∃ new, s'.evaluated = s.evaluated ++ new) := by
  obtain ⟨rows, h1, h2, h3⟩ := mapM_offspring cfg s.pop noise hk (fun e he => hi.valid e (hi.pop_sub e he))
    (by rw [hi.pop_len]; exact hn) (List.range cfg.lam)
  rw [List.length_range] at h2
  set off := rows.map (fun r => (r, cfg.fit s.iterCount r)) with hoff
  have hofflen : off.length = cfg.lam := by rw [hoff, List.length_map, h2]
  obtain ⟨l1, l2, c, l3, l4⟩ := select_spec cfg hs s.pop off hmu (by
    split
    · rw [List.length_append, hi.pop_len]; omega
    · rename_i he
      rcases hlam with h | h
      · omega
      · exact absurd h he)
  refine ⟨_, by unfold miesStep; rw [h1, Option.bind_some]; simp only [← hoff, l3, Option.map_some]; rfl, ?_, rfl, ?_,
    off, rfl⟩
  · have hcmem : c ∈ s.pop ++ off := l2 c (List.mem_of_mem_head? l3)
    constructor
    · exact l1
    · intro e he
      rcases List.mem_append.mp (l2 e he) with h | h
      · exact List.mem_append_left _ (hi.pop_sub e h)
      · exact List.mem_append_right _ h
    · intro e he
      rcases List.mem_append.mp he with h | h
      · exact hi.valid e h
      · rw [hoff, List.mem_map] at h
        obtain ⟨r, hr, rfl⟩ := h
        exact h3 r hr
    · simp only
      split
      · rcases List.mem_append.mp hcmem with h | h
        · exact List.mem_append_left _ (hi.pop_sub _ h)
        · exact List.mem_append_right _ h
      · exact List.mem_append_left _ hi.mem
    · intro e he
      simp only
      by_cases hb : betterThan cfg.minimize c.2 s.fopt = true
      · rw [if_pos hb]
        rcases List.mem_append.mp he with h | h
        · exact good_trans (good_of_better hb) (hi.best e h)
        · exact l4 e h
      · rw [if_neg hb]
        have hb' := (not_better_iff cfg.minimize c.2 s.fopt).mp (by simpa using hb)
        rcases List.mem_append.mp he with h | h
        · exact hi.best e h
        · exact good_trans hb' (l4 e h)
    · simp [hi.count, hofflen, h2]
    · simp only [hi.formula, h2]
      ring
  · simp only
    split
    · rename_i hb; exact good_of_better hb
    · exact good_refl _ _

theorem mies_init_inv (cfg : MiesCfg K) (sample : List Row) (hmu : 1 ≤ cfg.mu) (hl : sample.length = cfg.mu)
    (hv : ∀ r ∈ sample, PointOf cfg.kinds r) : ∃ s, miesInit cfg sample = some s ∧ MiesInv cfg s ∧ s.iterCount = 0 := by
  obtain ⟨e, h1, h2, h3⟩ := firstBest_spec cfg.minimize (sample.map (fun r => (r, cfg.fit 0 r))) (by
    intro h
    have := congrArg List.length h
    simp at this
    rw [this] at hl
    simp at hl
    omega)
  refine ⟨_, by unfold miesInit; simp only [h1, Option.map_some]; rfl, ?_, rfl⟩
  constructor
  · simp [hl]
  · exact fun e he => he
  · intro e he
    simp only [List.mem_map] at he
    obtain ⟨r, hr, rfl⟩ := he
    exact hv r hr
  · exact h2
  · exact h3
  · simp
  · simp [hl]

end Verif.Proofs
