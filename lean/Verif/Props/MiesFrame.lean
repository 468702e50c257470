import Verif.Proofs.Mies
import Verif.Props.MiesFull
import Verif.Spec.MiesFrame

/-!
# C179: the mixed-integer evolution strategy does not depend on how the variables are described
-/
namespace Verif.Props

open Verif.Model Verif.Spec Verif.Proofs

variable {cs : List Recode} {ks ks' : List Kind}

private theorem reflect_affine {a : ℝ} (ha : 0 < a) (b lo hi x : ℝ) : reflect (a * lo + b) (a * hi + b) (a * x + b) = a * reflect lo hi x + b := by
  have e : (a * x + b - (a * lo + b)) / (a * hi + b - (a * lo + b)) = (x - lo) / (hi - lo) := by
    rw [show a * x + b - (a * lo + b) = a * (x - lo) by ring, show a * hi + b - (a * lo + b) = a * (hi - lo) by ring, mul_div_mul_left _ _ ha.ne']
  unfold reflect
  rw [e]
  dsimp only
  split_ifs <;> ring

private theorem code_at (h : SpaceRecoded cs ks ks') {j : ℕ} {k : Kind} (hk : ks[j]? = some k) :
    ∃ c k', cs[j]? = some c ∧ ks'[j]? = some k' ∧ c.Relates k k' := by
  have hj : j < ks.length := (List.getElem?_eq_some_iff.1 hk).1
  have h1 : cs[j]? = some (cs[j]'(h.codes ▸ hj)) := List.getElem?_eq_getElem _
  have h2 : ks'[j]? = some (ks'[j]'(h.kinds ▸ hj)) := List.getElem?_eq_getElem _
  exact ⟨_, _, h1, h2, h.relates _ _ _ _ h1 hk h2⟩

private theorem getD_of {j : ℕ} {c : Recode} (h : cs[j]? = some c) : cs.getD j (.level id) = c := by
  rw [List.getD_eq_getElem?_getD, h]; rfl

private theorem value_trivial (x : Val) : (Recode.level id).value x = x := by cases x <;> rfl

private theorem outside (h : SpaceRecoded cs ks ks') {j : ℕ} (hj : ks.length ≤ j) : cs.getD j (.level id) = .level id := by
  rw [List.getD_eq_getElem?_getD, List.getElem?_eq_none (h.codes ▸ hj)]; rfl

private theorem relates_type {c : Recode} {k k' : Kind} (h : c.Relates k k') :
    (k'.vtype = .real ↔ k.vtype = .real) ∧ (k'.vtype = .integer ↔ k.vtype = .integer) := by
  cases c <;> cases k <;> cases k' <;> simp_all [Recode.Relates, Kind.vtype]

private theorem count_type (h : SpaceRecoded cs ks ks') (p : VType → Bool)
    (hp : ∀ t t' : VType, (t' = .real ↔ t = .real) → (t' = .integer ↔ t = .integer) → p t' = p t) : countType p ks' = countType p ks := by
  have key : ks'.map (fun k => p k.vtype) = ks.map fun k => p k.vtype := by
    apply List.ext_getElem?
    intro j
    rw [List.getElem?_map, List.getElem?_map]
    rcases lt_or_ge j ks.length with hj | hj
    · obtain ⟨c, k', -, h2, h3⟩ := code_at h (List.getElem?_eq_getElem hj)
      rw [h2, List.getElem?_eq_getElem hj]
      exact congrArg some (hp _ _ (relates_type h3).1 (relates_type h3).2)
    · rw [List.getElem?_eq_none hj, List.getElem?_eq_none (h.kinds ▸ hj)]
  have e : ∀ l : List Kind, countType p l = (l.map fun k => p k.vtype).countP id := fun l => by
    unfold countType
    rw [List.countP_map, ← List.countP_eq_length_filter]
    rfl
  rw [e, e, key]

private theorem counts (h : SpaceRecoded cs ks ks') :
    countReal ks' = countReal ks ∧ countInteger ks' = countInteger ks ∧ countCategorical ks' = countCategorical ks := by
  refine ⟨count_type h _ fun t t' h1 h2 => ?_, count_type h _ fun t t' h1 h2 => ?_, count_type h _ fun t t' h1 h2 => ?_⟩
  · rw [Bool.eq_iff_iff]; simpa using h1
  · rw [Bool.eq_iff_iff]; simpa using h2
  · rw [Bool.eq_iff_iff]
    simp only [Bool.and_eq_true, bne_iff_ne, ne_eq]
    rw [h1, h2]

private theorem row_get (r : Row) (j : ℕ) : (recodeRow cs r)[j]? = r[j]?.map (cs.getD j (.level id)).value := by
  unfold recodeRow
  rw [List.getElem?_mapIdx]

private theorem zip_get {α β : Type*} (l : List α) (m : List β) (j : ℕ) : (l.zip m)[j]? = l[j]?.bind fun x => m[j]?.map fun y => (x, y) := by
  rw [List.zip, List.getElem?_zipWith]
  cases l[j]? <;> cases m[j]? <;> rfl

private theorem recombine_row (n n' : MNoise) (h1 : n'.p1 = n.p1) (h2 : n'.p2 = n.p2) (h3 : n'.mask = n.mask) (a b : Row) :
    recombineRow n' (recodeRow cs a) (recodeRow cs b) = recodeRow cs (recombineRow n a b) := by
  unfold recombineRow
  rw [h1, h2, h3]
  split_ifs
  · rfl
  · apply List.ext_getElem?
    intro j
    rw [row_get, List.getElem?_mapIdx, List.getElem?_mapIdx, zip_get, zip_get, row_get, row_get]
    cases a[j]? with
    | none => rfl
    | some x =>
      cases b[j]? with
      | none => rfl
      | some y =>
        simp only [Option.map_some, Option.bind_some]
        split_ifs <;> rfl

private theorem trunc_int (z : ℤ) : trunc (z : ℝ) = z := by
  unfold trunc; split_ifs <;> simp

/-- One mutated value. -/
private theorem mutate_value {c : Recode} {k k' : Kind} (hc : c.Relates k k') (n n' : MNoise) (j : ℕ) (x : Val)
    (hr : ∀ a b u, c = .real a b → x = .real u → n'.real j = a * n.real j + b) (hi : n'.int j = n.int j) (hcat : n'.cat j = n.cat j) :
    mutateVal n' j k' (c.value x) = c.value (mutateVal n j k x) := by
  cases c with
  | real a b =>
    cases k with
    | real v =>
      cases k' with
      | real v' =>
        obtain ⟨ha, h1, h2, h3, h4⟩ := hc
        cases x with
        | real u =>
          simp only [Recode.value, mutateVal, RealVar.round, h1, h2, h3, h4, hr a b u rfl rfl, reflect_affine ha]
        | int z => rfl
        | lvl l => simp [Recode.value, mutateVal, Kind.levels]
      | _ => exact hc.elim
    | _ => exact hc.elim
  | integer d =>
    cases k with
    | integer v =>
      cases k' with
      | integer v' =>
        obtain ⟨h1, h2, p, q, hpq, h3, h4⟩ := hc
        cases x with
        | real u => rfl
        | int z =>
          have e := reflect_affine one_pos (d : ℝ) (p : ℝ) (q : ℝ) ((z + n.int j : ℤ) : ℝ)
          simp only [one_mul] at e
          obtain ⟨w, hw, -⟩ := reflect_int hpq (z + n.int j)
          simp only [Recode.value, mutateVal, hi, h1, h2, h3, h4]
          rw [show ((z + d + n.int j : ℤ) : ℝ) = ((z + n.int j : ℤ) : ℝ) + d by push_cast; ring, e, hw,
            show ((w : ℝ) + d) = ((w + d : ℤ) : ℝ) by push_cast; ring, trunc_int, trunc_int]
        | lvl l => simp [Recode.value, mutateVal, Kind.levels]
      | _ => exact hc.elim
    | _ => exact hc.elim
  | level g =>
    obtain ⟨⟨h1, h2⟩, ⟨h3, h4⟩, h5⟩ := hc
    cases x with
    | real u => cases k <;> cases k' <;> simp_all [Recode.value, mutateVal, Kind.vtype]
    | int z => cases k <;> cases k' <;> simp_all [Recode.value, mutateVal, Kind.vtype]
    | lvl l =>
      have key : mutateVal n' j k' (.lvl (g l)) = .lvl (((n'.cat j).bind (fun i => k'.levels[i]?)).getD (g l)) := by cases k' <;> rfl
      have key' : mutateVal n j k (.lvl l) = .lvl (((n.cat j).bind (fun i => k.levels[i]?)).getD l) := by cases k <;> rfl
      simp only [Recode.value]
      rw [key, key', hcat, h5]
      congr 1
      cases n.cat j with
      | none => rfl
      | some i =>
        simp only [Option.bind_some, List.getElem?_map]
        cases k.levels[i]? <;> rfl

private theorem mutate_row (h : SpaceRecoded cs ks ks') (n : StrengthNoise) (a : Individual) :
    mutateRow ks' (proposalsOf ks' n (recodeInd cs a)) (recodeRow cs a.row) = recodeRow cs (mutateRow ks (proposalsOf ks n a) a.row) := by
  obtain ⟨hr, hi, hd⟩ := counts h
  apply List.ext_getElem?
  intro j
  rw [row_get]
  unfold mutateRow
  rw [List.getElem?_mapIdx, List.getElem?_mapIdx, zip_get, zip_get, row_get]
  rcases lt_or_ge j ks.length with hj | hj
  · obtain ⟨c, k', h1, h2, h3⟩ := code_at h (List.getElem?_eq_getElem hj)
    rw [h2, List.getElem?_eq_getElem hj, getD_of h1]
    cases hx : a.row[j]? with
    | none => rfl
    | some x =>
      simp only [Option.map_some, Option.bind_some]
      congr 1
      refine mutate_value h3 _ _ j x (fun u v w hc hw => ?_) rfl ?_
      · subst hc hw
        simp only [proposalsOf, realAt, recodeInd, row_get, hx, getD_of h1, Option.map_some, Recode.value, sigmaUsed, Recode.unit, hr]
        ring
      · have e : probUsed ks' n (recodeInd cs a) = probUsed ks n a := by simp only [probUsed, recodeInd, hd]
        simp only [proposalsOf, e]
  · rw [List.getElem?_eq_none hj, List.getElem?_eq_none (h.kinds ▸ hj)]
    rfl

private theorem mutate_length (n : MNoise) (r : Row) (j : ℕ) :
    (mutateRow ks n r)[j]? = ks[j]?.bind fun k => r[j]?.map fun x => mutateVal n j k x := by
  unfold mutateRow
  rw [List.getElem?_mapIdx, zip_get]
  cases ks[j]? with
  | none => rfl
  | some k => cases r[j]? <;> rfl

private theorem mutate_ind (h : SpaceRecoded cs ks ks') (n : StrengthNoise) (a : Individual) :
    mutateInd ks' n (recodeInd cs a) = recodeInd cs (mutateInd ks n a) := by
  obtain ⟨hr, hi, hd⟩ := counts h
  have hrow := mutate_row h n a
  have e1 : (mutateInd ks' n (recodeInd cs a)).row = (recodeInd cs (mutateInd ks n a)).row := hrow
  have e2 : (mutateInd ks' n (recodeInd cs a)).sigma = (recodeInd cs (mutateInd ks n a)).sigma := by
    funext j
    simp only [mutateInd]
    rw [show (recodeInd cs a).row = recodeRow cs a.row from rfl, hrow]
    simp only [recodeInd]
    rcases lt_or_ge j ks.length with hj | hj
    · obtain ⟨c, k', h1, h2, h3⟩ := code_at h (List.getElem?_eq_getElem hj)
      rw [getD_of h1]
      simp only [realAt, row_get, getD_of h1, mutate_length, List.getElem?_eq_getElem hj, Option.bind_some]
      cases hx : a.row[j]? with
      | none => simp
      | some x =>
        simp only [Option.map_some]
        generalize ks[j] = k at h3 ⊢
        cases c with
        | real u v =>
          cases k with
          | real w =>
            cases x with
            | real t =>
              have hu : 0 < u := by cases k' <;> first | exact h3.1 | exact h3.elim
              simp only [mutateVal, Recode.value, Recode.unit]
              rw [show ∀ p : ℝ, u * p + v - (u * t + v) = u * (p - t) from fun p => by ring, mul_div_assoc, abs_mul, abs_of_pos hu]
            | int z => simp [mutateVal, Recode.value]
            | lvl l => simp [mutateVal, Recode.value]
          | _ => cases k' <;> exact h3.elim
        | integer d =>
          cases k with
          | integer w => cases x <;> simp [mutateVal, Recode.value, Recode.unit]
          | _ => cases k' <;> exact h3.elim
        | level g =>
          obtain ⟨⟨g1, g2⟩, -⟩ := h3
          cases k <;> cases x <;> simp_all [mutateVal, Recode.value, Recode.unit, Kind.vtype]
    · rw [outside h hj]
      simp only [realAt, row_get, outside h hj, Recode.unit, one_mul]
      have e : ∀ o : Option Val, o.map (Recode.level id).value = o := fun o => by cases o <;> simp [value_trivial]
      rw [e, e]
  have e3 : (mutateInd ks' n (recodeInd cs a)).eta = (recodeInd cs (mutateInd ks n a)).eta := by
    funext j
    simp only [mutateInd, recodeInd, etaUsed, hi]
  have e4 : (mutateInd ks' n (recodeInd cs a)).prob = (recodeInd cs (mutateInd ks n a)).prob := by
    simp only [mutateInd, recodeInd, probUsed, hd]
  generalize mutateInd ks' n (recodeInd cs a) = p at e1 e2 e3 e4 ⊢
  generalize recodeInd cs (mutateInd ks n a) = q at e1 e2 e3 e4 ⊢
  cases p; cases q
  simp_all

private theorem recombine_ind (n : StrengthNoise) (a b : Individual) :
    recombineInd ks' n (recodeInd cs a) (recodeInd cs b) = recodeInd cs (recombineInd ks n a b) := by
  simp only [recombineInd, recodeInd]
  congr 1
  · exact recombine_row _ _ rfl rfl rfl _ _
  · funext j
    split_ifs <;> ring

private theorem start_ind (h : SpaceRecoded cs ks ks') (r : Row) : startInd ks' (recodeRow cs r) = recodeInd cs (startInd ks r) := by
  obtain ⟨hr, hi, hd⟩ := counts h
  simp only [startInd, recodeInd, hd]
  congr 1
  · funext j
    rcases lt_or_ge j ks.length with hj | hj
    · obtain ⟨c, k', h1, h2, h3⟩ := code_at h (List.getElem?_eq_getElem hj)
      rw [h2, List.getElem?_eq_getElem hj, getD_of h1]
      generalize ks[j] = k at h3 ⊢
      cases c <;> cases k <;> cases k' <;> simp_all [Recode.Relates, Recode.unit, Kind.vtype]
      ring
    · rw [List.getElem?_eq_none hj, List.getElem?_eq_none (h.kinds ▸ hj)]
      simp
  · funext j
    rcases lt_or_ge j ks.length with hj | hj
    · obtain ⟨c, k', h1, h2, h3⟩ := code_at h (List.getElem?_eq_getElem hj)
      rw [h2, List.getElem?_eq_getElem hj]
      generalize ks[j] = k at h3 ⊢
      cases c <;> cases k <;> cases k' <;> simp_all [Recode.Relates, Kind.vtype]
    · rw [List.getElem?_eq_none hj, List.getElem?_eq_none (h.kinds ▸ hj)]

private theorem bounds_recoded (h : SpaceRecoded cs ks ks') : (∀ k ∈ ks', boundsChecked k) ↔ ∀ k ∈ ks, boundsChecked k := by
  have one : ∀ {c : Recode} {k k' : Kind}, c.Relates k k' → (boundsChecked k' ↔ boundsChecked k) := by
    intro c k k' hc
    cases c <;> cases k <;> cases k' <;> simp_all [Recode.Relates, boundsChecked, Kind.vtype]
  constructor
  · intro H k hk
    obtain ⟨j, hj, rfl⟩ := List.getElem_of_mem hk
    obtain ⟨c, k', h1, h2, h3⟩ := code_at h (List.getElem?_eq_getElem hj)
    exact (one h3).1 (H _ (List.mem_of_getElem? h2))
  · intro H k' hk'
    obtain ⟨j, hj, rfl⟩ := List.getElem_of_mem hk'
    have hj' : j < ks.length := h.kinds ▸ hj
    obtain ⟨c, k'', h1, h2, h3⟩ := code_at h (List.getElem?_eq_getElem hj')
    rw [List.getElem?_eq_getElem hj] at h2
    rw [Option.some.inj h2]
    exact (one h3).2 (H _ (List.getElem_mem hj'))

/-! ### The program -/

variable {cfg : MiesCfg ℝ} {fit' : ℕ → Row → ℝ}

private abbrev inTerms (cfg : MiesCfg ℝ) (ks' : List Kind) (fit' : ℕ → Row → ℝ) : MiesCfg ℝ := { cfg with kinds := ks', fit := fit' }

private theorem best_recoded (m : Bool) (l : List (Row × ℝ)) :
    firstBest m (l.map fun e => (recodeRow cs e.1, e.2)) = (firstBest m l).map fun e => (recodeRow cs e.1, e.2) := by
  induction l with
  | nil => rfl
  | cons e l ih =>
    simp only [List.map_cons, firstBest]
    rw [ih]
    cases firstBest m l with
    | none => rfl
    | some e' =>
      simp only [Option.map_some]
      split_ifs <;> rfl

private theorem init_recoded (h : SpaceRecoded cs cfg.kinds ks') (hfit : ∀ t r, fit' t (recodeRow cs r) = cfg.fit t r) (sample : List Row) :
    miesFullInit (inTerms cfg ks' fit') (sample.map (recodeRow cs)) = (miesFullInit cfg sample).map (recodeState cs) := by
  unfold miesFullInit strengthInit
  by_cases hb : ∀ k ∈ cfg.kinds, boundsChecked k
  · rw [if_pos hb, if_pos ((bounds_recoded h).2 hb)]
    simp only [Option.bind_some, List.map_map, Function.comp_def, hfit]
    have e1 := best_recoded (cs := cs) cfg.minimize (sample.map fun r => (r, cfg.fit 0 r))
    simp only [List.map_map, Function.comp_def] at e1
    simp only [startInd] at *
    rw [e1]
    cases firstBest cfg.minimize (sample.map fun r => (r, cfg.fit 0 r)) with
    | none => rfl
    | some e =>
      simp only [Option.map_some, recodeState, List.map_map, Function.comp_def, List.length_map]
      have e2 := fun r => start_ind h r
      simp only [startInd] at e2
      simp only [e2]
  · rw [if_neg hb, if_neg (fun H => hb ((bounds_recoded h).1 H))]
    rfl

open Classical in
private theorem stop_recoded (h : SpaceRecoded cs cfg.kinds ks') (s : MiesFullState) :
    miesFullStop (inTerms cfg ks' fit') (recodeState cs s) = (miesFullStop cfg s).map (recodeState cs) := by
  have e : historyLength (inTerms cfg ks' fit') = historyLength cfg := by
    unfold historyLength; rw [show (inTerms cfg ks' fit').kinds = ks' from rfl, h.kinds]
  have e1 : ∀ n, historySlot (inTerms cfg ks' fit') n = historySlot cfg n := fun n => by unfold historySlot; rw [e]
  have e2 : ∀ g, historyFlat (inTerms cfg ks' fit') g ↔ historyFlat cfg g := fun g => by unfold historyFlat; rw [e]
  unfold miesFullStop
  rw [show (recodeState cs s).evalCount = s.evalCount from rfl, show (recodeState cs s).core.iterCount = s.core.iterCount from rfl,
    show (recodeState cs s).fOff = s.fOff from rfl, show comparedPosition (inTerms cfg ks' fit') = comparedPosition cfg from rfl]
  by_cases hc : s.evalCount ≠ 0 ∧ s.core.iterCount ≠ 0
  · rw [if_pos hc, if_pos hc]
    cases s.fOff[0]? with
    | none => rfl
    | some f0 =>
      simp only [Option.bind_some]
      cases s.fOff[comparedPosition cfg]? with
      | none => rfl
      | some fk =>
        dsimp only [Option.map_some, recodeState]
        rw [Option.some.injEq, MiesFullState.mk.injEq]
        refine ⟨rfl, rfl, rfl, rfl, by rw [e1], rfl, rfl, ?_, rfl, rfl⟩
        refine congrArg (s.flagTol || ·) ?_
        refine Bool.eq_iff_iff.2 ((decide_eq_true_iff).trans (Iff.trans ?_ decide_eq_true_iff.symm))
        exact and_congr (by rw [e]) ((e2 _).trans (by rw [e1]))
  · rw [if_neg hc, if_neg hc]
    rfl

private theorem mapM_map_eq {α β γ : Type*} (f : α → Option β) (g : α → Option γ) (φ : β → γ) (h : ∀ a, g a = (f a).map φ) (l : List α) :
    l.mapM g = (l.mapM f).map (List.map φ) := by
  induction l with
  | nil => rfl
  | cons a l ih =>
    rw [List.mapM_cons, List.mapM_cons, ih, h a]
    cases f a with
    | none => rfl
    | some b =>
      cases l.mapM f with
      | none => rfl
      | some bs => rfl

private theorem offspring_recoded (h : SpaceRecoded cs cfg.kinds ks') (pop : List (Individual × ℝ)) (n : StrengthNoise) :
    strengthOffspring (inTerms cfg ks' fit') (pop.map fun e => (recodeInd cs e.1, e.2)) n = (strengthOffspring cfg pop n).map (recodeInd cs) := by
  unfold strengthOffspring
  rw [List.getElem?_map, List.getElem?_map]
  cases pop[n.p1]? with
  | none => rfl
  | some a =>
    cases pop[n.p2]? with
    | none => rfl
    | some b =>
      simp only [Option.map_some, Option.bind_some]
      rw [recombine_ind (ks := cfg.kinds), mutate_ind h]

private theorem select_recoded (pop off : List (Individual × ℝ)) :
    strengthSelect (inTerms cfg ks' fit') (pop.map fun e => (recodeInd cs e.1, e.2)) (off.map fun e => (recodeInd cs e.1, e.2)) =
      (strengthSelect cfg pop off).map fun e => (recodeInd cs e.1, e.2) := by
  unfold strengthSelect
  dsimp only
  have hall : (if cfg.elitism then pop.map (fun e => (recodeInd cs e.1, e.2)) ++ off.map (fun e => (recodeInd cs e.1, e.2))
      else off.map fun e => (recodeInd cs e.1, e.2)) = (if cfg.elitism then pop ++ off else off).map fun e => (recodeInd cs e.1, e.2) := by
    split_ifs <;> simp
  rw [hall]
  generalize (if cfg.elitism then pop ++ off else off) = all
  have hk : (all.map fun e => (recodeInd cs e.1, e.2)).map Prod.snd = all.map Prod.snd := by simp [Function.comp_def]
  rw [hk, List.map_filterMap]
  congr 1
  funext i
  rw [List.getElem?_map]

private theorem step_recoded (h : SpaceRecoded cs cfg.kinds ks') (hfit : ∀ t r, fit' t (recodeRow cs r) = cfg.fit t r) (s : MiesFullState)
    (n : ℕ → StrengthNoise) : miesFullStep (inTerms cfg ks' fit') (recodeState cs s) n = (miesFullStep cfg s n).map (recodeState cs) := by
  unfold miesFullStep
  have e1 := mapM_map_eq (fun i => strengthOffspring cfg s.core.pop (n i))
    (fun i => strengthOffspring (inTerms cfg ks' fit') (recodeState cs s).core.pop (n i)) (recodeInd cs)
    (fun i => offspring_recoded h _ _) (List.range cfg.lam)
  rw [show (inTerms cfg ks' fit').lam = cfg.lam from rfl, e1]
  cases (List.range cfg.lam).mapM fun i => strengthOffspring cfg s.core.pop (n i) with
  | none => rfl
  | some inds =>
    simp only [Option.map_some, Option.bind_some]
    have e2 : ((inds.map (recodeInd cs)).map fun a => (a, (inTerms cfg ks' fit').fit (recodeState cs s).core.iterCount a.row)) =
        (inds.map fun a => (a, cfg.fit s.core.iterCount a.row)).map fun e => (recodeInd cs e.1, e.2) := by
      rw [List.map_map, List.map_map]
      refine List.map_congr_left fun a _ => ?_
      exact congrArg (Prod.mk _) (hfit s.core.iterCount a.row)
    rw [e2, show (recodeState cs s).core.pop = s.core.pop.map fun e => (recodeInd cs e.1, e.2) from rfl, select_recoded]
    rw [List.head?_map]
    cases (strengthSelect cfg s.core.pop (inds.map fun a => (a, cfg.fit s.core.iterCount a.row))).head? with
    | none => rfl
    | some c =>
      simp only [Option.map_some, recodeState, List.map_append, List.map_map, Function.comp_def, List.length_map]
      congr 2
      simp only [recodeInd]
      exact (apply_ite (recodeRow cs) _ _ _).symm

private theorem pass_recoded (h : SpaceRecoded cs cfg.kinds ks') (hfit : ∀ t r, fit' t (recodeRow cs r) = cfg.fit t r) (s : MiesFullState)
    (noise : ℕ → ℕ → StrengthNoise) :
    miesFullPass (inTerms cfg ks' fit') noise (recodeState cs s) = (miesFullPass cfg noise s).map (recodeState cs) := by
  unfold miesFullPass
  rw [show (recodeState cs s).stopped = s.stopped from rfl]
  by_cases hs : s.stopped
  · rw [if_pos hs, if_pos hs]; rfl
  · rw [if_neg hs, if_neg hs, stop_recoded h]
    cases miesFullStop cfg s with
    | none => rfl
    | some s' =>
      simp only [Option.map_some, Option.bind_some]
      rw [show (recodeState cs s').flagEval = s'.flagEval from rfl, show (recodeState cs s').flagTol = s'.flagTol from rfl,
        show (recodeState cs s').flagFlat = s'.flagFlat from rfl]
      by_cases hf : (s'.flagEval || s'.flagTol || s'.flagFlat) = true
      · rw [if_pos hf, if_pos hf]; rfl
      · rw [if_neg hf, if_neg hf]
        exact step_recoded h hfit s' _

/-- **C179.**  Describe the space in other terms: real variables (without precision) in other units and from other origins, integer variables (with whole bounds)
from other origins, levels of categorical variables under other names; start from the same points and use the same random numbers.  Then the evolution strategy
evaluates the same points in the new terms, in the same order, ends in the same pass, reports the same point and raises in the same pass, whatever the objective. -/
theorem c179_same_search (h : SpaceRecoded cs cfg.kinds ks') (hfit : ∀ t r, fit' t (recodeRow cs r) = cfg.fit t r) (sample : List Row)
    (noise : ℕ → ℕ → StrengthNoise) (t : ℕ) :
    miesFullRun { cfg with kinds := ks', fit := fit' } (sample.map (recodeRow cs)) noise t = (miesFullRun cfg sample noise t).map (recodeState cs) := by
  induction t with
  | zero => exact init_recoded h hfit sample
  | succ t ih =>
    unfold miesFullRun
    rw [ih]
    cases miesFullRun cfg sample noise t with
    | none => rfl
    | some s => exact pass_recoded h hfit s noise

/-! ### A concrete case -/

/-- A temperature, a number of layers and a kind of material. -/
noncomputable def oven : List Kind := [.real { lo := 0, hi := 100 }, .integer { lo := 1, hi := 4 }, .discrete threeLevels]

/-- The same with the temperature in degrees Fahrenheit, the layers counted from 0 and numbered materials. -/
noncomputable def ovenAbroad : List Kind :=
  [.real { lo := 32, hi := 212 }, .integer { lo := 0, hi := 3 }, .discrete [.one (.int 1), .one (.int 2), .one (.int 3)]]

/-- `a`, `b`, `c` are the numbers 1, 2, 3. -/
def materialNumber : Lvl → Lvl
  | .one (.str s) => if s = "a" then .one (.int 1) else if s = "b" then .one (.int 2) else .one (.int 3)
  | l => l

/-- The recoding of the three variables. -/
noncomputable def ovenCodes : List Recode := [.real (9 / 5) 32, .integer (-1), .level materialNumber]

/-- The hypotheses of C179 are met. -/
theorem oven_recoded : SpaceRecoded ovenCodes oven ovenAbroad := by
  refine ⟨rfl, rfl, fun j c k k' h1 h2 h3 => ?_⟩
  match j with
  | 0 =>
    obtain rfl := Option.some.inj h1; obtain rfl := Option.some.inj h2; obtain rfl := Option.some.inj h3
    norm_num [Recode.Relates]
  | 1 =>
    obtain rfl := Option.some.inj h1; obtain rfl := Option.some.inj h2; obtain rfl := Option.some.inj h3
    exact ⟨by norm_num, by norm_num, 1, 4, by norm_num, by norm_num, by norm_num⟩
  | 2 =>
    obtain rfl := Option.some.inj h1; obtain rfl := Option.some.inj h2; obtain rfl := Option.some.inj h3
    refine ⟨by simp [Kind.vtype], by simp [Kind.vtype], ?_⟩
    decide +kernel
  | j + 3 => simp [ovenCodes] at h1

/-- A run from the point (20 °C, 2 layers, material b) evaluates (68 °F, 1, material 2) first in the other terms. -/
example : recodeRow ovenCodes [.real 20, .int 2, .lvl (.one (.str "b"))] = [.real 68, .int 1, .lvl (.one (.int 2))] := by
  have h : materialNumber (.one (.str "b")) = .one (.int 2) := by decide +kernel
  simp [recodeRow, ovenCodes, Recode.value, h]
  norm_num

/-! ### Where it fails -/

private noncomputable def fracCfg (lo hi : ℝ) : MiesCfg ℝ :=
  { kinds := [.integer { lo := lo, hi := hi }], minimize := true, elitism := false, mu := 1, lam := 1, maxEval := 10, fit := fun _ _ => 0, argsort := fun _ => [0] }

private noncomputable def fracNoise : StrengthNoise :=
  ⟨0, 0, fun _ => false, 0, fun _ => 0, fun _ => 1, 0, fun _ => 0, fun _ => 2, fun _ => 1, 0, fun _ => 0, fun _ => 0⟩

private theorem frac_run {lo hi : ℝ} (h : lo < hi) (z : ℤ) : (miesFullRun (fracCfg lo hi) [[.int z]] (fun _ _ => fracNoise) 1).map (fun s => s.core.evaluated.map Prod.fst) =
    some [[.int z], [.int (trunc (reflect lo hi ((z + 1 : ℤ) : ℝ)))]] := by
  have hb : ∀ k ∈ (fracCfg lo hi).kinds, boundsChecked k := by
    intro k hk
    obtain rfl : k = .integer { lo := lo, hi := hi } := by simpa [fracCfg] using hk
    exact h
  simp only [miesFullRun, miesFullInit, strengthInit, if_pos hb]
  simp [firstBest, miesFullPass, miesFullStop, miesFullStep, fracCfg, strengthOffspring, strengthSelect, mutateInd, recombineInd, mutateRow, recombineRow, mutateVal,
    proposalsOf, fracNoise, startInd]

/-- **C179, refuted for fractional bounds.**  With the bounds 0.3 and 2.3 of an integer variable counted from another origin the strategy evaluates other points: a proposal beyond
the bounds is reflected to a fraction, and the fraction is cut off towards zero. -/
theorem c179_fails_fractional : ∃ (cs : List Recode) (cfg cfg' : MiesCfg ℝ) (v v' : IntVar) (d : ℤ) (r : Row) (noise : ℕ → ℕ → StrengthNoise),
    cs = [.integer d] ∧ cfg.kinds = [.integer v] ∧ v.lo < v.hi ∧ v'.lo = v.lo + d ∧ v'.hi = v.hi + d ∧ cfg' = { cfg with kinds := [.integer v'] } ∧
      (∀ t r, cfg.fit t (recodeRow cs r) = cfg.fit t r) ∧
      ∃ s s', miesFullRun cfg [r] noise 1 = some s ∧ miesFullRun cfg' [recodeRow cs r] noise 1 = some s' ∧
        s.core.evaluated.map (fun e => recodeRow cs e.1) = [recodeRow cs r, [.int (-4)]] ∧ s'.core.evaluated.map Prod.fst = [recodeRow cs r, [.int (-3)]] := by
  have h1 := frac_run (show (3 / 10 : ℝ) < 23 / 10 by norm_num) 2
  have h2 := frac_run (show (-47 / 10 : ℝ) < -27 / 10 by norm_num) (-3)
  obtain ⟨s, hs, hs'⟩ := Option.map_eq_some_iff.1 h1
  obtain ⟨s2, hs2, hs2'⟩ := Option.map_eq_some_iff.1 h2
  have r1 : trunc (reflect (3 / 10) (23 / 10) ((2 + 1 : ℤ) : ℝ)) = 1 := by
    have e : reflect (3 / 10) (23 / 10) ((2 + 1 : ℤ) : ℝ) = 8 / 5 := by
      have f : ⌊(27 / 20 : ℝ)⌋ = 1 := by rw [Int.floor_eq_iff]; norm_num
      unfold reflect
      norm_num [f]
    rw [e]
    unfold trunc
    rw [if_pos (by norm_num), Int.floor_eq_iff]; norm_num
  have r2 : trunc (reflect (-47 / 10) (-27 / 10) ((-3 + 1 : ℤ) : ℝ)) = -3 := by
    have e : reflect (-47 / 10) (-27 / 10) ((-3 + 1 : ℤ) : ℝ) = -17 / 5 := by
      have f : ⌊(27 / 20 : ℝ)⌋ = 1 := by rw [Int.floor_eq_iff]; norm_num
      unfold reflect
      norm_num [f]
    rw [e]
    unfold trunc
    rw [if_neg (by norm_num), Int.ceil_eq_iff]; norm_num
  refine ⟨[.integer (-5)], fracCfg (3 / 10) (23 / 10), fracCfg (-47 / 10) (-27 / 10), { lo := 3 / 10, hi := 23 / 10 }, { lo := -47 / 10, hi := -27 / 10 }, -5, [.int 2],
    fun _ _ => fracNoise, rfl, rfl, by norm_num, by norm_num, by norm_num, rfl, fun _ _ => rfl, s, s2, hs, ?_, ?_, ?_⟩
  · rw [show recodeRow [.integer (-5)] [.int 2] = [.int (-3)] by simp [recodeRow, Recode.value]]
    exact hs2
  · have e : s.core.evaluated.map (fun e => recodeRow [.integer (-5)] e.1) = (s.core.evaluated.map Prod.fst).map (recodeRow [.integer (-5)]) := by
      rw [List.map_map]; rfl
    rw [e, hs', r1]
    simp [recodeRow, Recode.value]
  · rw [hs2', r2]
    simp [recodeRow, Recode.value]

end Verif.Props
