import Verif.Spec.Optimizer
import Mathlib.Tactic.Linarith
import Mathlib.Tactic.Ring
import Mathlib.Tactic.SplitIfs
import Mathlib.Tactic.Push
import Mathlib.Data.List.Induction

set_option linter.unusedSectionVars false
namespace Verif.Proofs
open Verif.Model Verif.Spec

variable {P K : Type*} [Field K] [LinearOrder K] [IsStrictOrderedRing K]

theorem observe_eq (warm : Bool) : ∀ (X : List P) (V : List (Obs K)) (c : ℕ),
    observe warm X V c = (if warm then c else c + min X.length V.length,
      if X.length ≤ V.length then some (X.zip V) else none) := by
  intro X
  induction X with
  | nil => intro V c; cases warm <;> simp [observe]
  | cons x xs ih =>
    intro V c
    cases V with
    | nil => cases warm <;> simp [observe]
    | cons v vs =>
      unfold observe
      rw [ih]
      cases warm
      · simp only [List.length_cons, Nat.add_le_add_iff_right, List.zip_cons_cons]
        refine Prod.ext ?_ ?_
        · simp; omega
        · simp only []
          split <;> simp
      · simp only [List.length_cons, Nat.add_le_add_iff_right, List.zip_cons_cons]
        refine Prod.ext ?_ ?_
        · simp
        · simp only []
          split <;> simp

theorem postEvalCheck_pairs (n0 : ℕ) : ∀ (ps : List (P × Obs K)) (idx : List String),
    idx.length = ps.length →
    (postEvalCheck n0 (ps.zip idx)).map (fun r => (r.x, r.f)) = finitePart ps := by
  intro ps
  induction ps with
  | nil => intro idx _; simp [postEvalCheck, finitePart]
  | cons p ps ih =>
    intro idx h
    cases idx with
    | nil => simp at h
    | cons i idx =>
      have h' : idx.length = ps.length := by simpa using h
      obtain ⟨x, v⟩ := p
      cases v <;> simp [postEvalCheck, finitePart, ih idx h']

theorem postEvalCheck_nEval (n0 : ℕ) : ∀ (ps : List ((P × Obs K) × String)) (r : Rec P K),
    r ∈ postEvalCheck n0 ps → r.nEval = n0 + 1 := by
  intro ps
  induction ps with
  | nil => intro r h; simp [postEvalCheck] at h
  | cons p ps ih =>
    intro r h
    obtain ⟨⟨x, v⟩, i⟩ := p
    cases v
    · simp only [postEvalCheck, List.mem_cons] at h
      rcases h with rfl | h
      · rfl
      · exact ih r h
    all_goals exact ih r (by simpa [postEvalCheck] using h)

theorem foldl_best (minimize : Bool) : ∀ (fs : List K) (f : K),
    IsBestOf minimize (fs.foldl (if minimize then min else max) f) (f :: fs) := by
  intro fs
  induction fs with
  | nil => intro f; cases minimize <;> simp [IsBestOf]
  | cons g gs ih =>
    intro f
    rw [List.foldl_cons]
    obtain ⟨hm, hb⟩ := ih ((if minimize then min else max) f g)
    constructor
    · rcases List.mem_cons.1 hm with h | h
      · rw [h]
        cases minimize
        · rcases max_choice f g with h | h <;> simp [h]
        · rcases min_choice f g with h | h <;> simp [h]
      · simp [h]
    · intro v hv
      have h0 := hb _ (List.mem_cons_self)
      rcases List.mem_cons.1 hv with rfl | hv
      · cases minimize
        · exact le_trans (le_max_left _ _) h0
        · exact le_trans h0 (min_le_left _ _)
      · rcases List.mem_cons.1 hv with rfl | hv
        · cases minimize
          · exact le_trans (le_max_right _ _) h0
          · exact le_trans h0 (min_le_right _ _)
        · exact hb v (List.mem_cons_of_mem _ hv)

theorem getBest_spec {minimize : Bool} {fs : List K} {b : K} (h : getBest minimize fs = some b) :
    IsBestOf minimize b fs := by
  cases fs with
  | nil => simp [getBest] at h
  | cons f fs =>
    simp only [getBest, Option.some.injEq] at h
    rw [← h]
    exact foldl_best minimize fs f

theorem getBest_isSome {minimize : Bool} {fs : List K} (h : fs ≠ []) :
    ∃ b, getBest minimize fs = some b := by
  cases fs with
  | nil => exact absurd rfl h
  | cons f fs => exact ⟨_, rfl⟩

theorem isBestOf_unique {minimize : Bool} {a b : K} {vs : List K} (ha : IsBestOf minimize a vs)
    (hb : IsBestOf minimize b vs) : a = b := by
  have h1 := ha.2 b hb.1
  have h2 := hb.2 a ha.1
  cases minimize
  · exact le_antisymm h2 h1
  · exact le_antisymm h1 h2

/-- The incumbent is the first row with the best value. -/
theorem incumbent_spec {minimize : Bool} {d : List (Rec P K)} {r : Rec P K}
    (h : incumbent minimize d = some r) :
    IsBestOf minimize r.f (d.map Rec.f) ∧
    ∃ i : ℕ, d[i]? = some r ∧ ∀ (j : ℕ) (r' : Rec P K), j < i → d[j]? = some r' → r'.f ≠ r.f := by
  unfold incumbent at h
  split at h
  · cases h
  · rename_i b hb
    have hbest := getBest_spec hb
    rw [List.find?_eq_some_iff_getElem] at h
    obtain ⟨hrb, i, hi, hri, hmin⟩ := h
    have hrb := of_decide_eq_true hrb
    subst hrb
    refine ⟨hbest, i, ?_, ?_⟩
    · rw [List.getElem?_eq_getElem hi, hri]
    · intro j r' hj hr'
      have := hmin j hj
      rw [List.getElem?_eq_getElem (by omega)] at hr'
      cases hr'
      simpa using this

theorem incumbent_isSome (minimize : Bool) {d : List (Rec P K)} (h : d ≠ []) :
    ∃ r, incumbent minimize d = some r := by
  obtain ⟨b, hb⟩ := getBest_isSome (minimize := minimize) (fs := d.map Rec.f) (by simpa using h)
  have hm := (getBest_spec hb).1
  rw [List.mem_map] at hm
  obtain ⟨r, hr, hrf⟩ := hm
  unfold incumbent
  rw [hb]
  have : (d.find? (fun r => decide (r.f = b))).isSome := by
    rw [List.find?_isSome]
    exact ⟨r, hr, by simpa using hrf⟩
  exact Option.isSome_iff_exists.1 this

/-- Recorded pairs of a state. -/
def pairs (s : OptState P K) : List (P × K) := (s.data.getD []).map (fun r => (r.x, r.f))

/-- Is the result of a call a normal return? -/
def isOk {ε α : Type*} : Except ε α → Bool
  | .ok _ => true
  | .error _ => false

theorem pairs_snd (s : OptState P K) : (s.data.getD []).map Rec.f = (pairs s).map Prod.snd := by
  simp [pairs, Function.comp_def]

open Classical in
theorem told_tell (a : TellArgs P K) :
    told (.tell a) = if WellFormed a then finitePart (a.X.zip a.vals) else [] := rfl

/-- Everything a call to `tellRest` does. -/
theorem tellRest_spec (cfg : Cfg K) (s : OptState P K) (d kept : List (Rec P K)) (a : TellArgs P K) :
    let r := tellRest cfg s d kept a
    r.1.data = some d ∧ r.1.evalCount = s.evalCount ∧ r.1.stopMaxFEs = s.stopMaxFEs ∧
    r.1.stopFtarget = s.stopFtarget ∧
    (isOk r.2 = true → d ≠ []) ∧
    (isOk r.2 = true ∧ a.warm = false →
      r.1.iterCount = s.iterCount + 1 ∧
      ∃ b, IsBestOf cfg.minimize b (d.map Rec.f) ∧ r.1.histF = s.histF ++ [b]) ∧
    (¬ (isOk r.2 = true ∧ a.warm = false) → r.1.iterCount = s.iterCount ∧ r.1.histF = s.histF) ∧
    (isOk r.2 = true → r.1.csv = if cfg.dataFile then s.csv ++ kept else s.csv) := by
  unfold tellRest
  simp only []
  by_cases h1 : d.isEmpty = true
  · simp [h1, isOk]
  · have hne : d ≠ [] := by simpa using h1
    by_cases h2 : isFlat (d.map Rec.f) = true
    · simp [h2, isOk, hne]
    · by_cases h3 : a.oracle.fitOk = true
      · obtain ⟨r, hr⟩ := incumbent_isSome cfg.minimize hne
        have hb := (incumbent_spec hr).1
        by_cases h4 : a.oracle.constraintOk = true
        · cases hw : a.warm <;> cases hf : cfg.dataFile <;>
            simp [h2, h3, h4, hr, isOk, hne, hb]
        · cases hf : cfg.dataFile <;> simp [h2, h3, h4, hr, isOk, hne]
      · simp [h2, h3, isOk, hne]

/-- Everything `tell` does, in terms of the arguments. -/
theorem tell_spec (cfg : Cfg K) (s : OptState P K) (a : TellArgs P K) :
    let r := tell cfg s a
    pairs r.1 = pairs s ++ told (.tell a) ∧
    r.1.stopMaxFEs = s.stopMaxFEs ∧ r.1.stopFtarget = s.stopFtarget ∧
    (isOk r.2 = true → WellFormed a ∧ r.1.data ≠ none ∧ pairs r.1 ≠ []) ∧
    (isOk r.2 = true ∧ a.warm = false →
      r.1.iterCount = s.iterCount + 1 ∧
      ∃ b, IsBestOf cfg.minimize b ((pairs r.1).map Prod.snd) ∧ r.1.histF = s.histF ++ [b]) ∧
    (¬ (isOk r.2 = true ∧ a.warm = false) → r.1.iterCount = s.iterCount ∧ r.1.histF = s.histF) ∧
    (WellFormed a → r.1.evalCount = s.evalCount + (if a.warm then 0 else a.X.length)) ∧
    (¬ WellFormed a → r.1.data = s.data ∧
      r.1.evalCount ≤ s.evalCount + (if a.warm then 0 else a.vals.length)) := by
  unfold tell
  simp only []
  by_cases h1 : a.X.isEmpty = true
  · have hx : a.X = [] := by simpa using h1
    have hnw : ¬ WellFormed a := fun h => h.1 hx
    simp [h1, isOk, told_tell, hnw]
  by_cases h2 : (a.index.map List.length).any (· != a.X.length) = true
  · have hnw : ¬ WellFormed a := by
      intro h
      cases hi : a.index with
      | none => simp [hi] at h2
      | some l => simp [hi, h.2.2 l hi] at h2
    simp [h1, h2, isOk, told_tell, hnw]
  rw [if_neg h1, if_neg h2, observe_eq]
  by_cases h3 : a.X.length ≤ a.vals.length
  · have hwf : WellFormed a := by
      refine ⟨by simpa using h1, h3, fun l hl => ?_⟩
      simpa [hl] using h2
    simp only [h3, if_true]
    have hcount : (if a.warm = true then s.evalCount else s.evalCount + min a.X.length a.vals.length) =
        s.evalCount + (if a.warm = true then 0 else a.X.length) := by
      split <;> simp [h3]
    rw [hcount]
    have hlen : (labels a).length = (a.X.zip a.vals).length := by
      rw [List.length_zip, Nat.min_eq_left h3]
      unfold labels
      cases hi : a.index with
      | none => simp [defaultIndex]
      | some l => simpa using hwf.2.2 l hi
    generalize hk : postEvalCheck (if cfg.evalDict = true then 0 else 1)
      ((a.X.zip a.vals).zip (labels a)) = kept
    have hkept : kept.map (fun r => (r.x, r.f)) = told (.tell a) := by
      rw [told_tell, if_pos hwf, ← hk]
      exact postEvalCheck_pairs _ _ _ hlen
    set s0 : OptState P K :=
      { s with evalCount := s.evalCount + (if a.warm = true then 0 else a.X.length) } with hs0
    have main : ∀ d : List (Rec P K), d.map (fun r => (r.x, r.f)) = pairs s ++ told (.tell a) →
        let r := tellRest cfg s0 d kept a
        pairs r.1 = pairs s ++ told (.tell a) ∧
        r.1.stopMaxFEs = s.stopMaxFEs ∧ r.1.stopFtarget = s.stopFtarget ∧
        (isOk r.2 = true → WellFormed a ∧ r.1.data ≠ none ∧ pairs r.1 ≠ []) ∧
        (isOk r.2 = true ∧ a.warm = false →
          r.1.iterCount = s.iterCount + 1 ∧
          ∃ b, IsBestOf cfg.minimize b ((pairs r.1).map Prod.snd) ∧ r.1.histF = s.histF ++ [b]) ∧
        (¬ (isOk r.2 = true ∧ a.warm = false) → r.1.iterCount = s.iterCount ∧ r.1.histF = s.histF) ∧
        (WellFormed a → r.1.evalCount = s.evalCount + (if a.warm then 0 else a.X.length)) ∧
        (¬ WellFormed a → r.1.data = s.data ∧
          r.1.evalCount ≤ s.evalCount + (if a.warm then 0 else a.vals.length)) := by
      intro d hd
      obtain ⟨e1, e2, e3, e4, e5, e6, e7, _⟩ := tellRest_spec cfg s0 d kept a
      have hp : pairs (tellRest cfg s0 d kept a).1 = pairs s ++ told (.tell a) := by
        unfold pairs
        rw [e1]
        exact hd
      have hsnd : (pairs (tellRest cfg s0 d kept a).1).map Prod.snd = d.map Rec.f := by
        rw [← pairs_snd, e1]; rfl
      refine ⟨hp, e3, e4, fun h => ⟨hwf, by rw [e1]; simp, ?_⟩, ?_, e7, fun _ => e2, fun h => absurd hwf h⟩
      · intro h0
        have := e5 h
        rw [h0] at hsnd
        exact this (by simpa using hsnd.symm)
      · rw [hsnd]; exact e6
    cases hd : s.data with
    | none =>
      have : pairs s = [] := by simp [pairs, hd]
      have hm := main kept (by rw [hkept, this, List.nil_append])
      simpa only [hd] using hm
    | some d =>
      have hpd : pairs s = d.map (fun r => (r.x, r.f)) := by simp [pairs, hd]
      simp only []
      by_cases h4 : (d ++ kept).isEmpty = true
      · have h4' : d = [] ∧ kept = [] := by simpa using h4
        have ht : told (Op.tell a) = [] := by rw [← hkept, h4'.2]; rfl
        simp only [h4, if_true]
        refine ⟨?_, ?_⟩
        · rw [ht]; simp [pairs, hs0]
        · simp [isOk, hs0, hwf]
      · rw [if_neg h4]
        have hm := main (d ++ kept) (by rw [List.map_append, hkept, hpd])
        simpa only [hd] using hm
  · have hnw : ¬ WellFormed a := fun h => h3 h.2.1
    simp only [h3, if_false]
    refine ⟨by simp [told_tell, hnw, pairs], trivial, trivial, by simp [isOk], by simp [isOk], by simp,
      fun h => absurd h hnw, fun _ => ⟨trivial, ?_⟩⟩
    have : min a.X.length a.vals.length = a.vals.length := by omega
    rw [this]
    split <;> simp

/-- Rows: what `tell` adds to the table and to the data file. -/
theorem tell_rows (cfg : Cfg K) (s : OptState P K) (a : TellArgs P K) :
    let r := tell cfg s a
    ∃ kept : List (Rec P K), r.1.data.getD [] = s.data.getD [] ++ kept ∧
      (∀ x ∈ kept, x.nEval = (if cfg.evalDict then 0 else 1) + 1) ∧
      (kept = [] ∨ kept = postEvalCheck (if cfg.evalDict then 0 else 1) ((a.X.zip a.vals).zip (labels a))) ∧
      (isOk r.2 = true → r.1.csv = if cfg.dataFile then s.csv ++ kept else s.csv) := by
  unfold tell
  simp only []
  by_cases h1 : a.X.isEmpty = true
  · refine ⟨[], ?_⟩; simp [h1, isOk]
  by_cases h2 : (a.index.map List.length).any (· != a.X.length) = true
  · refine ⟨[], ?_⟩; simp [h1, h2, isOk]
  rw [if_neg h1, if_neg h2, observe_eq]
  by_cases h3 : a.X.length ≤ a.vals.length
  · simp only [h3, if_true]
    generalize hk : postEvalCheck (if cfg.evalDict = true then 0 else 1)
      ((a.X.zip a.vals).zip (labels a)) = kept
    have hn : ∀ x ∈ kept, x.nEval = (if cfg.evalDict then 0 else 1) + 1 := by
      intro x hx
      rw [← hk] at hx
      exact postEvalCheck_nEval _ _ _ hx
    cases hd : s.data with
    | none =>
      refine ⟨kept, ?_, hn, Or.inr rfl, ?_⟩
      · simp [(tellRest_spec cfg _ kept kept a).1]
      · intro h
        exact (tellRest_spec cfg _ kept kept a).2.2.2.2.2.2.2 h
    | some d =>
      simp only []
      by_cases h4 : (d ++ kept).isEmpty = true
      · rw [if_pos h4]
        have h4' : d = [] ∧ kept = [] := by simpa using h4
        refine ⟨kept, ?_, hn, Or.inr rfl, ?_⟩
        · simp [hd, h4'.2]
        · simp [isOk]
      · rw [if_neg h4]
        refine ⟨kept, ?_, hn, Or.inr rfl, ?_⟩
        · simp [(tellRest_spec cfg _ (d ++ kept) kept a).1]
        · intro h
          exact (tellRest_spec cfg _ (d ++ kept) kept a).2.2.2.2.2.2.2 h
  · refine ⟨[], ?_⟩
    simp [h3, isOk]

/-! ### check_stop, histories -/

theorem checkStop_frame (cfg : Cfg K) (s : OptState P K) :
    let r := (checkStop cfg s).1
    r.data = s.data ∧ r.evalCount = s.evalCount ∧ r.iterCount = s.iterCount ∧ r.histF = s.histF ∧
    r.csv = s.csv := by
  have h1 : (checkBudget cfg s).data = s.data ∧ (checkBudget cfg s).evalCount = s.evalCount ∧
      (checkBudget cfg s).iterCount = s.iterCount ∧
        (checkBudget cfg s).histF = s.histF ∧ (checkBudget cfg s).csv = s.csv := by
    unfold checkBudget
    split
    · split <;> simp
    · simp
  unfold checkStop
  simp only []
  generalize checkBudget cfg s = s1 at h1
  split
  · exact h1
  · split
    · exact h1
    · exact h1
    · simp only []
      split <;> exact h1

theorem applyOp_tell (cfg : Cfg K) (s : OptState P K) (a : TellArgs P K) :
    applyOp cfg s (.tell a) = ((tell cfg s a).1, isOk (tell cfg s a).2) := by
  simp only [applyOp]
  rcases tell cfg s a with ⟨s', r⟩
  cases r <;> simp [isOk]

theorem applyOp_checkStop (cfg : Cfg K) (s : OptState P K) :
    applyOp cfg s .checkStop = ((checkStop cfg s).1, isOk (checkStop cfg s).2) := by
  simp only [applyOp]
  rcases checkStop cfg s with ⟨s', r⟩
  cases r <;> simp [isOk]

theorem execute_snoc (cfg : Cfg K) (ops : List (Op P K)) (o : Op P K) :
    execute cfg (ops ++ [o]) = (applyOp cfg (execute cfg ops) o).1 := by
  simp [execute]

theorem pairs_applyOp (cfg : Cfg K) (s : OptState P K) (o : Op P K) :
    pairs (applyOp cfg s o).1 = pairs s ++ told o := by
  cases o with
  | tell a => rw [applyOp_tell]; exact (tell_spec cfg s a).1
  | checkStop =>
    rw [applyOp_checkStop]
    unfold pairs
    rw [(checkStop_frame cfg s).1]
    simp [told]

theorem pairs_execute (cfg : Cfg K) (ops : List (Op P K)) : pairs (execute cfg ops) = toldAll ops := by
  induction ops using List.reverseRecOn with
  | nil => simp [execute, pairs, toldAll]
  | append_singleton ops o ih =>
    rw [execute_snoc, pairs_applyOp, ih]
    simp [toldAll]

end Verif.Proofs
