import Verif.Proofs.Pareto
import Mathlib.Data.List.Count
import Mathlib.Data.List.Range

/-! Helper lemmas for `is_non_dominated` and `fast_non_dominated_sort`. -/
namespace Verif.Proofs
open Verif.Model Verif.Spec

variable {m : ℕ} {K : Type*} [LinearOrder K]

/-! ### is_non_dominated -/

theorem dominatesRow_iff (a b : Fin m → K) : dominatesRow a b = true ↔ DominatesMax a b := by
  simp [dominatesRow, DominatesMax]

theorem ndMask_getElem? (Y : List (Fin m → K)) (i : ℕ) :
    (ndMask Y)[i]? = some true ↔ NonDominatedMaxAt Y i := by
  unfold ndMask NonDominatedMaxAt
  rw [List.getElem?_map, Option.map_eq_some_iff]
  constructor
  · rintro ⟨p, hp, h⟩
    refine ⟨p, hp, fun q hq hd => ?_⟩
    simp only [Bool.not_eq_true', List.any_eq_false] at h
    exact h q hq ((dominatesRow_iff q p).2 hd)
  · rintro ⟨p, hp, h⟩
    refine ⟨p, hp, ?_⟩
    simp only [Bool.not_eq_true', List.any_eq_false]
    intro q hq hd
    exact h q hq ((dominatesRow_iff q p).1 hd)

theorem firstEqual_mem (Y : List (Fin m → K)) (i : ℕ) (hi : i < Y.length) :
    i ∈ Y.map (firstEqual Y) ↔ FirstOccurrence Y i := by
  have hfun : ∀ (a b : Fin m → K), (decide (∀ k, a k = b k) = true) ↔ a = b := by
    intro a b; simp [funext_iff]
  unfold firstEqual
  rw [List.mem_map]
  constructor
  · rintro ⟨y, hy, hidx⟩
    have hlt : List.findIdx (fun yj => decide (∀ k, yj k = y k)) Y < Y.length := by rw [hidx]; exact hi
    have hval : Y[i] = y := by
      have := List.findIdx_getElem (w := hlt)
      have h2 := (hfun _ _).1 this
      rw [← h2]
      congr 1
      exact hidx.symm
    refine ⟨hi, fun j hj he => ?_⟩
    rw [List.getElem?_eq_getElem hi, List.getElem?_eq_getElem (hj.trans hi), hval] at he
    have hnot := List.not_of_lt_findIdx (p := fun yj => decide (∀ k, yj k = y k)) (xs := Y) (i := j)
      (by rw [hidx]; exact hj)
    rw [(hfun _ _).2 (Option.some.inj he)] at hnot
    exact Bool.noConfusion hnot
  · rintro ⟨_, hf⟩
    refine ⟨Y[i], List.getElem_mem hi, ?_⟩
    rw [List.findIdx_eq hi]
    refine ⟨by simp, fun j hj => ?_⟩
    simp only [decide_eq_false_iff_not]
    intro hall
    apply hf j hj
    rw [List.getElem?_eq_getElem hi, List.getElem?_eq_getElem (hj.trans hi)]
    exact congrArg some (funext hall)

theorem isNonDominated_length (Y : List (Fin m → K)) (d : Bool) :
    (isNonDominated Y d).length = Y.length := by
  unfold isNonDominated ndMask
  split <;> simp

theorem isNonDominated_dedup_iff (Y : List (Fin m → K)) (i : ℕ) :
    (isNonDominated Y true)[i]? = some true ↔ NonDominatedMaxAt Y i ∧ FirstOccurrence Y i := by
  unfold isNonDominated
  simp only [if_true]
  rw [List.getElem?_zipWith, ← ndMask_getElem?]
  by_cases hi : i < Y.length
  · have h1 : (ndMask Y)[i]? = some ((ndMask Y)[i]'(by simpa [ndMask] using hi)) :=
      List.getElem?_eq_getElem _
    rw [h1, List.getElem?_map, List.getElem?_range hi]
    simp only [Option.map_some, Option.some.injEq, Bool.and_eq_true, decide_eq_true_eq,
      firstEqual_mem Y i hi]
  · have : ¬ FirstOccurrence Y i := fun h => hi h.1
    have h2 : (ndMask Y)[i]? = none := by
      rw [List.getElem?_eq_none_iff]; simpa [ndMask] using hi
    simp [h2]

/-! ### fast_non_dominated_sort -/

theorem fndsDom_iff (p q : Fin m → K) : fndsDom p q = true ↔ DominatesMin p q := by
  unfold fndsDom DominatesMin
  simp only [Bool.and_eq_true, decide_eq_true_eq, Bool.not_eq_true', decide_eq_false_iff_not]
  constructor
  · rintro ⟨h, h'⟩
    refine ⟨h, ?_⟩
    by_contra hno
    push Not at hno
    exact h' fun k => le_antisymm (h k) (hno k)
  · rintro ⟨h, k, hk⟩
    exact ⟨h, fun h' => absurd (h' k) hk.ne⟩

theorem domMin_asymm {p q : Fin m → K} (h : DominatesMin p q) : ¬ DominatesMin q p := by
  rintro ⟨h1, _⟩
  obtain ⟨k, hk⟩ := h.2
  exact absurd (h1 k) (not_le.2 hk)

theorem domMin_trans {p q r : Fin m → K} (h₁ : DominatesMin p q) (h₂ : DominatesMin q r) :
    DominatesMin p r := by
  obtain ⟨k, hk⟩ := h₁.2
  exact ⟨fun k => (h₁.1 k).trans (h₂.1 k), k, hk.trans_le (h₂.1 k)⟩

/-- Index-level strict domination. -/
def DomAt (F : List (Fin m → K)) (j i : ℕ) : Prop :=
  ∃ p q, F[j]? = some p ∧ F[i]? = some q ∧ DominatesMin p q

theorem DomAt.lt_left {F : List (Fin m → K)} {j i : ℕ} (h : DomAt F j i) : j < F.length := by
  obtain ⟨p, q, hp, _, _⟩ := h
  exact (List.getElem?_eq_some_iff.1 hp).1

theorem DomAt.lt_right {F : List (Fin m → K)} {j i : ℕ} (h : DomAt F j i) : i < F.length := by
  obtain ⟨p, q, _, hq, _⟩ := h
  exact (List.getElem?_eq_some_iff.1 hq).1

theorem DomAt.irrefl {F : List (Fin m → K)} {i : ℕ} : ¬ DomAt F i i := by
  rintro ⟨p, q, hp, hq, hd⟩
  rw [hp] at hq
  cases hq
  exact domMin_asymm hd hd

theorem DomAt.trans {F : List (Fin m → K)} {i j k : ℕ} (h₁ : DomAt F i j) (h₂ : DomAt F j k) :
    DomAt F i k := by
  obtain ⟨p, q, hp, hq, hd⟩ := h₁
  obtain ⟨q', r, hq', hr, hd'⟩ := h₂
  rw [hq] at hq'
  cases hq'
  exact ⟨p, r, hp, hr, domMin_trans hd hd'⟩

theorem DomAt.asymm {F : List (Fin m → K)} {i j : ℕ} (h : DomAt F i j) : ¬ DomAt F j i :=
  fun h' => DomAt.irrefl (h.trans h')

theorem chain_succ_iff (F : List (Fin m → K)) (k i : ℕ) :
    DomChain F (k + 1) i ↔ ∃ j, DomChain F k j ∧ DomAt F j i := by
  constructor
  · intro h
    cases h with
    | step hc hp hq hd => exact ⟨_, hc, _, _, hp, hq, hd⟩
  · rintro ⟨j, hc, p, q, hp, hq, hd⟩
    exact .step hc hp hq hd

theorem chain_lt {F : List (Fin m → K)} {k i : ℕ} (h : DomChain F k i) : i < F.length := by
  cases h with
  | start h => exact h
  | step _ _ hq _ => exact (List.getElem?_eq_some_iff.1 hq).1

theorem chain_zero_iff (F : List (Fin m → K)) (i : ℕ) : DomChain F 0 i ↔ i < F.length :=
  ⟨chain_lt, .start⟩

theorem chain_down {F : List (Fin m → K)} {k : ℕ} : ∀ {i : ℕ}, DomChain F (k + 1) i → DomChain F k i := by
  induction k with
  | zero => intro i h; exact .start (chain_lt h)
  | succ k ih =>
    intro i h
    obtain ⟨j, hj, hd⟩ := (chain_succ_iff F (k + 1) i).1 h
    exact (chain_succ_iff F k i).2 ⟨j, ih hj, hd⟩

theorem chain_mono {F : List (Fin m → K)} {k k' i : ℕ} (hk : k' ≤ k) (h : DomChain F k i) :
    DomChain F k' i := by
  induction k with
  | zero => obtain rfl : k' = 0 := Nat.le_zero.1 hk; exact h
  | succ k ih =>
    rcases Nat.lt_or_eq_of_le hk with h' | rfl
    · exact ih (Nat.lt_succ_iff.1 h') (chain_down h)
    · exact h

open Classical in
/-- number of positions dominating `i` and satisfying `P`. -/
noncomputable def cntDom (F : List (Fin m → K)) (P : ℕ → Prop) (i : ℕ) : ℕ :=
  ((List.range F.length).filter (fun j => decide (DomAt F j i ∧ P j))).length

open Classical in
theorem cntDom_eq (F : List (Fin m → K)) (P : ℕ → Prop) (i : ℕ) (Q : ℕ → Bool)
    (h : ∀ j, Q j = true ↔ (DomAt F j i ∧ P j)) :
    cntDom F P i = ((List.range F.length).filter Q).length := by
  unfold cntDom
  congr 1
  apply List.filter_congr
  intro j _
  rw [Bool.eq_iff_iff, h]
  simp

open Classical in
theorem chain_le_cnt {F : List (Fin m → K)} {k : ℕ} : ∀ {i : ℕ}, DomChain F k i →
    k ≤ cntDom F (fun _ => True) i := by
  induction k with
  | zero => intro i _; exact Nat.zero_le _
  | succ k ih =>
    intro i h
    obtain ⟨j, hj, hd⟩ := (chain_succ_iff F k i).1 h
    have h1 := ih hj
    have h2 : cntDom F (fun _ => True) j < cntDom F (fun _ => True) i := by
      rw [cntDom_eq F _ j (fun l => decide (DomAt F l j ∧ True)) (by simp),
        cntDom_eq F _ i (fun l => decide (DomAt F l i ∧ True)) (by simp)]
      have hsub : ((List.range F.length).filter (fun l => decide (DomAt F l j ∧ True))) ⊆
          ((List.range F.length).filter (fun l => decide (DomAt F l i ∧ True))).erase j := by
        intro l hl
        simp only [and_true, List.mem_filter, List.mem_range, decide_eq_true_eq] at hl
        have hne : l ≠ j := by rintro rfl; exact DomAt.irrefl hl.2
        rw [List.mem_erase_of_ne hne]
        simp only [and_true, List.mem_filter, List.mem_range, decide_eq_true_eq]
        exact ⟨hl.1, hl.2.trans hd⟩
      have hnd : ((List.range F.length).filter (fun l => decide (DomAt F l j ∧ True))).Nodup :=
        List.nodup_range.filter _
      have hle := (List.subperm_of_subset hnd hsub).length_le
      have hmem : j ∈ ((List.range F.length).filter (fun l => decide (DomAt F l i ∧ True))) := by
        simp only [and_true, List.mem_filter, List.mem_range, decide_eq_true_eq]
        exact ⟨hd.lt_left, hd⟩
      have hlen := List.length_erase_of_mem hmem
      have hpos := List.length_pos_of_mem hmem
      omega
    omega

theorem cntDom_le (F : List (Fin m → K)) (P : ℕ → Prop) (i : ℕ) : cntDom F P i ≤ F.length := by
  classical
  unfold cntDom
  exact (List.length_filter_le _ _).trans (by simp)

theorem chain_bound {F : List (Fin m → K)} {k i : ℕ} (h : DomChain F k i) : k ≤ F.length :=
  (chain_le_cnt h).trans (cntDom_le F _ i)

theorem hasRank_iff (F : List (Fin m → K)) (i k : ℕ) :
    HasRank F i k ↔ DomChain F k i ∧ ¬ DomChain F (k + 1) i := by
  constructor
  · rintro ⟨h, h'⟩
    exact ⟨h, fun hc => by have := h' _ hc; omega⟩
  · rintro ⟨h, h'⟩
    refine ⟨h, fun k' hc => ?_⟩
    by_contra hlt
    push Not at hlt
    exact h' (chain_mono hlt hc)

theorem exists_rank (F : List (Fin m → K)) (i : ℕ) (hi : i < F.length) : ∃ k, HasRank F i k := by
  by_contra hno
  push Not at hno
  have : ∀ k, DomChain F k i := by
    intro k
    induction k with
    | zero => exact .start hi
    | succ k ih =>
      by_contra hc
      exact hno k ((hasRank_iff F i k).2 ⟨ih, hc⟩)
  have := chain_bound (this (F.length + 1))
  omega

/-- The domination lists and counters computed by the double loop. -/
def fDom (F : List (Fin m → K)) : ℕ → List ℕ :=
  fun i => match F[i]? with | some p => fndsDominatedSet F i p | none => []

def fCnt (F : List (Fin m → K)) : ℕ → ℤ :=
  fun i => match F[i]? with | some p => (fndsCount F i p : ℤ) | none => 0

theorem mem_fDom (F : List (Fin m → K)) (p i : ℕ) : i ∈ fDom F p ↔ DomAt F p i := by
  unfold fDom
  cases hp : F[p]? with
  | none =>
    simp only [List.not_mem_nil, false_iff]
    rintro ⟨a, b, ha, _⟩
    rw [hp] at ha
    cases ha
  | some a =>
    simp only [fndsDominatedSet, List.mem_filter, List.mem_range]
    constructor
    · rintro ⟨hi, h⟩
      rw [List.getElem?_eq_getElem hi] at h
      simp only [Bool.and_eq_true] at h
      exact ⟨a, F[i], hp, List.getElem?_eq_getElem hi, (fndsDom_iff _ _).1 h.2⟩
    · intro hd
      have hi := hd.lt_right
      have hne : p ≠ i := by rintro rfl; exact DomAt.irrefl hd
      obtain ⟨a', b, ha', hb, hd⟩ := hd
      rw [hp] at ha'
      cases ha'
      refine ⟨hi, ?_⟩
      rw [hb]
      simp [hne, (fndsDom_iff _ _).2 hd]

open Classical in
theorem fCnt_eq (F : List (Fin m → K)) (i : ℕ) (hi : i < F.length) :
    fCnt F i = (cntDom F (fun _ => True) i : ℤ) := by
  unfold fCnt cntDom
  rw [List.getElem?_eq_getElem hi]
  simp only [fndsCount]
  congr 2
  apply List.filter_congr
  intro j hj
  rw [List.mem_range] at hj
  rw [List.getElem?_eq_getElem hj]
  rw [Bool.eq_iff_iff]
  simp only [Bool.and_eq_true, decide_eq_true_eq, Bool.not_eq_true', and_true]
  constructor
  · rintro ⟨_, _, h⟩
    exact ⟨F[j], F[i], List.getElem?_eq_getElem hj, List.getElem?_eq_getElem hi, (fndsDom_iff _ _).1 h⟩
  · intro hd
    refine ⟨by rintro rfl; exact DomAt.irrefl hd, ?_⟩
    obtain ⟨p, q, hp, hq, hd⟩ := hd
    rw [List.getElem?_eq_getElem hj] at hp
    rw [List.getElem?_eq_getElem hi] at hq
    cases hp; cases hq
    refine ⟨?_, (fndsDom_iff _ _).2 hd⟩
    rw [Bool.eq_false_iff]
    intro h
    exact domMin_asymm hd ((fndsDom_iff _ _).1 h)

open Classical in
theorem relax_eq (dom : ℕ → List ℕ) (front : List ℕ) (cnt : ℕ → ℤ) (i : ℕ) :
    relax dom front cnt i = cnt i - ((front.filter (fun p => decide (i ∈ dom p))).length : ℤ) := by
  unfold relax
  induction front generalizing cnt with
  | nil => simp
  | cons p ps ih =>
    rw [List.foldl_cons, ih]
    by_cases h : i ∈ dom p
    · simp only [h, if_true, List.filter_cons, decide_true, List.length_cons]
      push_cast
      omega
    · simp [h]

/-- Loop invariant at the start of round `r`. -/
structure FInv (F : List (Fin m → K)) (r : ℕ) (front : List ℕ) (cnt : ℕ → ℤ) : Prop where
  front_sorted : front.Pairwise (· < ·)
  front_mem : ∀ i, i ∈ front ↔ HasRank F i r
  done : ∀ i, i < F.length → ¬ DomChain F (r + 1) i → cnt i = -1
  open_ : ∀ i, DomChain F (r + 1) i → cnt i = (cntDom F (fun j => DomChain F r j) i : ℤ)

open Classical in
theorem FInv.relaxed {F : List (Fin m → K)} {r : ℕ} {front : List ℕ} {cnt : ℕ → ℤ}
    (h : FInv F r front cnt) (i : ℕ) :
    (i < F.length → ¬ DomChain F (r + 1) i → relax (fDom F) front cnt i = -1) ∧
    (DomChain F (r + 1) i → relax (fDom F) front cnt i =
      (cntDom F (fun j => DomChain F (r + 1) j) i : ℤ)) := by
  constructor
  · intro hi hc
    rw [relax_eq, h.done i hi hc]
    have : front.filter (fun p => decide (i ∈ fDom F p)) = [] := by
      rw [List.filter_eq_nil_iff]
      intro p hp hmem
      rw [decide_eq_true_eq, mem_fDom] at hmem
      apply hc
      rw [chain_succ_iff]
      exact ⟨p, ((hasRank_iff F p r).1 ((h.front_mem p).1 hp)).1, hmem⟩
    rw [this]; simp
  · intro hc
    rw [relax_eq, h.open_ i hc]
    have hperm : (front.filter (fun p => decide (i ∈ fDom F p))).Perm
        ((List.range F.length).filter (fun j => decide (DomAt F j i ∧ HasRank F j r))) := by
      rw [List.perm_ext_iff_of_nodup]
      · intro p
        simp only [List.mem_filter, decide_eq_true_eq, mem_fDom, h.front_mem, List.mem_range]
        constructor
        · rintro ⟨h1, h2⟩; exact ⟨h2.lt_left, h2, h1⟩
        · rintro ⟨_, h2, h1⟩; exact ⟨h1, h2⟩
      · exact (h.front_sorted.imp (fun hlt => Nat.ne_of_lt hlt)).filter _
      · exact List.nodup_range.filter _
    rw [hperm.length_eq]
    rw [cntDom_eq F _ i (fun j => decide (DomAt F j i ∧ DomChain F r j)) (by simp),
      cntDom_eq F _ i (fun j => decide (DomAt F j i ∧ DomChain F (r + 1) j)) (by simp)]
    have hsplit : ∀ l : List ℕ,
        ((l.filter (fun j => decide (DomAt F j i ∧ DomChain F r j))).length : ℤ) =
        ((l.filter (fun j => decide (DomAt F j i ∧ HasRank F j r))).length : ℤ) +
        ((l.filter (fun j => decide (DomAt F j i ∧ DomChain F (r + 1) j))).length : ℤ) := by
      intro l
      induction l with
      | nil => simp
      | cons a l ih =>
        have hiff := hasRank_iff F a r
        have h01 : DomChain F (r + 1) a → DomChain F r a := chain_down
        rw [List.filter_cons, List.filter_cons, List.filter_cons]
        by_cases hd : DomAt F a i <;> by_cases h1 : DomChain F (r + 1) a <;>
          by_cases h0 : DomChain F r a <;>
          simp only [hiff, hd, h1, h0, and_self, and_true, and_false, not_true_eq_false,
            not_false_eq_true, decide_true, decide_false, if_true, List.length_cons,
            Bool.false_eq_true, if_false, Int.natCast_add] <;>
          first | omega | exact absurd (h01 h1) h0
    have := hsplit (List.range F.length)
    omega

theorem cntDom_zero_iff (F : List (Fin m → K)) (r i : ℕ) :
    cntDom F (fun j => DomChain F r j) i = 0 ↔ ¬ DomChain F (r + 1) i := by
  classical
  unfold cntDom
  rw [List.length_eq_zero_iff, List.filter_eq_nil_iff, chain_succ_iff]
  constructor
  · rintro h ⟨j, hj, hd⟩
    exact h j (List.mem_range.2 hd.lt_left) (decide_eq_true ⟨hd, hj⟩)
  · intro h j _ hd
    rw [decide_eq_true_eq] at hd
    exact h ⟨j, hd.2, hd.1⟩

theorem FInv.next {F : List (Fin m → K)} {r : ℕ} {front : List ℕ} {cnt : ℕ → ℤ}
    (h : FInv F r front cnt) :
    FInv F (r + 1) (zeros F.length (relax (fDom F) front cnt))
      (retire (relax (fDom F) front cnt)) := by
  refine ⟨?_, ?_, ?_, ?_⟩
  · exact List.pairwise_lt_range.filter _
  · intro i
    simp only [zeros, List.mem_filter, List.mem_range, decide_eq_true_eq]
    rw [hasRank_iff]
    constructor
    · rintro ⟨hi, hz⟩
      by_cases hc : DomChain F (r + 1) i
      · rw [(h.relaxed i).2 hc] at hz
        exact ⟨hc, (cntDom_zero_iff F (r + 1) i).1 (by exact_mod_cast hz)⟩
      · rw [(h.relaxed i).1 hi hc] at hz
        simp at hz
    · rintro ⟨hc, hn⟩
      refine ⟨chain_lt hc, ?_⟩
      rw [(h.relaxed i).2 hc]
      exact_mod_cast (cntDom_zero_iff F (r + 1) i).2 hn
  · intro i hi hn
    unfold retire
    by_cases hc : DomChain F (r + 1) i
    · have : relax (fDom F) front cnt i = 0 := by
        rw [(h.relaxed i).2 hc]
        exact_mod_cast (cntDom_zero_iff F (r + 1) i).2 hn
      rw [this]; rfl
    · rw [(h.relaxed i).1 hi hc]; rfl
  · intro i hc
    have hne : relax (fDom F) front cnt i ≠ 0 := by
      rw [(h.relaxed i).2 (chain_down hc)]
      intro hz
      exact (cntDom_zero_iff F (r + 1) i).1 (by exact_mod_cast hz) hc
    unfold retire
    rw [if_neg hne, (h.relaxed i).2 (chain_down hc)]

theorem FInv.init (F : List (Fin m → K)) :
    FInv F 0 (zeros F.length (fCnt F)) (retire (fCnt F)) := by
  have hcnt : ∀ i, i < F.length → fCnt F i = (cntDom F (fun j => DomChain F 0 j) i : ℤ) := by
    intro i hi
    rw [fCnt_eq F i hi]
    unfold cntDom
    congr 2
    apply List.filter_congr
    intro j hj
    rw [List.mem_range] at hj
    simp [chain_zero_iff, hj]
  refine ⟨List.pairwise_lt_range.filter _, ?_, ?_, ?_⟩
  · intro i
    simp only [zeros, List.mem_filter, List.mem_range, decide_eq_true_eq]
    rw [hasRank_iff, chain_zero_iff]
    constructor
    · rintro ⟨hi, hz⟩
      rw [hcnt i hi] at hz
      exact ⟨hi, (cntDom_zero_iff F 0 i).1 (by exact_mod_cast hz)⟩
    · rintro ⟨hi, hn⟩
      refine ⟨hi, ?_⟩
      rw [hcnt i hi]
      exact_mod_cast (cntDom_zero_iff F 0 i).2 hn
  · intro i hi hn
    have : fCnt F i = 0 := by
      rw [hcnt i hi]
      exact_mod_cast (cntDom_zero_iff F 0 i).2 hn
    simp [retire, this]
  · intro i hc
    have hne : fCnt F i ≠ 0 := by
      rw [hcnt i (chain_lt hc)]
      intro hz
      exact (cntDom_zero_iff F 0 i).1 (by exact_mod_cast hz) hc
    unfold retire
    rw [if_neg hne, hcnt i (chain_lt hc)]

theorem rank_gap {F : List (Fin m → K)} {r : ℕ} (hno : ∀ i, ¬ HasRank F i r) (k i : ℕ) (hk : r ≤ k) :
    ¬ HasRank F i k := by
  intro h
  have hc : DomChain F r i := chain_mono hk h.1
  -- follow the chain down to an element of rank exactly r
  have key : ∀ d i, DomChain F (r + d) i → ¬ DomChain F (r + d + 1) i → ∃ j, HasRank F j r := by
    intro d
    induction d with
    | zero => intro i h1 h2; exact ⟨i, (hasRank_iff F i r).2 ⟨h1, h2⟩⟩
    | succ d ih =>
      intro i h1 h2
      obtain ⟨j, hj, hd⟩ := (chain_succ_iff F (r + d) i).1 h1
      refine ih j hj fun hj' => h2 ?_
      exact (chain_succ_iff F _ i).2 ⟨j, hj', hd⟩
  obtain ⟨d, rfl⟩ := Nat.exists_eq_add_of_le hk
  obtain ⟨j, hj⟩ := key d i h.1 ((hasRank_iff F i _).1 h).2
  exact hno j hj

theorem fndsLoop_spec {F : List (Fin m → K)} (fuel : ℕ) : ∀ (r : ℕ) (front : List ℕ) (cnt : ℕ → ℤ),
    FInv F r front cnt → F.length < fuel + r →
    (∀ k i, (∃ f, (fndsLoop F.length (fDom F) fuel front cnt)[k]? = some f ∧ i ∈ f) ↔
      HasRank F i (r + 1 + k)) ∧
    (∀ f ∈ fndsLoop F.length (fDom F) fuel front cnt, f.Pairwise (· < ·) ∧ f ≠ []) := by
  induction fuel with
  | zero =>
    intro r front cnt h hf
    refine ⟨fun k i => ?_, by simp [fndsLoop]⟩
    simp only [fndsLoop, List.getElem?_nil, reduceCtorEq, false_and, exists_false, false_iff]
    intro hr
    have := chain_bound hr.1
    omega
  | succ fuel ih =>
    intro r front cnt h hf
    have hn := h.next
    unfold fndsLoop
    simp only
    split
    · rename_i hlen
      refine ⟨fun k i => ?_, by simp⟩
      simp only [List.getElem?_nil, reduceCtorEq, false_and, exists_false, false_iff]
      apply rank_gap (r := r + 1) _ _ _ (by omega)
      intro j hj
      have := (hn.front_mem j).2 hj
      rw [List.length_eq_zero_iff.1 hlen] at this
      simp at this
    · rename_i hlen
      obtain ⟨h1, h2⟩ := ih (r + 1) _ _ hn (by omega)
      refine ⟨fun k i => ?_, ?_⟩
      · cases k with
        | zero =>
          simp only [List.getElem?_cons_zero, Option.some.injEq, exists_eq_left']
          exact hn.front_mem i
        | succ k =>
          rw [List.getElem?_cons_succ, h1 k i]
          rw [show r + 1 + 1 + k = r + 1 + (k + 1) by omega]
      · intro f hf
        rcases List.mem_cons.1 hf with rfl | hf
        · exact ⟨hn.front_sorted, fun he => hlen (by rw [he]; rfl)⟩
        · exact h2 f hf

theorem fnds_eq (F : List (Fin m → K)) : fastNonDominatedSort F =
    zeros F.length (fCnt F) ::
      fndsLoop F.length (fDom F) (F.length + 1) (zeros F.length (fCnt F)) (retire (fCnt F)) := rfl

theorem fnds_spec (F : List (Fin m → K)) :
    (∀ k i, (∃ f, (fastNonDominatedSort F)[k]? = some f ∧ i ∈ f) ↔ HasRank F i k) ∧
    (∀ f ∈ fastNonDominatedSort F, f.Pairwise (· < ·)) ∧
    (∀ f ∈ (fastNonDominatedSort F).tail, f ≠ []) := by
  rw [fnds_eq]
  have hi := FInv.init F
  obtain ⟨h1, h2⟩ := fndsLoop_spec (F.length + 1) 0 _ _ hi (by omega)
  refine ⟨fun k i => ?_, ?_, ?_⟩
  · cases k with
    | zero =>
      simp only [List.getElem?_cons_zero, Option.some.injEq, exists_eq_left']
      exact hi.front_mem i
    | succ k =>
      rw [List.getElem?_cons_succ, h1 k i]
      rw [show 0 + 1 + k = k + 1 by omega]
  · intro f hf
    rcases List.mem_cons.1 hf with rfl | hf
    · exact hi.front_sorted
    · exact (h2 f hf).1
  · intro f hf
    exact (h2 f hf).2

end Verif.Proofs
