import Verif.Proofs.BoxPareto
import Verif.Proofs.LubCells
import Mathlib.Tactic.FinCases

/-!
# FastNondominatedPartitioning: the invariant of a history of updates
-/
namespace Verif.Proofs

open Verif.Model Verif.Spec

variable {m : ℕ}

/-- Above the reference point, the rows of `Q` (negated) dominate the same vectors as the outcomes `Y`. -/
def Decides (ref : Fin m → ℝ) (Q Y : List (Fin m → ℝ)) : Prop :=
  ∀ v : Fin m → ℝ, (∀ k, ref k < v k) → ((∃ y ∈ Y, ∀ k, v k ≤ y k) ↔ ∃ p ∈ Q, ∀ k, p k ≤ - v k)

theorem Decides.mem_iff {ref : Fin m → ℝ} {Q Y : List (Fin m → ℝ)} (h : Decides ref Q Y) (v : Fin m → ℝ) :
    v ∈ improvementRegion ref Y ↔ (∀ k, ref k < v k) ∧ ∀ p ∈ Q, ¬ ∀ k, p k ≤ - v k := by
  unfold improvementRegion
  rw [Set.mem_ofPred_eq]
  apply and_congr_right
  intro hv
  have := h v hv
  constructor
  · intro h1 p hp hpv
    obtain ⟨y, hy, hvy⟩ := this.2 ⟨p, hp, hpv⟩
    exact h1 y hy hvy
  · intro h1 y hy hvy
    obtain ⟨p, hp, hpv⟩ := this.1 ⟨y, hy, hvy⟩
    exact h1 p hp hpv

theorem decides_negParetoOf {argsort : List ℝ → List ℕ} (hs : Sorts argsort) (sort : Bool) (ref : Fin (m + 1) → ℝ)
    (Y : List (Fin (m + 1) → ℝ)) : Decides ref (negParetoOf argsort sort ref (negRows Y)) Y := by
  intro v hv
  have h := improvement_iff hs sort ref Y v
  unfold improvementRegion at h
  rw [Set.mem_ofPred_eq, and_iff_right hv, and_iff_right hv] at h
  constructor
  · intro h1
    by_contra hcon
    obtain ⟨y, hy, hvy⟩ := h1
    exact h.2 (fun p hp hpv => hcon ⟨p, hp, hpv⟩) y hy hvy
  · intro h1
    by_contra hcon
    obtain ⟨p, hp, hpv⟩ := h1
    exact h.1 (fun y hy hvy => hcon ⟨y, hy, hvy⟩) p hp hpv

/-! ### The general case -/

theorem lubRun_le {L : Type*} [LinearOrder L] {hi : Fin m → L} (zs : List (Fin m → L)) :
    ∀ {S : List (LubEntry m L)}, (∀ e ∈ S, ∀ k, e.u k ≤ hi k) → ∀ e ∈ lubRun zs S, ∀ k, e.u k ≤ hi k := by
  induction zs with
  | nil => intro S h; exact h
  | cons z zs ih =>
    intro S h
    apply ih
    intro e he k
    rcases mem_lubStep.1 he with ⟨h1, -⟩ | ⟨j, a, h1, h2, -, rfl⟩
    · exact h e h1 k
    · by_cases hk : k = j
      · subst hk
        simp only [LubEntry.replace, Function.update_self]
        exact le_trans (hit_iff.1 h2 k).le (h a h1 k)
      · simp only [LubEntry.replace, Function.update_of_ne hk]
        exact h a h1 k

theorem fastCells_ok (ref : Fin (m + 2) → ℝ) (zs : List (Fin (m + 2) → ℝ)) {Y : List (Fin (m + 2) → ℝ)}
    (hdec : Decides ref zs Y) :
    PartitionsReal (fastCells ref (lubRun (zs.map toExt) [fastInit ref])) (improvementRegion ref Y) := by
  intro v
  set lub := lubRun (zs.map toExt) [fastInit ref] with hlub
  have hle : ∀ e ∈ lub, ∀ k, e.u k ≤ toExt (fun k => - ref k) k := by
    apply lubRun_le
    intro e he k
    rw [List.mem_singleton] at he
    rw [he]
    exact le_refl _
  have hkey : (∃ z ∈ lub.map (fun e k => - e.u k), ∀ k, z k < (v k : EReal)) ↔ v ∈ improvementRegion ref Y := by
    rw [hdec.mem_iff]
    have h := lub_below (lo := fun _ : Fin (m + 2) => (⊥ : EReal)) (hi := toExt (fun k => - ref k))
      (fun k => EReal.bot_lt_coe _) (zs.map toExt) (fun z _ k => bot_le)
      (v := toExt (fun k => - v k)) (fun k => bot_le)
    have h1 : (∃ z ∈ lub.map (fun e k => - e.u k), ∀ k, z k < (v k : EReal)) ↔
        ∃ e ∈ lub, ∀ k, toExt (fun k => - v k) k < e.u k := by
      constructor
      · rintro ⟨z, hz, hzv⟩
        obtain ⟨e, he, rfl⟩ := List.mem_map.1 hz
        refine ⟨e, he, fun k => ?_⟩
        have := EReal.neg_lt_comm.1 (hzv k)
        simpa [toExt] using this
      · rintro ⟨e, he, hev⟩
        refine ⟨_, List.mem_map.2 ⟨e, he, rfl⟩, fun k => ?_⟩
        rw [EReal.neg_lt_comm]
        have := hev k
        simpa [toExt] using this
    rw [h1]
    refine h.trans (and_congr ?_ ?_)
    · refine forall_congr' (fun k => ?_)
      simp only [toExt, EReal.coe_lt_coe_iff]
      exact neg_lt_neg_iff
    · constructor
      · intro h2 p hp hpv
        exact h2 _ (List.mem_map.2 ⟨p, hp, rfl⟩) (fun k => by
          simp only [toExt, EReal.coe_le_coe_iff]
          exact hpv k)
      · intro h2 z hz hzv
        obtain ⟨p, hp, rfl⟩ := List.mem_map.1 hz
        exact h2 p hp (fun k => by
          have := hzv k
          simpa only [toExt, EReal.coe_le_coe_iff] using this)
  have hcell := lub_cells (lo := toExt ref) (hi := fun _ : Fin (m + 2) => (⊤ : EReal))
    (fun k => EReal.coe_lt_top _) (lub.map (fun e k => - e.u k)) (by
      intro z hz k
      obtain ⟨e, he, rfl⟩ := List.mem_map.1 hz
      have := hle e he k
      rw [EReal.le_neg]
      simpa [toExt] using this) (v := fun k => (v k : EReal)) (fun k => EReal.coe_lt_top _)
  rw [hkey] at hcell
  exact hcell

/-! ### Two objectives -/

/-- The cells from the left bound `a` on. -/
noncomputable def cellsFrom (r1 : EReal) : EReal → List (EReal × EReal) → List (Cell (m + 2) EReal)
  | a, [] => [⟨pairVec a r1, pairVec ⊤ ⊤⟩]
  | a, p :: P => ⟨pairVec a p.2, pairVec p.1 ⊤⟩ :: cellsFrom r1 p.1 P

theorem zip_cellsFrom (r1 : EReal) (P : List (EReal × EReal)) : ∀ a : EReal,
    List.zipWith (fun a b => (⟨a, b⟩ : Cell (m + 2) EReal))
      (List.zipWith (fun a b => pairVec a b) (a :: P.map Prod.fst) (P.map Prod.snd ++ [r1]))
      ((P.map Prod.fst ++ [⊤]).map (fun x => pairVec x ⊤)) = cellsFrom r1 a P := by
  induction P with
  | nil => intro a; rfl
  | cons p P ih =>
    intro a
    simp only [List.map_cons, List.cons_append, List.zipWith_cons_cons, cellsFrom]
    congr 1
    exact ih p.1

theorem cells2d_eq (ref : Fin (m + 2) → ℝ) (P : List (Fin (m + 2) → ℝ)) (hP : P ≠ []) :
    nonDominatedCells2d ref P =
      cellsFrom (ref 1 : EReal) (ref 0 : EReal) (P.map (fun p => ((p 0 : EReal), (p 1 : EReal)))) := by
  rw [← zip_cellsFrom]
  unfold nonDominatedCells2d
  simp only [List.map_map, Function.comp_def]
  have h0 : ∃ l, (P.map (fun p => (p 0 : EReal))).drop ((P.map (fun p => (p 0 : EReal))).length - 1) = [l] := by
    apply List.length_eq_one_iff.1
    rw [List.length_drop]
    have : 0 < (P.map (fun p => (p 0 : EReal))).length := by
      rw [List.length_map]; exact List.length_pos_iff.2 hP
    omega
  obtain ⟨l, hl⟩ := h0
  rw [hl]
  obtain ⟨p, P', rfl⟩ := List.exists_cons_of_ne_nil hP
  have e1 : ([(ref 0 : EReal)] ++ ((p :: P').map (fun p => (p 0 : EReal))) ++ [l]).dropLast =
      (ref 0 : EReal) :: (p :: P').map (fun p => (p 0 : EReal)) := by
    rw [List.dropLast_concat]; rfl
  have e2 : (((p :: P').map (fun p => (p 1 : EReal))).take 1 ++ (p :: P').map (fun p => (p 1 : EReal)) ++
      [(ref 1 : EReal)]).tail = (p :: P').map (fun p => (p 1 : EReal)) ++ [(ref 1 : EReal)] := by
    simp
  have e3 : (([(ref 0 : EReal)] ++ ((p :: P').map (fun p => (p 0 : EReal))) ++ [l]).drop 1).dropLast =
      (p :: P').map (fun p => (p 0 : EReal)) := by
    rw [List.append_assoc, List.singleton_append, List.drop_one, List.tail_cons, List.dropLast_concat]
  rw [e1, e2, e3]

/-- Coordinates of a vector with two outcomes. -/
theorem forall_fin2 {p : Fin (0 + 2) → Prop} : (∀ k, p k) ↔ p 0 ∧ p 1 := by
  constructor
  · intro h; exact ⟨h 0, h 1⟩
  · rintro ⟨h0, h1⟩ k
    fin_cases k
    · exact h0
    · exact h1

theorem inCell_pair {a b c d : EReal} {v : Fin (0 + 2) → EReal} :
    InCell (⟨pairVec a b, pairVec c d⟩ : Cell (0 + 2) EReal) v ↔
      (a < v 0 ∧ b < v 1) ∧ v 0 ≤ c ∧ v 1 ≤ d := by
  unfold InCell StrictlyBelow WeaklyBelow
  rw [forall_fin2, forall_fin2]
  rfl

theorem coverage_cons {L : Type*} [LinearOrder L] (c : Cell m L) (cs : List (Cell m L)) (v : Fin m → L) :
    (InCell c v → coverage (c :: cs) v = coverage cs v + 1) ∧
      (¬ InCell c v → coverage (c :: cs) v = coverage cs v) := by
  classical
  unfold coverage
  constructor
  · intro h; rw [List.countP_cons_of_pos (by simpa using h)]
  · intro h; rw [List.countP_cons_of_neg (by simpa using h)]

theorem coverage_nil {L : Type*} [LinearOrder L] (v : Fin m → L) : coverage ([] : List (Cell m L)) v = 0 := rfl

theorem cellsFrom_left (r1 : EReal) (P : List (EReal × EReal)) : ∀ (a : EReal) (v : Fin (0 + 2) → EReal),
    (∀ p ∈ P, a ≤ p.1) → P.Pairwise (fun p q => p.1 ≤ q.1) → v 0 ≤ a →
    coverage (cellsFrom (m := 0) r1 a P) v = 0 := by
  induction P with
  | nil =>
    intro a v _ _ hv
    rw [cellsFrom, (coverage_cons _ _ _).2, coverage_nil]
    rw [inCell_pair]
    exact fun h => absurd h.1.1 (not_lt.2 hv)
  | cons p P ih =>
    intro a v ha hs hv
    rw [List.pairwise_cons] at hs
    rw [cellsFrom, (coverage_cons _ _ _).2]
    · exact ih p.1 v hs.1 hs.2 (le_trans hv (ha p (by simp)))
    · rw [inCell_pair]
      exact fun h => absurd h.1.1 (not_lt.2 hv)

theorem cellsFrom_ok (r1 : EReal) (P : List (EReal × EReal)) : ∀ (a : EReal) (v : Fin (0 + 2) → EReal),
    (∀ p ∈ P, a ≤ p.1 ∧ r1 ≤ p.2) → P.Pairwise (fun p q => p.1 ≤ q.1 ∧ q.2 ≤ p.2) → a < v 0 →
    ((r1 < v 1 ∧ ∀ p ∈ P, ¬ (v 0 ≤ p.1 ∧ v 1 ≤ p.2)) → coverage (cellsFrom (m := 0) r1 a P) v = 1) ∧
    (¬ (r1 < v 1 ∧ ∀ p ∈ P, ¬ (v 0 ≤ p.1 ∧ v 1 ≤ p.2)) → coverage (cellsFrom (m := 0) r1 a P) v = 0) := by
  induction P with
  | nil =>
    intro a v _ _ hv
    constructor
    · rintro ⟨h1, -⟩
      rw [cellsFrom, (coverage_cons _ _ _).1, coverage_nil]
      exact inCell_pair.2 ⟨⟨hv, h1⟩, le_top, le_top⟩
    · intro h
      rw [cellsFrom, (coverage_cons _ _ _).2, coverage_nil]
      rw [inCell_pair]
      rintro ⟨⟨-, h2⟩, -⟩
      exact h ⟨h2, by simp⟩
  | cons p P ih =>
    intro a v ha hs hv
    rw [List.pairwise_cons] at hs
    have hp := ha p (by simp)
    by_cases hx : v 0 ≤ p.1
    · have hrest : coverage (cellsFrom (m := 0) r1 p.1 P) v = 0 :=
        cellsFrom_left r1 P p.1 v (fun q hq => (hs.1 q hq).1) (hs.2.imp (fun h => h.1)) hx
      constructor
      · rintro ⟨h1, h2⟩
        have hy : p.2 < v 1 := by
          by_contra hcon
          exact h2 p (by simp) ⟨hx, not_lt.1 hcon⟩
        rw [cellsFrom, (coverage_cons _ _ _).1 (inCell_pair.2 ⟨⟨hv, hy⟩, hx, le_top⟩), hrest]
      · intro h
        rw [cellsFrom, (coverage_cons _ _ _).2, hrest]
        rw [inCell_pair]
        rintro ⟨⟨-, hy⟩, -⟩
        apply h
        refine ⟨lt_of_le_of_lt hp.2 hy, ?_⟩
        intro q hq hvq
        rcases List.mem_cons.1 hq with rfl | hq
        · exact absurd hy (not_lt.2 hvq.2)
        · exact absurd (lt_of_le_of_lt (hs.1 q hq).2 hy) (not_lt.2 hvq.2)
    · rw [not_le] at hx
      have hnot : ¬ InCell (⟨pairVec a p.2, pairVec p.1 ⊤⟩ : Cell (0 + 2) EReal) v := by
        rw [inCell_pair]
        exact fun h => absurd h.2.1 (not_le.2 hx)
      rw [cellsFrom, (coverage_cons _ _ _).2 hnot]
      have hrec := ih p.1 v (fun q hq => ⟨(hs.1 q hq).1, (ha q (by simp [hq])).2⟩) hs.2 hx
      have hiff : (r1 < v 1 ∧ ∀ q ∈ p :: P, ¬ (v 0 ≤ q.1 ∧ v 1 ≤ q.2)) ↔
          (r1 < v 1 ∧ ∀ q ∈ P, ¬ (v 0 ≤ q.1 ∧ v 1 ≤ q.2)) := by
        apply and_congr_right
        intro _
        simp only [List.mem_cons, forall_eq_or_imp]
        apply and_iff_right
        exact fun h => absurd h.1 (not_le.2 hx)
      rw [hiff]
      exact hrec

/-- A sorted front of two objectives is decreasing in the second. -/
theorem front_sorted2 {ref : Fin (0 + 2) → ℝ} {P : List (Fin (0 + 2) → ℝ)} (hok : FrontOk ref P)
    (hs : P.Pairwise (fun p q => p 0 ≤ q 0)) : P.Pairwise (fun p q => p 0 < q 0 ∧ q 1 < p 1) := by
  refine (hok.apart.and hs).imp ?_
  rintro p q ⟨⟨⟨k, hk⟩, l, hl⟩, h0⟩
  have hk1 : k = 1 := by
    fin_cases k
    · exact absurd hk (not_lt.2 h0)
    · rfl
  subst hk1
  refine ⟨?_, hk⟩
  have hl0 : l = 0 := by
    fin_cases l
    · rfl
    · exact absurd hl (not_lt.2 hk.le)
  subst hl0
  exact hl

theorem cells2d_ok {ref : Fin (0 + 2) → ℝ} {P Y : List (Fin (0 + 2) → ℝ)} (hok : FrontOk ref P) (hne : P ≠ [])
    (hs : P.Pairwise (fun p q => p 0 ≤ q 0)) (hdec : Decides ref P Y) :
    PartitionsReal (nonDominatedCells2d ref (negRows P).reverse) (improvementRegion ref Y) := by
  intro v
  rw [hdec.mem_iff, cells2d_eq _ _ (by simpa [negRows] using hne)]
  set Q := (negRows P).reverse.map (fun p => ((p 0 : EReal), (p 1 : EReal))) with hQ
  have hmemQ : ∀ q ∈ Q, ∃ p ∈ P, q = (((- p 0 : ℝ) : EReal), ((- p 1 : ℝ) : EReal)) := by
    intro q hq
    simp only [hQ, List.mem_map, List.mem_reverse, negRows] at hq
    obtain ⟨_, ⟨p, hp, rfl⟩, rfl⟩ := hq
    exact ⟨p, hp, rfl⟩
  have hQmem : ∀ p ∈ P, (((- p 0 : ℝ) : EReal), ((- p 1 : ℝ) : EReal)) ∈ Q := by
    intro p hp
    simp only [hQ, List.mem_map, List.mem_reverse, negRows]
    exact ⟨_, ⟨p, hp, rfl⟩, rfl⟩
  have hsQ : Q.Pairwise (fun p q => p.1 ≤ q.1 ∧ q.2 ≤ p.2) := by
    rw [hQ, List.pairwise_map, List.pairwise_reverse]
    unfold negRows
    rw [List.pairwise_map]
    refine (front_sorted2 hok hs).imp ?_
    rintro p q ⟨h1, h2⟩
    simp only [EReal.coe_le_coe_iff]
    constructor <;> linarith
  have hbQ : ∀ p ∈ Q, (ref 0 : EReal) ≤ p.1 ∧ (ref 1 : EReal) ≤ p.2 := by
    intro q hq
    obtain ⟨p, hp, rfl⟩ := hmemQ q hq
    have h0 := hok.below p hp 0
    have h1 := hok.below p hp 1
    simp only [EReal.coe_le_coe_iff]
    constructor <;> linarith
  by_cases hv0 : ref 0 < v 0
  · have key := cellsFrom_ok (ref 1 : EReal) Q (ref 0 : EReal) (fun k => (v k : EReal)) hbQ hsQ
      (EReal.coe_lt_coe_iff.2 hv0)
    have hiff : ((∀ k, ref k < v k) ∧ ∀ p ∈ P, ¬ ∀ k, p k ≤ - v k) ↔
        ((ref 1 : EReal) < (v 1 : EReal) ∧ ∀ q ∈ Q, ¬ ((v 0 : EReal) ≤ q.1 ∧ (v 1 : EReal) ≤ q.2)) := by
      rw [forall_fin2, EReal.coe_lt_coe_iff]
      apply and_congr (and_iff_right hv0)
      constructor
      · intro h q hq hvq
        obtain ⟨p, hp, rfl⟩ := hmemQ q hq
        apply h p hp
        simp only [EReal.coe_le_coe_iff] at hvq
        rw [forall_fin2]
        constructor <;> linarith [hvq.1, hvq.2]
      · intro h p hp hpv
        apply h _ (hQmem p hp)
        rw [forall_fin2] at hpv
        simp only [EReal.coe_le_coe_iff]
        constructor <;> linarith [hpv.1, hpv.2]
    rw [hiff]
    exact key
  · constructor
    · intro h
      exact absurd (h.1 0) hv0
    · intro _
      apply cellsFrom_left _ _ _ _ (fun p hp => (hbQ p hp).1) (hsQ.imp (fun h => h.1))
      exact EReal.coe_le_coe_iff.2 (not_lt.1 hv0)

/-! ### Updates -/

/-- Every bound of the cells is at least the reference point. -/
def CellsAbove (ref : Fin m → ℝ) (cells : List (Cell m EReal)) : Prop :=
  ∀ c ∈ cells, ∀ k, (ref k : EReal) ≤ c.lo k ∧ (ref k : EReal) ≤ c.hi k

theorem lubRun_ge {L : Type*} [LinearOrder L] {lo : Fin m → L} (zs : List (Fin m → L))
    (hz : ∀ z ∈ zs, ∀ k, lo k ≤ z k) :
    ∀ {S : List (LubEntry m L)}, (∀ e ∈ S, ∀ j k, lo k ≤ e.Z j k) → ∀ e ∈ lubRun zs S, ∀ j k, lo k ≤ e.Z j k := by
  induction zs with
  | nil => intro S h; exact h
  | cons z zs ih =>
    intro S h
    apply ih (fun z' h' => hz z' (by simp [h']))
    intro e he j k
    rcases mem_lubStep.1 he with ⟨h1, -⟩ | ⟨i, a, h1, h2, -, rfl⟩
    · exact h e h1 j k
    · by_cases hk : j = i
      · subst hk
        simp only [LubEntry.replace, Function.update_self]
        exact hz z (by simp) k
      · simp only [LubEntry.replace, Function.update_of_ne hk]
        exact h a h1 j k

theorem fastCells_above (ref : Fin (m + 2) → ℝ) (zs : List (Fin (m + 2) → ℝ)) :
    CellsAbove ref (fastCells ref (lubRun (zs.map toExt) [fastInit ref])) := by
  set lub := lubRun (zs.map toExt) [fastInit ref] with hlub
  have hle : ∀ e ∈ lub, ∀ k, e.u k ≤ toExt (fun k => - ref k) k := by
    apply lubRun_le
    intro e he k
    rw [List.mem_singleton] at he
    rw [he]
    exact le_refl _
  intro c hc k
  unfold fastCells partitionBounds at hc
  obtain ⟨h1, h2⟩ := List.mem_filter.1 hc
  obtain ⟨e, he, rfl⟩ := List.mem_map.1 h1
  have hZ := lubRun_ge (lo := toExt ref) (lub.map (fun e k => - e.u k)) (by
      intro z hz k
      obtain ⟨e, he, rfl⟩ := List.mem_map.1 hz
      have := hle e he k
      rw [EReal.le_neg]
      simpa [toExt] using this) (S := [lubInit (toExt ref) (fun _ => ⊤)]) (by
      intro e he j k
      rw [List.mem_singleton] at he
      rw [he]
      simp only [lubInit]
      split_ifs
      · exact le_top
      · exact le_refl _) e he
  have hlo : (ref k : EReal) ≤ (LubEntry.cell (fun _ => ⊤) e).lo k := by
    simp only [LubEntry.cell]
    split_ifs with h0
    · subst h0; exact hZ 0 0
    · by_contra hcon
      rw [not_le] at hcon
      exact absurd ((maxBefore_lt h0).1 hcon 0 (Fin.pos_iff_ne_zero.2 h0)) (not_lt.2 (hZ 0 k))
  refine ⟨hlo, le_trans hlo ?_⟩
  simp only [Bool.not_eq_true', decide_eq_false_iff_not, not_exists, not_le] at h2
  exact (h2 k).le

theorem cellsFrom_above (ref : Fin (0 + 2) → ℝ) (P : List (EReal × EReal)) : ∀ a : EReal, (ref 0 : EReal) ≤ a →
    (∀ p ∈ P, (ref 0 : EReal) ≤ p.1 ∧ (ref 1 : EReal) ≤ p.2) →
    CellsAbove ref (cellsFrom (m := 0) (ref 1 : EReal) a P) := by
  induction P with
  | nil =>
    intro a ha _ c hc
    rw [cellsFrom, List.mem_singleton] at hc
    rw [hc, forall_fin2]
    exact ⟨⟨ha, le_top⟩, le_refl _, le_top⟩
  | cons p P ih =>
    intro a ha hP c hc
    have hp := hP p (by simp)
    rw [cellsFrom] at hc
    rcases List.mem_cons.1 hc with rfl | hc
    · rw [forall_fin2]
      exact ⟨⟨ha, hp.1⟩, hp.2, le_top⟩
    · exact ih p.1 hp.1 (fun q hq => hP q (by simp [hq])) c hc

theorem cells2d_above {ref : Fin (0 + 2) → ℝ} {P : List (Fin (0 + 2) → ℝ)} (hok : FrontOk ref P) (hne : P ≠ []) :
    CellsAbove ref (nonDominatedCells2d ref (negRows P).reverse) := by
  rw [cells2d_eq _ _ (by simpa [negRows] using hne)]
  apply cellsFrom_above ref _ _ (le_refl _)
  intro q hq
  simp only [List.mem_map, List.mem_reverse, negRows] at hq
  obtain ⟨_, ⟨p, hp, rfl⟩, rfl⟩ := hq
  have h0 := hok.below p hp 0
  have h1 := hok.below p hp 1
  simp only [EReal.coe_le_coe_iff]
  constructor <;> linarith

theorem single_cell_ok {ref : Fin (m + 2) → ℝ} {Y : List (Fin (m + 2) → ℝ)} (hdec : Decides ref [] Y) :
    PartitionsReal [⟨toExt ref, fun _ => ⊤⟩] (improvementRegion ref Y) := by
  intro v
  rw [hdec.mem_iff]
  have hin : InCell (⟨toExt ref, fun _ => ⊤⟩ : Cell (m + 2) EReal) (fun k => (v k : EReal)) ↔ ∀ k, ref k < v k := by
    unfold InCell StrictlyBelow WeaklyBelow toExt
    simp
  constructor
  · intro h
    rw [(coverage_cons _ _ _).1 (hin.2 h.1), coverage_nil]
  · intro h
    rw [(coverage_cons _ _ _).2, coverage_nil]
    intro h'
    exact h ⟨hin.1 h', by simp⟩

/-- The invariant. -/
structure FastInv (ref : Fin (m + 2) → ℝ) (Y : List (Fin (m + 2) → ℝ)) (s : FastState m) : Prop where
  negY : s.negY = negRows Y
  dec : Decides ref s.negPareto Y
  cells : PartitionsReal s.cells (improvementRegion ref Y)
  front : FrontOk ref s.negPareto
  rows : ∀ p ∈ s.negPareto, (fun k => - p k) ∈ Y
  above : CellsAbove ref s.cells
  lub : m ≠ 0 → s.negPareto ≠ [] → ∃ zs : List (Fin (m + 2) → ℝ),
    s.lub = lubRun (zs.map toExt) [fastInit ref] ∧ Decides ref zs Y

theorem rows_negParetoOf {argsort : List ℝ → List ℕ} (hs : Sorts argsort) (sort : Bool) (ref : Fin (m + 1) → ℝ)
    (Y : List (Fin (m + 1) → ℝ)) : ∀ p ∈ negParetoOf argsort sort ref (negRows Y), (fun k => - p k) ∈ Y := by
  intro p hp
  exact ((mem_frontier ref Y _).1 (mem_negRows.1 ((negParetoOf_perm hs sort ref Y).mem_iff.1 hp))).1

/-- The stored front, as a set. -/
theorem front_mem {ref : Fin m → ℝ} {Q Y : List (Fin m → ℝ)} (hdec : Decides ref Q Y) (hok : FrontOk ref Q)
    (hrows : ∀ p ∈ Q, (fun k => - p k) ∈ Y) (y : Fin m → ℝ) :
    y ∈ negRows Q ↔ y ∈ Y ∧ (∀ q ∈ Y, ¬ DominatesMax q y) ∧ ∀ k, ref k < y k := by
  have hany : ∀ p ∈ Q, ∀ q ∈ Q, (∀ k, q k ≤ p k) → p = q := by
    intro p hp q hq hle
    by_contra hne
    have : Std.Symm (fun p q : Fin m → ℝ => (∃ k, q k < p k) ∧ ∃ k, p k < q k) := ⟨fun a b h => ⟨h.2, h.1⟩⟩
    have := hok.apart.forall hp hq hne
    obtain ⟨-, l, hl⟩ := this
    exact absurd hl (not_lt.2 (hle l))
  rw [mem_negRows]
  constructor
  · intro h
    have hab : ∀ k, ref k < y k := fun k => by have := hok.below _ h k; linarith
    refine ⟨by simpa using hrows _ h, ?_, hab⟩
    rintro q hq ⟨h1, k, hk⟩
    obtain ⟨p, hp, hpq⟩ := (hdec q (fun k => lt_of_lt_of_le (hab k) (h1 k))).1 ⟨q, hq, fun k => le_refl _⟩
    have heq := hany _ h p hp (fun k => by
      have a := hpq k
      have b := h1 k
      linarith)
    have := congrFun heq k
    have a := hpq k
    linarith
  · rintro ⟨h1, h2, h3⟩
    obtain ⟨p, hp, hpy⟩ := (hdec y h3).1 ⟨y, h1, fun k => le_refl _⟩
    have : (fun k => - y k) = p := by
      funext k
      refine le_antisymm ?_ (hpy k)
      by_contra hcon
      refine h2 _ (hrows p hp) ⟨fun k => by have := hpy k; simp only; linarith, k, ?_⟩
      simp only
      linarith
    rw [this]
    exact hp

theorem fastPartition_inv {argsort : List ℝ → List ℕ} (hs : Sorts argsort) (ref : Fin (m + 2) → ℝ)
    (Y : List (Fin (m + 2) → ℝ)) (old : List (LubEntry (m + 2) EReal)) :
    FastInv ref Y ⟨negRows Y, negParetoOf argsort (m + 2 = 2) ref (negRows Y),
      (fastPartition ref (negParetoOf argsort (m + 2 = 2) ref (negRows Y)) old).1,
      (fastPartition ref (negParetoOf argsort (m + 2 = 2) ref (negRows Y)) old).2⟩ := by
  have hdec := decides_negParetoOf hs (m + 2 = 2) ref Y
  have hok := frontOk_of_perm hs (m + 2 = 2) ref Y
  refine ⟨rfl, hdec, ?_, hok, rows_negParetoOf hs _ ref Y, ?_, ?_⟩
  rotate_left
  · unfold fastPartition
    split_ifs with h1 h2
    · intro c hc k
      rw [List.mem_singleton] at hc
      rw [hc]
      exact ⟨le_refl _, le_top⟩
    · obtain rfl : m = 0 := by omega
      exact cells2d_above hok (fun h => h1 (by rw [h]; rfl))
    · exact fastCells_above ref _
  rotate_left
  · unfold fastPartition
    split_ifs with h1 h2
    · rw [List.length_eq_zero_iff.1 h1] at hdec
      exact single_cell_ok hdec
    · obtain rfl : m = 0 := by omega
      apply cells2d_ok hok (fun h => h1 (by rw [h]; rfl)) _ hdec
      unfold negParetoOf
      split_ifs with h3 h4
      · rw [List.length_eq_zero_iff.1 h3]
        exact List.Pairwise.nil
      · exact pickRows_sorted hs _
      · exact absurd h4 (by simp)
    · exact fastCells_ok ref _ hdec
  · intro hm hne
    refine ⟨_, ?_, hdec⟩
    unfold fastPartition
    rw [if_neg (fun h => hne (List.length_eq_zero_iff.1 h)), if_neg (by omega)]

theorem fastReset_inv {argsort : List ℝ → List ℕ} (hs : Sorts argsort) (ref : Fin (m + 2) → ℝ)
    (Y₀ Y : List (Fin (m + 2) → ℝ)) (old : Option (FastState m)) (hold : ∀ s, old = some s → FastInv ref Y₀ s)
    (hm : ∀ s, old = some s → m = 0 ∨ s.negPareto = []) :
    FastInv ref Y (fastReset argsort ref (negRows Y) old) := by
  unfold fastReset
  cases old with
  | none => exact fastPartition_inv hs ref Y []
  | some s =>
    simp only
    split_ifs with h
    · have hs0 := hold s rfl
      have hdec := decides_negParetoOf hs (m + 2 = 2) ref Y
      rw [h] at hdec
      have hreg : improvementRegion ref Y = improvementRegion ref Y₀ := by
        ext v
        rw [hdec.mem_iff, hs0.dec.mem_iff]
      have hrows := rows_negParetoOf hs (m + 2 = 2) ref Y
      rw [h] at hrows
      refine ⟨rfl, hdec, ?_, hs0.front, hrows, hs0.above, ?_⟩
      · rw [hreg]; exact hs0.cells
      · intro h1 h2
        rcases hm s rfl with h3 | h3
        · exact absurd h3 h1
        · exact absurd h3 h2
    · exact fastPartition_inv hs ref Y s.lub

theorem nd_dominates (Y : List (Fin m → ℝ)) (v : Fin m → ℝ) :
    (∃ y ∈ Y, ∀ k, v k ≤ y k) ↔ ∃ p ∈ compress Y (isNonDominated Y), ∀ k, v k ≤ p k := by
  constructor
  · rintro ⟨y, hy, hvy⟩
    have hfin : {q | q ∈ Y ∧ ∀ k, v k ≤ q k}.Finite := (List.finite_toSet Y).subset (fun q hq => hq.1)
    obtain ⟨q, hq⟩ := hfin.exists_maximal ⟨y, hy, hvy⟩
    refine ⟨q, ?_, hq.prop.2⟩
    rw [mem_compress_iff]
    have hex : ∃ i, Y[i]? = some q := List.mem_iff_getElem?.1 hq.prop.1
    classical
    refine ⟨Nat.find hex, Nat.find_spec hex, ?_⟩
    have hsp := Nat.find_spec hex
    rw [(Verif.Props.c02_is_non_dominated_dedup Y).2]
    refine ⟨⟨q, hsp, ?_⟩, (List.getElem?_eq_some_iff.1 hsp).1, ?_⟩
    · rintro q' hq' ⟨h1, k, hk⟩
      have := hq.le_of_ge (y := q') ⟨hq', fun k => le_trans (hq.prop.2 k) (h1 k)⟩ h1
      exact absurd (this k) (not_le.2 hk)
    · intro j hj hEq
      rw [hsp] at hEq
      exact Nat.find_min hex hj hEq
  · rintro ⟨p, hp, hvp⟩
    obtain ⟨i, h1, -⟩ := (mem_compress_iff _ _ _).1 hp
    exact ⟨p, List.mem_of_getElem? h1, hvp⟩

theorem nd_pairwise (Y : List (Fin m → ℝ)) :
    (compress Y (isNonDominated Y)).Pairwise (fun p q => (∃ k, q k < p k) ∧ ∃ k, p k < q k) := by
  apply compress_pairwise
  intro i j hij x y hx hy hi hj
  rw [(Verif.Props.c02_is_non_dominated_dedup Y).2] at hi hj
  obtain ⟨⟨x', hx', hndx⟩, -⟩ := hi
  obtain ⟨⟨y', hy', hndy⟩, hfy⟩ := hj
  rw [hx] at hx'; cases hx'
  rw [hy] at hy'; cases hy'
  have hne : x ≠ y := by
    rintro rfl
    exact hfy.2 i hij (by rw [hx, hy])
  have hxm := List.mem_of_getElem? hx
  have hym := List.mem_of_getElem? hy
  constructor
  · by_contra hcon
    push Not at hcon
    have : ∀ k, y k ≤ x k := by
      intro k
      by_contra hk
      exact hndx y hym ⟨hcon, k, not_le.1 hk⟩
    exact hne (funext fun k => le_antisymm (hcon k) (this k))
  · by_contra hcon
    push Not at hcon
    have : ∀ k, x k ≤ y k := by
      intro k
      by_contra hk
      exact hndy x hxm ⟨hcon, k, not_le.1 hk⟩
    exact hne (funext fun k => le_antisymm (this k) (hcon k))

theorem compress_negRows (Y : List (Fin m → ℝ)) : ∀ b : List Bool,
    compress (negRows Y) b = negRows (compress Y b) := by
  induction Y with
  | nil => intro b; simp [negRows, compress]
  | cons y Y ih =>
    intro b
    cases b with
    | nil => simp [negRows, compress]
    | cons x b =>
      have := ih b
      unfold negRows at this ⊢
      simp only [List.map_cons, compress]
      split_ifs
      · rw [List.map_cons, this]
      · exact this

theorem compress_length {α : Type*} (l : List α) : ∀ b : List Bool, b.length = l.length →
    (compress l b).length = b.count true := by
  induction l with
  | nil => intro b hb; rw [List.length_eq_zero_iff.1 hb]; rfl
  | cons x l ih =>
    intro b hb
    cases b with
    | nil => simp at hb
    | cons y b =>
      have := ih b (by simpa using hb)
      unfold compress
      cases y with
      | true => simp [this]
      | false => simp [this]

/-- The front kept by the incremental update, split into old and new rows. -/
theorem increment_inv {ref : Fin (m + 2) → ℝ} {Y₀ Y : List (Fin (m + 2) → ℝ)} {s : FastState m}
    (hdec : Decides ref s.negPareto Y₀) (hnegY : s.negY = negRows (Y₀ ++ Y))
    (hcells : PartitionsReal s.cells (improvementRegion ref Y₀))
    (hbelow : ∀ p ∈ s.negPareto, ∀ k, p k < - ref k) (hrows : ∀ p ∈ s.negPareto, (fun k => - p k) ∈ Y₀)
    (habove : CellsAbove ref s.cells)
    (hlub : ∃ zs : List (Fin (m + 2) → ℝ), s.lub = lubRun (zs.map toExt) [fastInit ref] ∧ Decides ref zs Y₀) :
    FastInv ref (Y₀ ++ Y) (fastIncrement ref s Y) := by
  obtain ⟨zs, hzs, hzdec⟩ := hlub
  set better := Y.filter (fun y => decide (∀ k, y k > ref k)) with hbetter
  set all := s.negPareto ++ negRows better with hall
  set mask := isNonDominated (negRows all) with hmask
  have hmlen : mask.length = all.length := by
    rw [hmask, (Verif.Props.c02_is_non_dominated_dedup (negRows all)).1]
    simp [negRows]
  set negPareto := compress all mask with hnp
  -- the kept rows dominate the same vectors as all rows
  have hkeep : ∀ v : Fin (m + 2) → ℝ, (∃ p ∈ all, ∀ k, p k ≤ - v k) ↔ ∃ p ∈ negPareto, ∀ k, p k ≤ - v k := by
    intro v
    have h := nd_dominates (negRows all) v
    rw [compress_negRows] at h
    constructor
    · rintro ⟨p, hp, hpv⟩
      obtain ⟨q, hq, hqv⟩ := h.1 ⟨fun k => - p k, mem_negRows.2 (by simpa using hp), fun k => by
        have := hpv k; linarith⟩
      exact ⟨_, mem_negRows.1 hq, fun k => by have := hqv k; linarith⟩
    · rintro ⟨p, hp, hpv⟩
      obtain ⟨q, hq, hqv⟩ := h.2 ⟨fun k => - p k, mem_negRows.2 (by simpa using hp), fun k => by
        have := hpv k; linarith⟩
      exact ⟨_, mem_negRows.1 hq, fun k => by have := hqv k; linarith⟩
  have hbet : ∀ v : Fin (m + 2) → ℝ, (∀ k, ref k < v k) →
      ((∃ y ∈ Y, ∀ k, v k ≤ y k) ↔ ∃ p ∈ negRows better, ∀ k, p k ≤ - v k) := by
    intro v hv
    constructor
    · rintro ⟨y, hy, hvy⟩
      refine ⟨fun k => - y k, mem_negRows.2 ?_, fun k => by have := hvy k; linarith⟩
      rw [hbetter, List.mem_filter]
      simp only [neg_neg, decide_eq_true_eq]
      exact ⟨hy, fun k => lt_of_lt_of_le (hv k) (hvy k)⟩
    · rintro ⟨p, hp, hpv⟩
      have := (List.mem_filter.1 (mem_negRows.1 hp)).1
      exact ⟨_, this, fun k => by have := hpv k; linarith⟩
  have hdecall : ∀ v : Fin (m + 2) → ℝ, (∀ k, ref k < v k) →
      ((∃ y ∈ Y₀ ++ Y, ∀ k, v k ≤ y k) ↔ ∃ p ∈ all, ∀ k, p k ≤ - v k) := by
    intro v hv
    have h1 := hdec v hv
    have h2 := hbet v hv
    constructor
    · rintro ⟨y, hy, hvy⟩
      rcases List.mem_append.1 hy with hy | hy
      · obtain ⟨p, hp, hpv⟩ := h1.1 ⟨y, hy, hvy⟩
        exact ⟨p, List.mem_append_left _ hp, hpv⟩
      · obtain ⟨p, hp, hpv⟩ := h2.1 ⟨y, hy, hvy⟩
        exact ⟨p, List.mem_append_right _ hp, hpv⟩
    · rintro ⟨p, hp, hpv⟩
      rcases List.mem_append.1 hp with hp | hp
      · obtain ⟨y, hy, hvy⟩ := h1.2 ⟨p, hp, hpv⟩
        exact ⟨y, List.mem_append_left _ hy, hvy⟩
      · obtain ⟨y, hy, hvy⟩ := h2.2 ⟨p, hp, hpv⟩
        exact ⟨y, List.mem_append_right _ hy, hvy⟩
  have hdec' : Decides ref negPareto (Y₀ ++ Y) := fun v hv => (hdecall v hv).trans (hkeep v)
  -- split of the kept rows
  set maskA := mask.take s.negPareto.length with hmA
  set maskB := mask.drop s.negPareto.length with hmB
  have hlenall : all.length = s.negPareto.length + better.length := by
    rw [hall]; simp [negRows]
  have hsplit : negPareto = compress s.negPareto maskA ++ compress (negRows better) maskB := by
    rw [hnp, hall, ← compress_append _ _ _ _ (by rw [hmA, List.length_take, hmlen, hlenall]; omega), hmA, hmB,
      List.take_append_drop]
  have hBlen : (compress (negRows better) maskB).length = maskB.count true := by
    apply compress_length
    rw [hmB, List.length_drop, hmlen, hlenall]
    simp [negRows]
  set numNew := (mask.drop (if better.length = 0 then 0 else mask.length - better.length)).count true with hnum
  -- the rows that are processed cover the new rows
  have hnewrows : better.length ≠ 0 → numNew = maskB.count true := by
    intro hb
    rw [hnum, if_neg hb, hmB, hmlen, hlenall]
    congr 2
    omega
  have hcover : ∀ p ∈ negPareto, p ∈ s.negPareto ∨ p ∈ negPareto.drop (negPareto.length - numNew) := by
    intro p hp
    rw [hsplit] at hp
    rcases List.mem_append.1 hp with hp | hp
    · obtain ⟨i, h1, -⟩ := (mem_compress_iff _ _ _).1 hp
      exact Or.inl (List.mem_of_getElem? h1)
    · right
      have hb : better.length ≠ 0 := by
        intro hb
        rw [List.length_eq_zero_iff.1 hb] at hp
        simp [negRows, compress] at hp
      rw [hnewrows hb, ← hBlen, hsplit, List.length_append, Nat.add_sub_cancel, List.drop_left]
      exact hp
  have hznew : ∀ v : Fin (m + 2) → ℝ, (∀ k, ref k < v k) →
      ((∃ y ∈ Y₀ ++ Y, ∀ k, v k ≤ y k) ↔
        ∃ p ∈ zs ++ negPareto.drop (negPareto.length - numNew), ∀ k, p k ≤ - v k) := by
    intro v hv
    constructor
    · intro h
      obtain ⟨p, hp, hpv⟩ := (hdec' v hv).1 h
      rcases hcover p hp with h1 | h1
      · obtain ⟨z, hz, hzv⟩ := (hzdec v hv).1 ((hdec v hv).2 ⟨p, h1, hpv⟩)
        exact ⟨z, List.mem_append_left _ hz, hzv⟩
      · exact ⟨p, List.mem_append_right _ h1, hpv⟩
    · rintro ⟨p, hp, hpv⟩
      rcases List.mem_append.1 hp with hp | hp
      · obtain ⟨y, hy, hvy⟩ := (hzdec v hv).2 ⟨p, hp, hpv⟩
        exact ⟨y, List.mem_append_left _ hy, hvy⟩
      · exact (hdec' v hv).2 ⟨p, List.mem_of_mem_drop hp, hpv⟩
  have hrunapp : lubRun ((negPareto.drop (negPareto.length - numNew)).map toExt) s.lub =
      lubRun ((zs ++ negPareto.drop (negPareto.length - numNew)).map toExt) [fastInit ref] := by
    rw [hzs, List.map_append]
    simp only [lubRun, List.foldl_append]
  have hres : fastIncrement ref s Y =
      if numNew > 0 then
        { s with
          negPareto := negPareto
          lub := lubRun ((negPareto.drop (negPareto.length - numNew)).map toExt) s.lub
          cells := fastCells ref (lubRun ((negPareto.drop (negPareto.length - numNew)).map toExt) s.lub) }
      else { s with negPareto := negPareto } := rfl
  have hbelow' : ∀ p ∈ negPareto, ∀ k, p k < - ref k := by
    intro p hp k
    obtain ⟨i, h1, -⟩ := (mem_compress_iff _ _ _).1 hp
    rcases List.mem_append.1 (List.mem_of_getElem? h1) with h | h
    · exact hbelow p h k
    · have h2 := (List.mem_filter.1 (mem_negRows.1 h)).2
      simp only [decide_eq_true_eq] at h2
      have := h2 k
      linarith
  have hrows' : ∀ p ∈ negPareto, (fun k => - p k) ∈ Y₀ ++ Y := by
    intro p hp
    obtain ⟨i, h1, -⟩ := (mem_compress_iff _ _ _).1 hp
    rcases List.mem_append.1 (List.mem_of_getElem? h1) with h | h
    · exact List.mem_append_left _ (hrows p h)
    · exact List.mem_append_right _ (List.mem_filter.1 (mem_negRows.1 h)).1
  have hfront : FrontOk ref negPareto := by
    refine ⟨hbelow', ?_⟩
    have h := nd_pairwise (negRows all)
    rw [compress_negRows] at h
    unfold negRows at h
    rw [List.pairwise_map] at h
    refine h.imp ?_
    rintro p q ⟨⟨k, hk⟩, l, hl⟩
    exact ⟨⟨l, by linarith⟩, k, by linarith⟩
  rw [hres]
  split_ifs with hpos
  · refine ⟨hnegY, hdec', ?_, hfront, hrows', by simp only; rw [hrunapp]; exact fastCells_above ref _, fun _ _ => ⟨_, hrunapp, hznew⟩⟩
    simp only
    rw [hrunapp]
    exact fastCells_ok ref _ hznew
  · have hnum0 : numNew = 0 := by omega
    rw [hnum0, Nat.sub_zero, List.drop_length, List.append_nil] at hznew
    refine ⟨hnegY, hdec', ?_, hfront, hrows', habove, fun _ _ => ⟨zs, hzs, hznew⟩⟩
    have hreg : improvementRegion ref (Y₀ ++ Y) = improvementRegion ref Y₀ := by
      ext v
      rw [Decides.mem_iff (Q := zs) hznew, hzdec.mem_iff]
    simp only
    rw [hreg]
    exact hcells

theorem fastUpdate_inv {argsort : List ℝ → List ℕ} (hs : Sorts argsort) (ref : Fin (m + 2) → ℝ)
    (Y₀ Y : List (Fin (m + 2) → ℝ)) (s : FastState m) (h : FastInv ref Y₀ s) :
    FastInv ref (Y₀ ++ Y) (fastUpdate argsort ref (some s) Y) := by
  have hneg : s.negY ++ negRows Y = negRows (Y₀ ++ Y) := by
    rw [h.negY]; simp [negRows]
  unfold fastUpdate
  simp only
  split_ifs with hc
  · rw [hneg]
    apply fastReset_inv hs ref Y₀
    · intro s' hs'; cases hs'; exact h
    · intro s' hs'; cases hs'
      rcases hc with hc | hc
      · left; omega
      · right; exact List.length_eq_zero_iff.1 hc
  · push Not at hc
    apply increment_inv (Y₀ := Y₀)
    · exact h.dec
    · exact hneg
    · exact h.cells
    · exact h.front.below
    · exact h.rows
    · exact h.above
    · exact h.lub (by omega) (fun h' => hc.2 (by rw [h']; rfl))

theorem fastHistory_inv {argsort : List ℝ → List ℕ} (hs : Sorts argsort) (ref : Fin (m + 2) → ℝ)
    (Ys : List (List (Fin (m + 2) → ℝ))) :
    match fastHistory argsort ref Ys with
    | none => Ys = []
    | some s => FastInv ref Ys.flatten s := by
  induction Ys using List.reverseRecOn with
  | nil => rfl
  | append_singleton Ys Y ih =>
    have hstep : fastHistory argsort ref (Ys ++ [Y]) =
        some (fastUpdate argsort ref (fastHistory argsort ref Ys) Y) := by
      simp [fastHistory, List.foldl_append]
    rw [hstep]
    simp only [List.flatten_append, List.flatten_singleton]
    rcases hh : fastHistory argsort ref Ys with _ | s
    · rw [hh] at ih
      simp only at ih
      rw [ih]
      exact fastReset_inv hs ref [] Y none (fun s h => by cases h) (fun s h => by cases h)
    · rw [hh] at ih
      exact fastUpdate_inv hs ref _ Y s ih

end Verif.Proofs
