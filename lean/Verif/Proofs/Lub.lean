import Verif.Model.LocalUpperBounds
import Mathlib.Data.List.Nodup
import Mathlib.Data.List.MinMax
import Mathlib.Data.Set.Finite.Lemmas
import Mathlib.Data.Set.Finite.Range
import Mathlib.Tactic.Tauto
import Mathlib.Tactic.Push
import Mathlib.Tactic.ByContra
import Mathlib.Data.Prod.Lex

/-!
# Local upper bounds: the points in general position

`Valid D e` characterises the entries the algorithm keeps after the points `D` (the dummy points
included), when no two points share a coordinate.
-/
namespace Verif.Proofs

open Verif.Model

variable {m : ℕ} {L : Type*} [LinearOrder L]

/-- The entry `e` is a local upper bound of `D` with its defining points. -/
structure Valid (D : Set (Fin m → L)) (e : LubEntry m L) : Prop where
  mem : ∀ k, e.Z k ∈ D
  diag : ∀ k, e.Z k k = e.u k
  off : ∀ k l, l ≠ k → e.Z k l < e.u l
  free : ∀ n ∈ D, ∃ k, e.u k ≤ n k

/-- What every set of processed points satisfies: the dummy points are in it, it lies above `lo`. -/
structure Based (lo hi : Fin m → L) (D : Set (Fin m → L)) : Prop where
  fin : D.Finite
  dummy : ∀ j, (lubInit lo hi).Z j ∈ D
  above : ∀ n ∈ D, ∀ k, lo k ≤ n k

theorem exists_ne_fin (k : Fin (m + 2)) : ∃ j : Fin (m + 2), j ≠ k := by
  by_cases h : k = 0
  · exact ⟨1, by rw [h]; exact fun h' => by simpa using congrArg Fin.val h'⟩
  · exact ⟨0, fun h' => h h'.symm⟩

theorem Valid.lo_lt {lo hi : Fin (m + 2) → L} {D : Set (Fin (m + 2) → L)} {e : LubEntry (m + 2) L}
    (he : Valid D e) (h : ∀ n ∈ D, ∀ k, lo k ≤ n k) (k : Fin (m + 2)) : lo k < e.u k := by
  obtain ⟨j, hj⟩ := exists_ne_fin k
  exact lt_of_le_of_lt (h _ (he.mem j) k) (he.off j k (Ne.symm hj))

/-- A least `j`-th coordinate among the points of a finite set satisfying a condition. -/
theorem exists_least {D : Set (Fin m → L)} (hfin : D.Finite) (p : (Fin m → L) → Prop) (j : Fin m)
    (hex : ∃ n ∈ D, p n) : ∃ n ∈ D, p n ∧ ∀ n' ∈ D, p n' → n j ≤ n' j := by
  have hf : {n | n ∈ D ∧ p n}.Finite := hfin.subset (fun n hn => hn.1)
  obtain ⟨n, hn, hmin⟩ := Set.exists_min_image _ (fun n : Fin m → L => n j) hf
    (by obtain ⟨n, h1, h2⟩ := hex; exact ⟨n, h1, h2⟩)
  exact ⟨n, hn.1, hn.2, fun n' h1 h2 => hmin n' ⟨h1, h2⟩⟩

theorem valid_u_eq {D : Set (Fin m → L)} {e e' : LubEntry m L} (he : Valid D e) (he' : Valid D e')
    (hZ : e.Z = e'.Z) : e = e' := by
  ext k
  · rw [← he.diag, ← he'.diag, hZ]
  · rw [hZ]

/-- No two points share a coordinate, except for the coordinates `lo` of the dummy points. -/
def GenPos (lo : Fin m → L) (D : Set (Fin m → L)) : Prop :=
  ∀ n ∈ D, ∀ n' ∈ D, ∀ j, n j = n' j → lo j < n j → n = n'

/-- Two valid entries which agree outside direction `j` agree in direction `j`. -/
theorem valid_dir {D : Set (Fin m → L)} {e e' : LubEntry m L} (he : Valid D e) (he' : Valid D e')
    (j : Fin m) (hu : ∀ k, k ≠ j → e.u k = e'.u k) : e.u j = e'.u j := by
  apply le_antisymm
  · obtain ⟨k, hk⟩ := he.free _ (he'.mem j)
    by_cases hkj : k = j
    · subst hkj
      rw [he'.diag] at hk
      exact hk
    · have := he'.off j k hkj
      rw [hu k hkj] at hk
      exact absurd this (not_lt.2 hk)
  · obtain ⟨k, hk⟩ := he'.free _ (he.mem j)
    by_cases hkj : k = j
    · subst hkj
      rw [he.diag] at hk
      exact hk
    · have := he.off j k hkj
      rw [← hu k hkj] at hk
      exact absurd this (not_lt.2 hk)

/-- A valid entry is determined by its bound. -/
theorem valid_unique {lo : Fin (m + 2) → L} {D : Set (Fin (m + 2) → L)} (hgp : GenPos lo D)
    (hab : ∀ n ∈ D, ∀ k, lo k ≤ n k) {e e' : LubEntry (m + 2) L} (he : Valid D e) (he' : Valid D e')
    (hu : e.u = e'.u) : e = e' := by
  apply valid_u_eq he he'
  funext j
  apply hgp _ (he.mem j) _ (he'.mem j) j
  · rw [he.diag, he'.diag, hu]
  · rw [he.diag]
    exact he.lo_lt (hi := lo) hab j

theorem mem_lubStep {S : List (LubEntry m L)} {z : Fin m → L} {e : LubEntry m L} :
    e ∈ lubStep S z ↔ (e ∈ S ∧ e.hit z = false) ∨
      ∃ j, ∃ a ∈ S, a.hit z = true ∧ a.addable z j = true ∧ a.replace z j = e := by
  unfold lubStep
  split_ifs with h
  · simp only [List.mem_append, List.mem_filter, List.mem_flatMap, List.mem_finRange, true_and,
      List.mem_map, Bool.not_eq_true']
    constructor
    · rintro (h1 | ⟨j, a, ⟨⟨h1, h2⟩, h3⟩, h4⟩)
      · exact Or.inl h1
      · exact Or.inr ⟨j, a, h1, h2, h3, h4⟩
    · rintro (h1 | ⟨j, a, h1, h2, h3, h4⟩)
      · exact Or.inl h1
      · exact Or.inr ⟨j, a, ⟨⟨h1, h2⟩, h3⟩, h4⟩
  · rw [List.any_eq_true] at h
    push Not at h
    constructor
    · intro he
      exact Or.inl ⟨he, by simpa using h e he⟩
    · rintro (h1 | ⟨j, a, h1, h2, -, -⟩)
      · exact h1.1
      · exact absurd h2 (h a h1)

theorem hit_iff {z : Fin m → L} {e : LubEntry m L} : e.hit z = true ↔ ∀ k, z k < e.u k := by
  simp [LubEntry.hit]

theorem hit_false_iff {z : Fin m → L} {e : LubEntry m L} : e.hit z = false ↔ ∃ k, e.u k ≤ z k := by
  rw [← Bool.not_eq_true, hit_iff]
  push Not
  rfl

theorem addable_iff {z : Fin m → L} {j : Fin m} {e : LubEntry m L} :
    e.addable z j = true ↔ ∀ k, k ≠ j → e.Z k j ≤ z j := by
  simp [LubEntry.addable]

/-- Entries made by the step are valid. -/
theorem replace_valid {D : Set (Fin m → L)} {a : LubEntry m L} (ha : Valid D a) {z : Fin m → L}
    (gp : ∀ n ∈ D, ∀ j, z j ≠ n j) (hhit : a.hit z = true) {j : Fin m} (hadd : a.addable z j = true) :
    Valid (insert z D) (a.replace z j) := by
  rw [hit_iff] at hhit
  rw [addable_iff] at hadd
  constructor
  · intro k
    by_cases hk : k = j
    · subst hk
      simp [LubEntry.replace]
    · simp only [LubEntry.replace, Function.update_of_ne hk]
      exact Set.mem_insert_of_mem _ (ha.mem k)
  · intro k
    by_cases hk : k = j
    · subst hk
      simp [LubEntry.replace]
    · simp only [LubEntry.replace, Function.update_of_ne hk]
      exact ha.diag k
  · intro k l hlk
    by_cases hk : k = j
    · subst hk
      simp only [LubEntry.replace, Function.update_self, Function.update_of_ne hlk]
      exact hhit l
    · simp only [LubEntry.replace, Function.update_of_ne hk]
      by_cases hl : l = j
      · subst hl
        rw [Function.update_self]
        exact lt_of_le_of_ne (hadd k hk) (Ne.symm (gp _ (ha.mem k) l))
      · rw [Function.update_of_ne hl]
        exact ha.off k l hlk
  · intro n hn
    rcases hn with rfl | hn
    · exact ⟨j, by simp [LubEntry.replace]⟩
    · obtain ⟨k, hk⟩ := ha.free n hn
      refine ⟨k, ?_⟩
      by_cases hkj : k = j
      · subst hkj
        simp only [LubEntry.replace, Function.update_self]
        exact le_trans (hhit k).le hk
      · simp only [LubEntry.replace, Function.update_of_ne hkj]
        exact hk

/-- One step, points in general position: the entries are the valid ones. -/
theorem lubStep_valid {lo hi : Fin (m + 2) → L} {D : Set (Fin (m + 2) → L)} (hB : Based lo hi D)
    {S : List (LubEntry (m + 2) L)} (hS : ∀ e, e ∈ S ↔ Valid D e) {z : Fin (m + 2) → L}
    (hz : ∀ k, lo k ≤ z k) (gp : ∀ n ∈ D, ∀ j, z j ≠ n j) (e : LubEntry (m + 2) L) :
    e ∈ lubStep S z ↔ Valid (insert z D) e := by
  have hzD : z ∉ D := fun h => gp z h 0 rfl
  rw [mem_lubStep]
  constructor
  · rintro (⟨h1, h2⟩ | ⟨j, a, h1, h2, h3, rfl⟩)
    · have hv := (hS e).1 h1
      refine ⟨fun k => Set.mem_insert_of_mem _ (hv.mem k), hv.diag, hv.off, ?_⟩
      rintro n (rfl | hn)
      · exact hit_false_iff.1 h2
      · exact hv.free n hn
    · exact replace_valid ((hS a).1 h1) gp h2 h3
  · intro hv
    by_cases hex : ∃ j, e.Z j = z
    · right
      obtain ⟨j, hj⟩ := hex
      have huj : e.u j = z j := by rw [← hv.diag, hj]
      have hZk : ∀ k, k ≠ j → e.Z k ∈ D := by
        intro k hk
        rcases hv.mem k with h | h
        · exfalso
          have h1 := hv.off k j (Ne.symm hk)
          rw [h, huj] at h1
          exact lt_irrefl _ h1
        · exact h
      have hab : ∀ n ∈ insert z D, ∀ k, lo k ≤ n k := by
        rintro n (rfl | hn)
        · exact hz
        · exact hB.above n hn
      have hlo : ∀ k, lo k < e.u k := hv.lo_lt (hi := hi) hab
      obtain ⟨w, hwD, hw, hmin⟩ := exists_least hB.fin (fun n => ∀ l, l ≠ j → n l < e.u l) j
        ⟨_, hB.dummy j, by
          intro l hl
          simp only [lubInit, if_neg hl]
          exact hlo l⟩
      have hzw : z j < w j := by
        apply lt_of_le_of_ne _ (gp w hwD j)
        by_contra hlt
        rw [not_le] at hlt
        obtain ⟨k, hk⟩ := hv.free w (Set.mem_insert_of_mem _ hwD)
        by_cases hkj : k = j
        · subst hkj
          rw [huj] at hk
          exact absurd hlt (not_lt.2 hk)
        · exact absurd (hw k hkj) (not_lt.2 hk)
      refine ⟨j, ⟨Function.update e.u j (w j), Function.update e.Z j w⟩, ?_, ?_, ?_, ?_⟩
      · rw [hS]
        constructor
        · intro k
          by_cases hk : k = j
          · subst hk
            simpa using hwD
          · simp only [Function.update_of_ne hk]
            exact hZk k hk
        · intro k
          by_cases hk : k = j
          · subst hk
            simp
          · simp only [Function.update_of_ne hk]
            exact hv.diag k
        · intro k l hlk
          by_cases hk : k = j
          · subst hk
            simp only [Function.update_self, Function.update_of_ne hlk]
            exact hw l hlk
          · simp only [Function.update_of_ne hk]
            by_cases hl : l = j
            · subst hl
              rw [Function.update_self]
              have := hv.off k l hlk
              rw [huj] at this
              exact this.trans hzw
            · rw [Function.update_of_ne hl]
              exact hv.off k l hlk
        · intro n hn
          by_contra hcon
          push Not at hcon
          have h1 : ∀ l, l ≠ j → n l < e.u l := by
            intro l hl
            have := hcon l
            simpa only [Function.update_of_ne hl] using this
          have h2 := hcon j
          simp only [Function.update_self] at h2
          exact absurd (hmin n hn h1) (not_le.2 h2)
      · rw [hit_iff]
        intro k
        by_cases hk : k = j
        · subst hk
          simpa using hzw
        · simp only [Function.update_of_ne hk]
          have := hv.off j k hk
          rwa [hj] at this
      · rw [addable_iff]
        intro k hk
        simp only [Function.update_of_ne hk]
        have := hv.off k j (Ne.symm hk)
        rw [huj] at this
        exact this.le
      · ext k
        · by_cases hk : k = j
          · subst hk
            simp [LubEntry.replace, huj]
          · simp [LubEntry.replace, Function.update_of_ne hk]
        · by_cases hk : k = j
          · subst hk
            simp [LubEntry.replace, hj]
          · simp [LubEntry.replace, Function.update_of_ne hk]
    · left
      push Not at hex
      have hmem : ∀ k, e.Z k ∈ D := fun k => (hv.mem k).resolve_left (hex k)
      refine ⟨(hS e).2 ⟨hmem, hv.diag, hv.off, fun n hn => hv.free n (Set.mem_insert_of_mem _ hn)⟩, ?_⟩
      exact hit_false_iff.2 (hv.free z (Set.mem_insert _ _))

/-- One step, points in general position: no entry appears twice. -/
theorem lubStep_nodup {lo hi : Fin (m + 2) → L} {D : Set (Fin (m + 2) → L)} (hB : Based lo hi D)
    (hgp : GenPos lo D) {S : List (LubEntry (m + 2) L)} (hS : ∀ e, e ∈ S ↔ Valid D e) (hnd : S.Nodup)
    {z : Fin (m + 2) → L} (gp : ∀ n ∈ D, ∀ j, z j ≠ n j) : (lubStep S z).Nodup := by
  have hzD : z ∉ D := fun h => gp z h 0 rfl
  unfold lubStep
  split_ifs with h
  · apply List.Nodup.append (hnd.filter _)
    · rw [List.nodup_flatMap]
      constructor
      · intro j _
        apply List.Nodup.map_on _ ((hnd.filter _).filter _)
        intro a ha b hb hab
        simp only [List.mem_filter] at ha hb
        have va := (hS a).1 ha.1.1
        have vb := (hS b).1 hb.1.1
        have hu : ∀ k, k ≠ j → a.u k = b.u k := by
          intro k hk
          have := congrFun (congrArg LubEntry.u hab) k
          simpa only [LubEntry.replace, Function.update_of_ne hk] using this
        apply valid_unique hgp hB.above va vb
        funext k
        by_cases hk : k = j
        · rw [hk]
          exact valid_dir va vb j hu
        · exact hu k hk
      · apply List.Pairwise.imp_of_mem (R := fun i j => i ≠ j) _ (List.nodup_finRange _)
        intro i j _ _ hij e he he'
        simp only [List.mem_map, List.mem_filter] at he he'
        obtain ⟨a, ⟨⟨haS, hah⟩, haa⟩, rfl⟩ := he
        obtain ⟨b, ⟨⟨hbS, hbh⟩, hba⟩, hab⟩ := he'
        have h1 : (LubEntry.replace z i a).Z i = z := by simp [LubEntry.replace]
        rw [← hab] at h1
        simp only [LubEntry.replace, Function.update_of_ne hij] at h1
        exact hzD (h1 ▸ ((hS b).1 hbS).mem i)
    · intro e he he'
      simp only [List.mem_filter, List.mem_flatMap, List.mem_map] at he he'
      obtain ⟨j, -, a, -, rfl⟩ := he'
      have := ((hS _).1 he.1).mem j
      simp only [LubEntry.replace, Function.update_self] at this
      exact hzD this
  · exact hnd

/-- The state before any point. -/
theorem lubInit_valid {lo hi : Fin (m + 2) → L} (hlt : ∀ k, lo k < hi k) (e : LubEntry (m + 2) L) :
    e ∈ [lubInit lo hi] ↔ Valid (Set.range (lubInit lo hi).Z) e := by
  have hab : ∀ n ∈ Set.range (lubInit lo hi).Z, ∀ k, lo k ≤ n k := by
    rintro _ ⟨j, rfl⟩ k
    simp only [lubInit]
    split_ifs with h
    · rw [h]; exact (hlt j).le
    · exact le_refl _
  rw [List.mem_singleton]
  constructor
  · rintro rfl
    refine ⟨fun k => ⟨k, rfl⟩, fun k => by simp [lubInit], fun k l hl => ?_, ?_⟩
    · simp only [lubInit, if_neg hl]
      exact hlt l
    · rintro _ ⟨j, rfl⟩
      exact ⟨j, by simp [lubInit]⟩
  · intro hv
    have hlo := hv.lo_lt (hi := hi) hab
    have hZ : ∀ k, e.Z k = (lubInit lo hi).Z k := by
      intro k
      obtain ⟨j, hj⟩ := hv.mem k
      by_cases hjk : k = j
      · rw [← hj, hjk]
      · exfalso
        have h1 := hv.diag k
        rw [← hj] at h1
        simp only [lubInit, if_neg hjk] at h1
        exact absurd (hlo k) (by rw [h1]; exact lt_irrefl _)
    ext k
    · rw [← hv.diag, hZ]
      simp [lubInit]
    · rw [hZ]

theorem genPos_init {lo hi : Fin m → L} : GenPos lo (Set.range (lubInit lo hi).Z) := by
  rintro _ ⟨i, rfl⟩ _ ⟨i', rfl⟩ j hij hlt
  by_cases h : j = i
  · by_cases h' : j = i'
    · rw [← h, ← h']
    · rw [hij] at hlt
      simp only [lubInit, if_neg h'] at hlt
      exact absurd hlt (lt_irrefl _)
  · simp only [lubInit, if_neg h] at hlt
    exact absurd hlt (lt_irrefl _)

theorem genPos_insert {lo : Fin m → L} {D : Set (Fin m → L)} (h : GenPos lo D) {z : Fin m → L}
    (gp : ∀ n ∈ D, ∀ j, z j ≠ n j) : GenPos lo (insert z D) := by
  rintro n (rfl | hn) n' (rfl | hn') j hj hlt
  · rfl
  · exact absurd hj (gp n' hn' j)
  · exact absurd hj.symm (gp n hn j)
  · exact h n hn n' hn' j hj hlt

/-- The points processed by a run together with the dummy points. -/
def allPoints (lo hi : Fin m → L) (zs : List (Fin m → L)) : Set (Fin m → L) :=
  {n | n ∈ zs ∨ n ∈ Set.range (lubInit lo hi).Z}

/-- Every point is above `lo` and shares no coordinate with a dummy point or an earlier point. -/
def Fresh (lo hi : Fin m → L) (zs : List (Fin m → L)) : Prop :=
  (∀ z ∈ zs, ∀ k, lo k ≤ z k ∧ z k ≠ lo k ∧ z k ≠ hi k) ∧
    zs.Pairwise (fun z z' => ∀ j, z' j ≠ z j)

/-- A whole run, points in general position. -/
theorem lubRun_valid {lo hi : Fin (m + 2) → L} (hlt : ∀ k, lo k < hi k) (zs : List (Fin (m + 2) → L))
    (hf : Fresh lo hi zs) :
    Based lo hi (allPoints lo hi zs) ∧ GenPos lo (allPoints lo hi zs) ∧
      (lubRun zs [lubInit lo hi]).Nodup ∧
      ∀ e, e ∈ lubRun zs [lubInit lo hi] ↔ Valid (allPoints lo hi zs) e := by
  induction zs using List.reverseRecOn with
  | nil =>
    have h0 : allPoints lo hi [] = Set.range (lubInit lo hi).Z := by
      ext n; simp [allPoints]
    rw [h0]
    refine ⟨⟨Set.finite_range _, fun j => ⟨j, rfl⟩, ?_⟩, genPos_init, by simp [lubRun], ?_⟩
    · rintro _ ⟨j, rfl⟩ k
      simp only [lubInit]
      split_ifs with h
      · rw [h]; exact (hlt j).le
      · exact le_refl _
    · exact fun e => lubInit_valid hlt e
  | append_singleton zs z ih =>
    have hf' : Fresh lo hi zs :=
      ⟨fun y hy => hf.1 y (by simp [hy]), (List.pairwise_append.1 hf.2).1⟩
    obtain ⟨hB, hg, hn, hv⟩ := ih hf'
    have hset : allPoints lo hi (zs ++ [z]) = insert z (allPoints lo hi zs) := by
      ext n
      simp only [allPoints, List.mem_append, List.mem_singleton, Set.mem_insert_iff, Set.mem_ofPred_eq]
      tauto
    have hzz := hf.1 z (by simp)
    have gp : ∀ n ∈ allPoints lo hi zs, ∀ j, z j ≠ n j := by
      rintro n (hn | ⟨i, rfl⟩) j
      · exact (List.pairwise_append.1 hf.2).2.2 n hn z (by simp) j
      · simp only [lubInit]
        split_ifs with h
        · rw [← h]; exact (hzz j).2.2
        · exact (hzz j).2.1
    have hrun : lubRun (zs ++ [z]) [lubInit lo hi] = lubStep (lubRun zs [lubInit lo hi]) z := by
      simp [lubRun, List.foldl_append]
    rw [hset, hrun]
    refine ⟨⟨hB.fin.insert z, fun j => Set.mem_insert_of_mem _ (hB.dummy j), ?_⟩,
      genPos_insert hg gp, lubStep_nodup hB hg hv hn gp, fun e =>
        lubStep_valid hB hv (fun k => (hzz k).1) gp e⟩
    rintro n (rfl | hn)
    · exact fun k => (hzz k).1
    · exact hB.above n hn

end Verif.Proofs
