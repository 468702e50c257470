import Verif.Proofs.HvGeneral
import Verif.Spec.Hypervolume
import Verif.Spec.Dominance
import Mathlib.MeasureTheory.Measure.Haar.Unique
import Mathlib.Algebra.Order.Ring.Rat
import Mathlib.Algebra.Field.Rat
import Mathlib.Data.Fin.VecNotation

/-!
# C08, C69: the hypervolume indicator
-/
namespace Verif.Props
open Verif.Model Verif.Proofs Verif.Spec MeasureTheory

private theorem mem_hvPoints {m : ℕ} {ref : Fin m → ℝ} {Y : List (Fin m → ℝ)} {p : Fin m → ℝ} :
    p ∈ hvPoints ref Y ↔ ∃ y ∈ Y, (∀ k, ref k ≤ y k) ∧ p = fun k => ref k - y k := by
  simp only [hvPoints, List.mem_map, List.mem_filter, decide_eq_true_eq]
  constructor
  · rintro ⟨a, ⟨⟨y, hy, rfl⟩, h⟩, rfl⟩
    refine ⟨y, hy, fun k => by have := h k; linarith, ?_⟩
    funext k; ring
  · rintro ⟨y, hy, h, rfl⟩
    refine ⟨fun k => - y k, ⟨⟨y, hy, rfl⟩, fun k => by have := h k; linarith⟩, ?_⟩
    funext k; ring

private theorem hvData_getElem {m : ℕ} (pts : List (Fin m → ℝ)) {x : ℕ} (hx : x < pts.length) (k : Fin m) :
    hvData pts x k = pts[x] k := by
  simp [hvData, hx]

private theorem hvData_nonpos {m : ℕ} (ref : Fin m → ℝ) (Y : List (Fin m → ℝ)) (x k : ℕ) :
    hvData (hvPoints ref Y) x k ≤ 0 := by
  rw [hvData]
  split
  · rename_i hk
    cases h : (hvPoints ref Y)[x]? with
    | none => simp
    | some p =>
      obtain ⟨y, _, hy, rfl⟩ := mem_hvPoints.mp (List.mem_of_getElem? h)
      simpa using hy ⟨k, hk⟩
  · exact le_rfl

/-- The volume of the shifted points is the hypervolume. -/
private theorem vol_eq_hypervolume {m : ℕ} (ref : Fin m → ℝ) (Y : List (Fin m → ℝ)) :
    vol (hvData (hvPoints ref Y)) m (List.range (hvPoints ref Y).length) = hypervolume ref Y := by
  have e : dominatedRegion ref Y
      = (fun v => ref - v) ⁻¹' boxes (hvData (hvPoints ref Y)) m (List.range (hvPoints ref Y).length) := by
    ext v
    constructor
    · rintro ⟨hv, y, hy, hle⟩
      have hmem : (fun k => ref k - y k) ∈ hvPoints ref Y :=
        mem_hvPoints.mpr ⟨y, hy, fun k => (hv k).trans (hle k), rfl⟩
      obtain ⟨x, hx, hxe⟩ := List.getElem_of_mem hmem
      refine ⟨x, List.mem_range.mpr hx, fun k => ?_⟩
      rw [hvData_getElem _ hx, hxe]
      have h1 := hv k
      have h2 := hle k
      simp only [Pi.sub_apply]
      constructor <;> linarith
    · rintro ⟨x, hx, hv⟩
      have hx' := List.mem_range.mp hx
      obtain ⟨y, hy, _, hpe⟩ := mem_hvPoints.mp (List.getElem_mem hx')
      have hk : ∀ k, ref k - y k ≤ ref k - v k ∧ ref k - v k ≤ 0 := by
        intro k
        have := hv k
        rw [hvData_getElem _ hx', hpe] at this
        exact this
      exact ⟨fun k => by have := (hk k).2; linarith, y, hy, fun k => by have := (hk k).1; linarith⟩
  have hmp : MeasurePreserving (fun v : Fin m → ℝ => ref - v) volume volume :=
    Measure.measurePreserving_sub_left volume ref
  rw [hypervolume, e, hmp.measure_preimage (boxes_measurable _ _).nullMeasurableSet, vol]

/-- **C08.** With two objectives `Hypervolume(ref).compute(Y)` is the area of the union of the boxes between the reference
point and the rows of `Y`, for every finite list of rows: duplicates, dominated rows, rows outside the reference box and
ties are allowed. -/
theorem c08_two_objectives (ref : Fin 2 → ℝ) (Y : List (Fin 2 → ℝ)) : hvCompute ref Y = hypervolume ref Y := by
  rw [← vol_eq_hypervolume, hvCompute]
  rw [hvRec_one (listOrder_orders _ _) (hvData_nonpos ref Y) (fun x hx => List.mem_range.mp hx)]

/-- **C69.** With one objective the result is exact for every list of rows. -/
theorem c69_one_objective (ref : Fin 1 → ℝ) (Y : List (Fin 1 → ℝ)) : hvCompute ref Y = hypervolume ref Y := by
  rw [← vol_eq_hypervolume, hvCompute]
  rw [hvRec_zero (listOrder_orders _ _) (fun x => hvData_nonpos ref Y x 0) (fun x hx => List.mem_range.mp hx)]

/-- With `bounds[i] = -inf` all nodes but the first are removed. -/
private theorem hvRemove_bot (data : ℕ → ℕ → ℝ) (i : ℕ) : ∀ (l : List ℕ) (q : ℕ) (removed : List ℕ) (b : ℕ → WithBot ℝ),
    b i = ⊥ → ∃ b', hvRemove data i (l ++ [q]) removed b = ([q], l.reverse ++ removed, b') := by
  intro l
  induction l with
  | nil => intro q removed b _; exact ⟨b, rfl⟩
  | cons x l ih =>
    intro q removed b hb
    have hstep : ∀ y t, l ++ [q] = y :: t → hvRemove data i (x :: l ++ [q]) removed b
        = hvRemove data i (l ++ [q]) (x :: removed) (minBounds b (data x)) := by
      intro y t h
      rw [List.cons_append, h, hvRemove, if_pos (Or.inl (by rw [hb]; exact WithBot.bot_lt_coe _))]
    obtain ⟨b', hb'⟩ := ih q (x :: removed) (minBounds b (data x)) (by simp [minBounds, hb])
    refine ⟨b', ?_⟩
    cases h : l ++ [q] with
    | nil => simp at h
    | cons y t =>
      rw [hstep y t h, hb']
      simp

/-- **C69.** With three objectives the result is exact for every list of rows. -/
theorem c69_three_objectives (ref : Fin 3 → ℝ) (Y : List (Fin 3 → ℝ)) : hvCompute ref Y = hypervolume ref Y := by
  rw [← vol_eq_hypervolume, hvCompute]
  set data := hvData (hvPoints ref Y) with hdata
  set n := (hvPoints ref Y).length with hn
  have hneg : ∀ x k, data x k ≤ 0 := hvData_nonpos ref Y
  have ho := listOrder_orders data n
  have hm := mem_linkedOrder ho (S := List.range n) (fun x hx => List.mem_range.mp hx) 2
  have hs := linkedOrder_sorted ho (List.range n) 2
  have hnd := linkedOrder_nodup ho (List.range n) 2
  rw [hvRec]
  change (hvLevel _ data 2 (linkedOrder (listOrder data n) 2 (List.range n)) (hvStart ℝ)).1 = _
  cases hl : linkedOrder (listOrder data n) 2 (List.range n) with
  | nil =>
    rw [hl] at hm
    rw [vol_congr (T := []) (fun x => (hm x).symm), vol_nil]
    rfl
  | cons q rest =>
    rw [hl] at hm hs hnd
    obtain ⟨b', hb'⟩ := hvRemove_bot data 2 rest.reverse q [] (hvReset 2 (q :: rest) (hvStart ℝ)).bounds rfl
    rw [hvLevel]
    simp only
    rw [List.reverse_cons, hb']
    simp only [List.reverse_reverse, List.append_nil, List.head?_nil]
    have hrec : ∀ S s, (∀ x ∈ S, x < n) → hvRec data (listOrder data n) 1 S s = (vol data 2 S, s) :=
      fun S s hS => hvRec_one ho hneg hS s
    have hlt : ∀ x ∈ q :: rest, x < n := fun x hx => List.mem_range.mp ((hm x).mp hx)
    set s1 : HvState ℝ := (hvBelow data 2 q none { hvReset 2 (q :: rest) (hvStart ℝ) with bounds := b' }).2 with hs1
    have hig1 : ∀ x, s1.ignore x = 0 := by
      intro x
      simp [hs1, hvBelow, HvState.setVolume, hvReset, hvStart]
    have hareaig : ∀ x, x ≠ q → (hvArea (hvRec data (listOrder data n) 1) 2 q none [q] s1).ignore x < 2 := by
      intro x hx
      rw [hvArea, if_neg (by rw [hig1]; omega), hrec _ _ (by simpa using hlt q List.mem_cons_self)]
      simp only
      split
      · simp [HvState.setIgnore, hx, HvState.setArea, hig1]
      · simp [HvState.setArea, hig1]
    have harea : (hvArea (hvRec data (listOrder data n) 1) 2 q none [q] s1).area q 2 = vol data 2 [q] := by
      rw [hvArea, if_neg (by rw [hig1]; omega), hrec _ _ (by simpa using hlt q List.mem_cons_self)]
      simp only
      split <;> simp [HvState.setIgnore, HvState.setArea]
    have := hvInsert_fresh (i := 2) hneg hrec rest q [q] 0 (hvArea (hvRec data (listOrder data n) 1) 2 q none [q] s1)
      (by simp) hs (List.nodup_cons.mp hnd).2
      (fun x hx => hlt x (by simp only [List.mem_append, List.mem_cons] at hx ⊢; simp at hx; tauto))
      (fun p hp => hareaig p (fun e => (List.nodup_cons.mp hnd).1 (e ▸ hp))) harea
      (by rw [volBelow_cons le_rfl, volBelow_nil])
    refine Eq.trans this (vol_congr (fun x => ?_))
    rw [← hm x]
    simp only [List.mem_append, List.mem_cons]
    simp
    tauto

/-- Rows in general position: no two of them agree in an objective and none agrees with the reference point in one. -/
def GeneralPosition {m : ℕ} {K : Type*} (ref : Fin m → K) (Y : List (Fin m → K)) : Prop :=
  Y.Pairwise (fun y z => ∀ k, y k ≠ z k) ∧ ∀ y ∈ Y, ∀ k, y k ≠ ref k

/-- **C69.** With any number of objectives the result is exact for rows in general position. -/
theorem c69_general_position_partial {m : ℕ} (ref : Fin (m + 1) → ℝ) (Y : List (Fin (m + 1) → ℝ))
    (hG : GeneralPosition ref Y) : hvCompute ref Y = hypervolume ref Y := by
  cases m with
  | zero => exact c69_one_objective ref Y
  | succ m =>
  rw [← vol_eq_hypervolume, hvCompute]
  set pts := hvPoints ref Y with hpts
  have hpw : pts.Pairwise (fun p q => ∀ k, p k ≠ q k) := by
    rw [hpts, hvPoints, List.pairwise_map]
    refine List.Pairwise.filter _ ?_
    rw [List.pairwise_map]
    refine hG.1.imp ?_
    intro y z h k e
    exact h k (by linarith)
  have hG' : General (hvData pts) pts.length (m + 2) := by
    constructor
    · intro k hk x hx y hy e
      have e' : pts[x] ⟨k, hk⟩ = pts[y] ⟨k, hk⟩ := by
        rw [← hvData_getElem pts hx ⟨k, hk⟩, ← hvData_getElem pts hy ⟨k, hk⟩]; exact e
      rcases Nat.lt_trichotomy x y with h | h | h
      · exact absurd e' (List.pairwise_iff_getElem.mp hpw x y hx hy h ⟨k, hk⟩)
      · exact h
      · exact absurd e'.symm (List.pairwise_iff_getElem.mp hpw y x hy hx h ⟨k, hk⟩)
    · intro k hk x hx
      have e := hvData_getElem pts hx ⟨k, hk⟩
      obtain ⟨y, hy, hle, hp⟩ := mem_hvPoints.mp (List.getElem_mem hx)
      have h1 := hle ⟨k, hk⟩
      have h2 := hG.2 y hy ⟨k, hk⟩
      have h3 : ref ⟨k, hk⟩ < y ⟨k, hk⟩ := lt_of_le_of_ne h1 (Ne.symm h2)
      have e2 : hvData pts x k = ref ⟨k, hk⟩ - y ⟨k, hk⟩ := by
        have := congrFun hp ⟨k, hk⟩
        exact e.trans this
      rw [e2]; linarith
  have ho := listOrder_orders (hvData pts) pts.length
  by_cases hne : List.range pts.length = []
  · rw [hne, vol_nil]
    cases m with
    | zero => rw [hvRec_one ho (hvData_nonpos ref Y) (by simp), vol_nil]
    | succ m =>
      rw [hvRec]
      have : List.filter (fun x => decide (x ∈ ([] : List ℕ))) (listOrder (hvData pts) pts.length (m + 2)) = [] := by
        simp
      rw [this]
      rfl
  · have := hvRec_spec ho hG' (hvData_nonpos ref Y) (m + 1) (by omega) (by omega) (List.range pts.length) (hvStart ℝ) hne
      (fun x hx => List.mem_range.mp hx) (Or.inr (fun k _ _ x _ h => absurd h (by simp [hvStart])))
      (fun q _ h => absurd rfl h)
    exact this.1

/-- Rows in general position, of which one lies outside the reference box, as `c69_general_position_partial` needs. -/
example : GeneralPosition (K := ℝ) (fun _ : Fin 4 => 0) [![5, 4, 1, 2], ![4, 5, 2, 1], ![-1, 6, 6, 6]] := by
  refine ⟨?_, ?_⟩
  · simp only [List.pairwise_cons, List.mem_cons, List.not_mem_nil, or_false, forall_eq_or_imp, forall_eq,
      List.Pairwise.nil, and_true, IsEmpty.forall_iff, implies_true]
    refine ⟨⟨?_, ?_⟩, ?_⟩ <;> intro k <;> fin_cases k <;> norm_num
  · intro y hy k
    simp only [List.mem_cons, List.not_mem_nil, or_false] at hy
    rcases hy with rfl | rfl | rfl <;> fin_cases k <;> norm_num

/-- **C69, refutation.** With ties the value depends on the order of the rows, even for rows none of which dominates
another: three such rows in five objectives give 153 in one order and 177 in another, so at least one of the two values is
not the hypervolume of the set. -/
theorem c69_order_of_rows_matters :
    ∃ (Y Y' : List (Fin 5 → ℚ)), Y.Perm Y' ∧ Y.Pairwise (fun y z => (∃ k, y k < z k) ∧ ∃ k, z k < y k) ∧
      hvCompute (fun _ => 0) Y = 153 ∧ hvCompute (fun _ => 0) Y' = 177 := by
  refine ⟨[![5, 5, 1, 2, 3], ![5, 5, 1, 3, 1], ![1, 1, 2, 1, 2]], [![5, 5, 1, 3, 1], ![5, 5, 1, 2, 3], ![1, 1, 2, 1, 2]],
    List.Perm.swap _ _ _, ?_, ?_, ?_⟩ <;> decide +kernel

/-- **C69, refutation.** With four objectives a dominated row that ties with the row dominating it in three objectives
lowers the value: adding the row `(5, 5, 1, 2)` to `(5, 5, 1, 3)` and `(1, 1, 2, 1)` changes 76 into 52. -/
theorem c69_dominated_row_lowers :
    hvCompute (fun _ => 0) [![5, 5, 1, 3], ![1, 1, 2, (1 : ℚ)]] = 76 ∧
      hvCompute (fun _ => 0) [![5, 5, 1, 2], ![5, 5, 1, 3], ![1, 1, 2, (1 : ℚ)]] = 52 := by
  constructor <;> decide +kernel

end Verif.Props
