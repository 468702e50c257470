import Verif.Model.Hypervolume
import Verif.Proofs.HvMeasure

/-!
# The dimension sweep computes volumes

`hvRec_zero`, `hvRec_one`: one and two dimensions, any nodes.  `hvInsert_fresh`: one further dimension when nothing is
reused, any nodes.  `hvRec_spec`: any dimension for nodes with different coordinates, with the caches (`area`, `volume`,
`bounds`) and the `ignore` marks.
-/
namespace Verif.Proofs
open Verif.Model

variable {data : ℕ → ℕ → ℝ}

/-! ### Orders -/

/-- `order i` lists the nodes below `n`, sorted by coordinate `i`. -/
structure Orders (data : ℕ → ℕ → ℝ) (n : ℕ) (order : ℕ → List ℕ) : Prop where
  perm : ∀ i, (order i).Perm (List.range n)
  sorted : ∀ i, (order i).Pairwise (fun x y => data x i ≤ data y i)

theorem listOrder_orders (data : ℕ → ℕ → ℝ) (n : ℕ) : Orders data n (listOrder data n) := by
  constructor
  · intro i
    induction i with
    | zero => exact List.perm_insertionSort _ _
    | succ i ih => exact (List.perm_insertionSort _ _).trans ih
  · intro i
    have key : ∀ l : List ℕ, (sortByDimension data l i).Pairwise (fun x y => data x i ≤ data y i) := by
      intro l
      haveI : Std.Total (fun x y => data x i ≤ data y i) := ⟨fun a b => le_total _ _⟩
      haveI : IsTrans ℕ (fun x y => data x i ≤ data y i) := ⟨fun a b c h1 h2 => le_trans h1 h2⟩
      exact List.pairwise_insertionSort _ l
    cases i with
    | zero => exact key _
    | succ i => exact key _

/-- The nodes of list `i` that are linked. -/
def linkedOrder (order : ℕ → List ℕ) (i : ℕ) (S : List ℕ) : List ℕ := (order i).filter (fun x => decide (x ∈ S))

theorem mem_linkedOrder {n : ℕ} {order : ℕ → List ℕ} (h : Orders data n order) {S : List ℕ} (hS : ∀ x ∈ S, x < n)
    (i x : ℕ) : x ∈ linkedOrder order i S ↔ x ∈ S := by
  simp only [linkedOrder, List.mem_filter, (h.perm i).mem_iff, List.mem_range, decide_eq_true_eq]
  exact ⟨fun h => h.2, fun h => ⟨hS x h, h⟩⟩

theorem linkedOrder_sorted {n : ℕ} {order : ℕ → List ℕ} (h : Orders data n order) (S : List ℕ) (i : ℕ) :
    (linkedOrder order i S).Pairwise (fun x y => data x i ≤ data y i) := (h.sorted i).filter _

theorem linkedOrder_nodup {n : ℕ} {order : ℕ → List ℕ} (h : Orders data n order) (S : List ℕ) (i : ℕ) :
    (linkedOrder order i S).Nodup := ((h.perm i).nodup_iff.mpr List.nodup_range).filter _

/-! ### One and two dimensions -/

theorem vol_one {S : List ℕ} {x : ℕ} (h0 : data x 0 ≤ 0) (hx : x ∈ S) (hmin : ∀ y ∈ S, data x 0 ≤ data y 0) :
    vol data 1 S = - data x 0 := by
  have e : boxes data 1 S = boxes data 1 [x] := by
    apply Set.Subset.antisymm
    · rintro v ⟨y, hy, hv⟩
      refine ⟨x, List.mem_singleton_self x, fun k => ?_⟩
      obtain rfl : k = 0 := Subsingleton.elim _ _
      exact ⟨(hmin y hy).trans (hv 0).1, (hv 0).2⟩
    · exact boxes_mono (fun y hy => by rw [List.mem_singleton.mp hy]; exact hx)
  have h1 : vol data 1 [x] = - data x 0 := by
    rw [← volBelow_zero, volBelow_add (c := data x 0) (by simp) h0 le_rfl, volBelow_cons le_rfl, volBelow_nil,
      vol_zero (by simp)]
    ring
  rw [vol, e, ← vol, h1]

theorem hvRec_zero {n : ℕ} {order : ℕ → List ℕ} (h : Orders data n order) (hneg : ∀ x, data x 0 ≤ 0) {S : List ℕ}
    (hS : ∀ x ∈ S, x < n) (s : HvState ℝ) : hvRec data order 0 S s = (vol data 1 S, s) := by
  have hm := mem_linkedOrder h hS 0
  have hs := linkedOrder_sorted h S 0
  rw [hvRec]
  change (match linkedOrder order 0 S with | [] => (0, s) | q :: _ => (- data q 0, s)) = _
  cases hl : linkedOrder order 0 S with
  | nil =>
    rw [hl] at hm
    rw [vol_congr (T := []) (fun x => (hm x).symm), vol_nil]
  | cons q rest =>
    rw [hl] at hm hs
    rw [← vol_congr hm, vol_one (x := q) (hneg q) List.mem_cons_self]
    intro y hy
    rcases List.mem_cons.mp hy with rfl | hy
    · exact le_rfl
    · exact (List.pairwise_cons.mp hs).1 y hy

/-- The sweep, from any state of the loop. `done` are the nodes up to `q`, `w` one of them with the least first
coordinate. -/
theorem hvSweep_eq (hneg : ∀ x k, data x k ≤ 0) (rest : List ℕ) : ∀ (q w : ℕ) (done : List ℕ), w ∈ done →
    (∀ y ∈ done, data w 0 ≤ data y 0) → (∀ y ∈ done, data y 1 ≤ data q 1) →
    (q :: rest).Pairwise (fun x y => data x 1 ≤ data y 1) →
    volBelow data 1 done (data q 1) + hvSweep data (data w 0) q rest = vol data 2 (rest ++ done) := by
  induction rest with
  | nil =>
    intro q w done hw hmin hq _
    rw [hvSweep, List.nil_append, ← volBelow_zero, volBelow_add hq (hneg q 1) le_rfl, vol_one (hneg w 0) hw hmin]
    ring
  | cons p rest ih =>
    intro q w done hw hmin hq hs
    have hqp : data q 1 ≤ data p 1 := (List.pairwise_cons.mp hs).1 p List.mem_cons_self
    have hd : ∀ y ∈ p :: done, data y 1 ≤ data p 1 := by
      intro y hy
      rcases List.mem_cons.mp hy with rfl | hy
      · exact le_rfl
      · exact (hq y hy).trans hqp
    have hperm : vol data 2 (p :: rest ++ done) = vol data 2 (rest ++ p :: done) := by
      apply vol_congr
      intro x
      simp only [List.cons_append, List.mem_cons, List.mem_append]
      tauto
    have hstep : volBelow data 1 (p :: done) (data p 1)
        = volBelow data 1 done (data q 1) + data w 0 * (data q 1 - data p 1) := by
      rw [volBelow_cons le_rfl, volBelow_add hq hqp (hneg p 1), vol_one (hneg w 0) hw hmin]
      ring
    rw [hvSweep, hperm]
    by_cases hlt : data p 0 < data w 0
    · rw [if_pos hlt, ← ih p p (p :: done) List.mem_cons_self _ hd (List.pairwise_cons.mp hs).2, hstep]
      · ring
      · intro y hy
        rcases List.mem_cons.mp hy with rfl | hy
        · exact le_rfl
        · exact hlt.le.trans (hmin y hy)
    · rw [if_neg hlt, ← ih p w (p :: done) (List.mem_cons_of_mem _ hw) _ hd (List.pairwise_cons.mp hs).2, hstep]
      · ring
      · intro y hy
        rcases List.mem_cons.mp hy with rfl | hy
        · exact not_lt.mp hlt
        · exact hmin y hy

theorem hvRec_one {n : ℕ} {order : ℕ → List ℕ} (h : Orders data n order) (hneg : ∀ x k, data x k ≤ 0) {S : List ℕ}
    (hS : ∀ x ∈ S, x < n) (s : HvState ℝ) : hvRec data order 1 S s = (vol data 2 S, s) := by
  have hm := mem_linkedOrder h hS 1
  have hs := linkedOrder_sorted h S 1
  rw [hvRec]
  change (match linkedOrder order 1 S with | [] => (0, s) | q :: rest => (hvSweep data (data q 0) q rest, s)) = _
  cases hl : linkedOrder order 1 S with
  | nil =>
    rw [hl] at hm
    rw [vol_congr (T := []) (fun x => (hm x).symm), vol_nil]
  | cons q rest =>
    rw [hl] at hm hs
    have := hvSweep_eq hneg rest q q [q] (by simp) (by simp) (by simp) hs
    rw [volBelow_cons le_rfl, volBelow_nil, zero_add] at this
    rw [← vol_congr hm]
    show (hvSweep data (data q 0) q rest, s) = _
    rw [this]
    congr 1
    apply vol_congr
    intro x
    simp only [List.mem_append, List.mem_cons]
    simp
    tauto

/-! ### One further dimension, nothing reused -/

/-- The loop that links nodes back, when the recursive call is exact and no node is marked. -/
theorem hvInsert_fresh {i : ℕ} {rec : List ℕ → HvState ℝ → ℝ × HvState ℝ} (hneg : ∀ x k, data x k ≤ 0)
    {n : ℕ} (hrec : ∀ S s, (∀ x ∈ S, x < n) → rec S s = (vol data i S, s)) (rest : List ℕ) :
    ∀ (q : ℕ) (linked : List ℕ) (hvol : ℝ) (s : HvState ℝ),
    (∀ y ∈ linked, data y i ≤ data q i) → (q :: rest).Pairwise (fun x y => data x i ≤ data y i) → rest.Nodup →
    (∀ x ∈ rest ++ linked, x < n) →
    (∀ p ∈ rest, s.ignore p < i) → s.area q i = vol data i linked → hvol = volBelow data i linked (data q i) →
    let r := hvInsert rec data i rest q linked hvol s
    r.1 - r.2.2.area r.2.1 i * data r.2.1 i = vol data (i + 1) (rest ++ linked) := by
  induction rest with
  | nil =>
    intro q linked hvol s hq _ _ _ _ ha hv
    rw [hvInsert]
    simp only [List.nil_append]
    rw [← volBelow_zero, volBelow_add hq (hneg q i) le_rfl, ha, hv]
    ring
  | cons p rest ih =>
    intro q linked hvol s hq hs hnd hP hig ha hv
    have hqp : data q i ≤ data p i := (List.pairwise_cons.mp hs).1 p List.mem_cons_self
    have hd : ∀ y ∈ p :: linked, data y i ≤ data p i := by
      intro y hy
      rcases List.mem_cons.mp hy with rfl | hy
      · exact le_rfl
      · exact (hq y hy).trans hqp
    have hPp : ∀ x ∈ p :: linked, x < n := fun x hx => hP x (by
      simp only [List.cons_append, List.mem_cons, List.mem_append] at hx ⊢; tauto)
    have hperm : vol data (i + 1) (p :: rest ++ linked) = vol data (i + 1) (rest ++ p :: linked) := by
      apply vol_congr
      intro x
      simp only [List.cons_append, List.mem_cons, List.mem_append]
      tauto
    rw [hvInsert, hperm]
    simp only
    set hvol' := hvol + s.area q i * (data p i - data q i) with hvol'_def
    have hig' : ¬ i ≤ ((hvLinkBounds data i p s).setVolume p i hvol').ignore p := not_le.mpr (hig p List.mem_cons_self)
    apply ih p (p :: linked) _ _ hd (List.pairwise_cons.mp hs).2 (List.nodup_cons.mp hnd).2
    · intro x hx
      refine hP x ?_
      simp only [List.cons_append, List.mem_cons, List.mem_append] at hx ⊢
      tauto
    · intro x hx
      have hxp : x ≠ p := fun e => (List.nodup_cons.mp hnd).1 (e ▸ hx)
      rw [hvArea, if_neg hig', hrec _ _ hPp]
      simp only
      split
      · simp only [HvState.setIgnore, if_neg hxp]
        exact hig x (List.mem_cons_of_mem _ hx)
      · exact hig x (List.mem_cons_of_mem _ hx)
    · rw [hvArea, if_neg hig', hrec _ _ hPp]
      simp only
      split <;> simp [HvState.setIgnore, HvState.setArea]
    · rw [volBelow_cons le_rfl, volBelow_add hq hqp (hneg p i), hvol'_def, ha, hv]

end Verif.Proofs
