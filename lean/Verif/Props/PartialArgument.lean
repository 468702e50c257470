import Verif.Spec.PartialArgument
import Mathlib.Data.List.Forall2

/-! # C37: fixed variables -/
namespace Verif.Props
open Verif.Model Verif.Spec

variable {α : Type*}

private theorem free_eq (names : List String) (fixed : FixedDict α) :
    paFree (paMasks names fixed) = freeCount names fixed := by
  unfold paFree paMasks freeCount
  rw [List.countP_map, ← List.countP_eq_length_filter]
  congr 1
  funext n
  cases h : fixed n <;> simp [h]

private theorem merge_full (names : List String) (fixed : FixedDict α) (x : List α) (hx : x.length = freeCount names fixed) :
    FullPoint names fixed x (paMerge (paMasks names fixed) (paValues names fixed) x) := by
  induction names generalizing x with
  | nil =>
    have : x = [] := List.length_eq_zero_iff.1 hx
    subst this
    exact ⟨rfl, fun i n v h => by simp at h, rfl⟩
  | cons n names ih =>
    cases hn : fixed n with
    | some v =>
      have hx' : x.length = freeCount names fixed := by simpa [freeCount, hn] using hx
      have e : paMerge (paMasks (n :: names) fixed) (paValues (n :: names) fixed) x =
          v :: paMerge (paMasks names fixed) (paValues names fixed) x := by
        simp [paMasks, paValues, hn, paMerge]
      obtain ⟨h1, h2, h3⟩ := ih x hx'
      rw [e]
      refine ⟨by simp [h1], ?_, ?_⟩
      · intro i m w hi hm
        cases i with
        | zero => simp at hi; subst hi; rw [hn] at hm; simpa using hm
        | succ i => simp at hi; simpa using h2 i m w hi hm
      · simp [hn, h3]
    | none =>
      cases x with
      | nil => simp [freeCount, hn] at hx
      | cons a x =>
        have hx' : x.length = freeCount names fixed := by simpa [freeCount, hn] using hx
        have e : paMerge (paMasks (n :: names) fixed) (paValues (n :: names) fixed) (a :: x) =
            a :: paMerge (paMasks names fixed) (paValues names fixed) x := by
          simp [paMasks, paValues, hn, paMerge]
        obtain ⟨h1, h2, h3⟩ := ih x hx'
        rw [e]
        refine ⟨by simp [h1], ?_, ?_⟩
        · intro i m w hi hm
          cases i with
          | zero => simp at hi; subst hi; rw [hn] at hm; cases hm
          | succ i => simp at hi; simpa using h2 i m w hi hm
        · simp [hn, h3]

/-- The specification determines the point. -/
theorem c37_full_point_unique (names : List String) (fixed : FixedDict α) (x y z : List α)
    (hy : FullPoint names fixed x y) (hz : FullPoint names fixed x z) : y = z := by
  induction names generalizing x y z with
  | nil => rw [List.length_eq_zero_iff.1 hy.1, List.length_eq_zero_iff.1 hz.1]
  | cons n names ih =>
    obtain ⟨hy1, hy2, hy3⟩ := hy
    obtain ⟨hz1, hz2, hz3⟩ := hz
    cases y with
    | nil => simp at hy1
    | cons a y =>
      cases z with
      | nil => simp at hz1
      | cons b z =>
        have hy2' : ∀ (i : ℕ) (m : String) (v : α), names[i]? = some m → fixed m = some v → y[i]? = some v :=
          fun i m v h1 h2 => by simpa using hy2 (i + 1) m v (by simpa using h1) h2
        have hz2' : ∀ (i : ℕ) (m : String) (v : α), names[i]? = some m → fixed m = some v → z[i]? = some v :=
          fun i m v h1 h2 => by simpa using hz2 (i + 1) m v (by simpa using h1) h2
        cases hn : fixed n with
        | some v =>
          have ha := hy2 0 n v rfl hn
          have hb := hz2 0 n v rfl hn
          simp at ha hb
          rw [ha, hb, ih x y z ⟨by simpa using hy1, hy2', by simpa [hn] using hy3⟩
            ⟨by simpa using hz1, hz2', by simpa [hn] using hz3⟩]
        | none =>
          simp only [List.zip_cons_cons, List.filter_cons, hn, Option.isNone_none, if_true, List.map_cons] at hy3 hz3
          subst hy3
          obtain ⟨e1, e2⟩ := List.cons.inj hz3
          rw [← e1, ih _ y z ⟨by simpa using hy1, hy2', rfl⟩ ⟨by simpa using hz1, hz2', e2⟩]

/-- C37 for one point: the function is called once, on the one-row batch with the full point. -/
theorem c37_single_partial {β : Type*} (func : List (List α) → β) (names : List String) (fixed : FixedDict α) (x : List α)
    (hx : x.length = freeCount names fixed) :
    ∃ y, FullPoint names fixed x y ∧ partialArgument func names fixed (.single x) = some (func [y]) := by
  refine ⟨_, merge_full names fixed x hx, ?_⟩
  unfold partialArgument
  simp only [paFill, broadcastAxis, if_pos (hx.trans (free_eq names fixed).symm)]
  rfl

private theorem mapM_id {β γ : Type*} (f : β → Option γ) (g : β → γ) (l : List β) (h : ∀ b ∈ l, f b = some (g b)) :
    l.mapM f = some (l.map g) := by
  induction l with
  | nil => rfl
  | cons b l ih =>
    rw [List.mapM_cons, h b (List.mem_cons_self ..), ih (fun c hc => h c (List.mem_cons_of_mem _ hc))]
    rfl

/-- C37 for a batch, as far as it is true: the number of points must be the number of free variables. -/
theorem c37_batch_partial {β : Type*} (func : List (List α) → β) (names : List String) (fixed : FixedDict α)
    (rows : List (List α)) (hw : ∀ r ∈ rows, r.length = freeCount names fixed) (hn : rows.length = freeCount names fixed) :
    ∃ ys, List.Forall₂ (FullPoint names fixed) rows ys ∧
      partialArgument func names fixed (.batch (freeCount names fixed) rows) = some (func ys) := by
  refine ⟨rows.map (paMerge (paMasks names fixed) (paValues names fixed)), ?_, ?_⟩
  · rw [List.forall₂_map_right_iff, List.forall₂_same]
    exact fun r hr => merge_full names fixed r (hw r hr)
  · have h : rows.mapM (broadcastAxis (paFree (paMasks names fixed))) = some (rows.map id) :=
      mapM_id _ id rows (fun r hr => if_pos ((hw r hr).trans (free_eq names fixed).symm))
    have h1 : broadcastAxis (freeCount names fixed) rows = some rows := if_pos hn
    unfold partialArgument
    simp only [paFill, h1, Option.bind_some, h, Option.map_some, List.map_id]

/-- C37 fails for every other batch: more than one point is refused, and one point is evaluated as many times as there are
free variables (the result has that many rows). -/
theorem c37_batch_fails {β : Type*} (func : List (List α) → β) (names : List String) (fixed : FixedDict α)
    (rows : List (List α)) (hw : ∀ r ∈ rows, r.length = freeCount names fixed) (hn : rows.length ≠ freeCount names fixed) :
    (rows.length ≠ 1 → partialArgument func names fixed (.batch (freeCount names fixed) rows) = none) ∧
    (∀ x, rows = [x] → ∃ y, FullPoint names fixed x y ∧
      partialArgument func names fixed (.batch (freeCount names fixed) rows) =
        some (func (List.replicate (freeCount names fixed) y))) := by
  constructor
  · intro h1
    have : broadcastAxis (freeCount names fixed) rows = none := by
      unfold broadcastAxis
      rw [if_neg hn]
      match rows, h1 with
      | [], _ => rfl
      | [a], h1 => exact absurd rfl h1
      | _ :: _ :: _, _ => rfl
    unfold partialArgument paFill
    simp only [this]
    rfl
  · rintro x rfl
    have hx := hw x (List.mem_singleton.2 rfl)
    refine ⟨_, merge_full names fixed x hx, ?_⟩
    have h1 : broadcastAxis (freeCount names fixed) [x] = some (List.replicate (freeCount names fixed) x) := by
      unfold broadcastAxis
      rw [if_neg hn]
    have h2 : (List.replicate (freeCount names fixed) x).mapM (broadcastAxis (paFree (paMasks names fixed))) =
        some ((List.replicate (freeCount names fixed) x).map id) :=
      mapM_id _ id _ (fun r hr => by
        rw [List.eq_of_mem_replicate hr]
        exact if_pos (hx.trans (free_eq names fixed).symm))
    unfold partialArgument paFill
    simp only [h1, Option.bind_some, h2, Option.map_some, List.map_id, List.map_replicate, id]

/-- Two points with three free variables are refused; one point with three free variables is evaluated three times. -/
theorem c37_batch_witness :
    ∃ (names : List String) (fixed : FixedDict ℕ),
      partialArgument id names fixed (.batch 3 [[1, 2, 3], [4, 5, 6]]) = none ∧
      partialArgument id names fixed (.batch 3 [[1, 2, 3]]) = some [[1, 9, 2, 3], [1, 9, 2, 3], [1, 9, 2, 3]] :=
  ⟨["a", "b", "c", "d"], fun n => if n = "b" then some 9 else none, by decide, by decide⟩

/-- C37: a point of the wrong length is refused, unless it has length one, which is silently spread over all free variables. -/
theorem c37_wrong_length {β : Type*} (func : List (List α) → β) (names : List String) (fixed : FixedDict α) (x : List α)
    (hx : x.length ≠ freeCount names fixed) :
    (x.length ≠ 1 → partialArgument func names fixed (.single x) = none) ∧
    (∀ a, x = [a] → ∃ y, FullPoint names fixed (List.replicate (freeCount names fixed) a) y ∧
      partialArgument func names fixed (.single x) = some (func [y])) := by
  have hne : ¬ x.length = paFree (paMasks names fixed) := fun h => hx (h.trans (free_eq names fixed))
  constructor
  · intro h1
    have : broadcastAxis (paFree (paMasks names fixed)) x = none := by
      unfold broadcastAxis
      rw [if_neg hne]
      match x, h1 with
      | [], _ => rfl
      | [a], h1 => exact absurd rfl h1
      | _ :: _ :: _, _ => rfl
    unfold partialArgument
    simp only [paFill, this]
    rfl
  · rintro a rfl
    refine ⟨_, merge_full names fixed (List.replicate (freeCount names fixed) a) (by simp), ?_⟩
    have : broadcastAxis (paFree (paMasks names fixed)) [a] = some (List.replicate (freeCount names fixed) a) := by
      unfold broadcastAxis
      rw [if_neg hne, free_eq]
    unfold partialArgument
    simp only [paFill, this]
    rfl

private theorem select_free (names : List String) (fixed : FixedDict α) {γ : Type*} (v : List γ) :
    paSelect (paMasks names fixed) v = ((names.zip v).filter (fun p => (fixed p.1).isNone)).map Prod.snd := by
  unfold paSelect paMasks
  rw [List.zip_map_left, List.filter_map, List.map_map]
  have h1 : ((fun p : Bool × γ => !p.1) ∘ Prod.map (fun v => (fixed v).isSome) id) =
      (fun p : String × γ => (fixed p.1).isNone) := by
    funext p; cases h : fixed p.1 <;> simp [h]
  rw [h1]
  rfl

/-- C37, gradients: a vector with one entry for each variable (at least two), or a matrix with one row for each variable, is reduced to
the entries of the free variables, in order; scalars are kept; a Python list of that length makes the call fail. -/
theorem c37_reduce_output (names : List String) (fixed : FixedDict α) {γ : Type*} (s : γ) (v : List γ) (rows : List (List γ))
    (c : ℕ) (hv : v.length = names.length) (hr : rows.length = names.length) (h2 : 2 ≤ names.length) :
    paReduce (paMasks names fixed) (.scalar s) = some (.scalar s) ∧
    paReduce (paMasks names fixed) (.vec v) =
      some (.vec (((names.zip v).filter (fun p => (fixed p.1).isNone)).map Prod.snd)) ∧
    paReduce (paMasks names fixed) (.mat names.length c rows) = some (.mat (freeCount names fixed) c
      (((names.zip rows).filter (fun p => (fixed p.1).isNone)).map Prod.snd)) ∧
    paReduce (paMasks names fixed) (.list v) = none := by
  have hm : (paMasks names fixed).length = names.length := by simp [paMasks]
  refine ⟨rfl, ?_, ?_, ?_⟩
  · rw [paReduce, if_pos (show 1 < v.length by omega), if_pos (hv.trans hm.symm), select_free]
  · rw [paReduce, if_pos hm.symm, select_free, free_eq]
  · rw [paReduce, if_pos ⟨hv.trans hm.symm, fun h => by rw [h] at hv; simp at hv; omega⟩]

/-- A batch of two points and two free variables out of three. -/
example : ∃ (names : List String) (fixed : FixedDict ℕ), freeCount names fixed = 2 ∧
    partialArgument id names fixed (.batch 2 [[1, 2], [3, 4]]) = some [[1, 9, 2], [3, 9, 4]] ∧
    partialArgument id names fixed (.single [1, 2]) = some [[1, 9, 2]] :=
  ⟨["a", "b", "c"], fun n => if n = "b" then some 9 else none, by decide, by decide, by decide⟩

end Verif.Props
