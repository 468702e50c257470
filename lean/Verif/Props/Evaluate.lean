import Verif.Model.Evaluate
import Verif.Spec.Optimizer
import Verif.Proofs.Optimizer
import Mathlib.Data.List.Perm.Basic
import Mathlib.Data.List.Nodup

/-!
# C141: evaluation in parallel gives the same results as evaluation one after the other
-/
namespace Verif.Props

open Verif.Model Verif.Spec Verif.Proofs

variable {P V : Type*}

/-- Every task finishes exactly once. -/
def IsSchedule (n : ℕ) (order : List ℕ) : Prop := order.Nodup ∧ ∀ i, i ∈ order ↔ i < n

private theorem fold_none (f : P → Option V) (X : List P) (order : List ℕ) : order.foldl (finishTask f X) none = none := by
  induction order with
  | nil => rfl
  | cons i order ih => simpa [finishTask] using ih

private theorem fold_fail (f : P → Option V) (X : List P) (order : List ℕ) (i : ℕ) (hi : i ∈ order) (hf : X[i]?.bind f = none) (l : Option (List (Option V))) :
    order.foldl (finishTask f X) l = none := by
  induction order generalizing l with
  | nil => simp at hi
  | cons j order ih =>
    rw [List.foldl_cons]
    rcases List.mem_cons.1 hi with rfl | h
    · have : finishTask f X l i = none := by
        unfold finishTask
        rw [hf]
        cases l <;> rfl
      rw [this, fold_none]
    · exact ih h _

private theorem fold_ok (f : P → Option V) (X : List P) : ∀ (order : List ℕ) (l : List (Option V)), (∀ i ∈ order, ∃ v, X[i]?.bind f = some v) →
    ∃ l', order.foldl (finishTask f X) (some l) = some l' ∧ l'.length = l.length ∧
      ∀ i, i < l.length → l'[i]? = if i ∈ order then some (X[i]?.bind f) else l[i]? := by
  intro order
  induction order with
  | nil => intro l _; exact ⟨l, rfl, rfl, by simp⟩
  | cons j order ih =>
    intro l h
    obtain ⟨v, hv⟩ := h j (by simp)
    have e : finishTask f X (some l) j = some (l.set j (some v)) := by simp [finishTask, hv]
    obtain ⟨l', h1, h2, h3⟩ := ih (l.set j (some v)) (fun i hi => h i (by simp [hi]))
    refine ⟨l', by rw [List.foldl_cons, e, h1], by rw [h2]; simp, fun i hi => ?_⟩
    rw [h3 i (by simpa using hi)]
    by_cases hio : i ∈ order
    · simp [hio]
    · by_cases hij : i = j
      · subst hij
        simp [hio, hi, hv]
      · simp [hio, hij, List.getElem?_set_ne (Ne.symm hij)]

private theorem mapM_id_some {l : List (Option V)} {vs : List V} (h : l = vs.map some) : l.mapM id = some vs := by
  subst h
  induction vs with
  | nil => rfl
  | cons v vs ih => simp [List.mapM_cons, ih]

private theorem mapM_eq_none {f : P → Option V} : ∀ {X : List P}, (∃ x ∈ X, f x = none) → X.mapM f = none := by
  intro X
  induction X with
  | nil => simp
  | cons a X ih =>
    rintro ⟨x, hx, hf⟩
    rw [List.mapM_cons]
    rcases List.mem_cons.1 hx with rfl | h
    · rw [hf]; rfl
    · cases hfa : f a with
      | none => rfl
      | some v => simp [ih ⟨x, h, hf⟩]

private theorem mapM_eq_some {f : P → Option V} : ∀ {X : List P}, (∀ x ∈ X, ∃ v, f x = some v) → ∃ vs, X.mapM f = some vs ∧ X.map f = vs.map some := by
  intro X
  induction X with
  | nil => intro _; exact ⟨[], rfl, rfl⟩
  | cons a X ih =>
    intro h
    obtain ⟨v, hv⟩ := h a (by simp)
    obtain ⟨vs, h1, h2⟩ := ih (fun x hx => h x (by simp [hx]))
    exact ⟨v :: vs, by simp [List.mapM_cons, hv, h1], by simp [hv, h2]⟩

/-- **C141, schedules.**  Whatever the order in which the parallel evaluations finish, the result is that of evaluating the points one after the other, exceptions
included. -/
theorem c141_schedule (f : P → Option V) (X : List P) (order : List ℕ) (h : IsSchedule X.length order) : parallelEval f X order = X.mapM f := by
  unfold parallelEval
  by_cases hall : ∀ x ∈ X, ∃ v, f x = some v
  · obtain ⟨vs, h1, h2⟩ := mapM_eq_some hall
    rw [h1]
    obtain ⟨l', e1, e2, e3⟩ := fold_ok f X order (List.replicate X.length none) (by
      intro i hi
      have hlt := (h.2 i).1 hi
      obtain ⟨v, hv⟩ := hall X[i] (List.getElem_mem hlt)
      exact ⟨v, by rw [List.getElem?_eq_getElem hlt]; exact hv⟩)
    rw [e1]
    refine mapM_id_some ?_
    rw [← h2]
    apply List.ext_getElem?
    intro i
    by_cases hi : i < X.length
    · rw [e3 i (by simpa using hi), if_pos ((h.2 i).2 hi), List.getElem?_map, List.getElem?_eq_getElem hi]
      rfl
    · rw [List.getElem?_eq_none (by rw [e2]; simpa using hi), List.getElem?_eq_none (by simpa using hi)]
  · push Not at hall
    obtain ⟨x, hx, hnone⟩ := hall
    have hfx : f x = none := by
      cases hf : f x with
      | none => rfl
      | some v => exact absurd hf (hnone v)
    obtain ⟨i, hi, rfl⟩ := List.mem_iff_getElem.1 hx
    rw [mapM_eq_none ⟨X[i], hx, hfx⟩, fold_fail f X order i ((h.2 i).2 hi) (by rw [List.getElem?_eq_getElem hi]; exact hfx)]
    rfl

/-- **C141, alignment.**  `evaluate` returns iff no evaluation raises, and then one value per point, each in the position of its point, for every number of jobs and every
schedule. -/
theorem c141_aligned (f : P → Option V) (jobs : ℕ) (order : List ℕ) (X : List P) (h : IsSchedule X.length order) :
    ((∃ vs, evaluatePoints f jobs order X = some vs) ↔ ∀ x ∈ X, ∃ v, f x = some v) ∧
    ∀ vs, evaluatePoints f jobs order X = some vs → X.map f = vs.map some := by
  have e : evaluatePoints f jobs order X = X.mapM f := by
    unfold evaluatePoints
    split_ifs
    · exact c141_schedule f X order h
    · rfl
  rw [e]
  by_cases hall : ∀ x ∈ X, ∃ v, f x = some v
  · obtain ⟨vs, h1, h2⟩ := mapM_eq_some hall
    rw [h1]
    refine ⟨⟨fun _ => hall, fun _ => ⟨vs, rfl⟩⟩, fun vs' h' => ?_⟩
    rw [← Option.some.inj h']
    exact h2
  · have hn : X.mapM f = none := by
      push Not at hall
      obtain ⟨x, hx, hnone⟩ := hall
      refine mapM_eq_none ⟨x, hx, ?_⟩
      cases hf : f x with
      | none => rfl
      | some v => exact absurd hf (hnone v)
    rw [hn]
    simp [hall]

/-- The points of a run with their values: those of the batches in which no evaluation raised, without the values that are not finite. -/
def runRecords {K : Type*} (f : P → Option (Obs K)) (batches : List (List P)) : List (P × K) :=
  (batches.filter (fun X => X.all (fun x => (f x).isSome))).flatten.filterMap (fun x => match f x with | some (.fin v) => some (x, v) | _ => none)

variable {K : Type*} [Field K] [LinearOrder K] [IsStrictOrderedRing K]

private theorem finitePart_zip (f : P → Option (Obs K)) : ∀ (X : List P) (vs : List (Obs K)), X.map f = vs.map some →
    finitePart (X.zip vs) = X.filterMap (fun x => match f x with | some (.fin v) => some (x, v) | _ => none) := by
  intro X
  induction X with
  | nil => intro vs h; simp [finitePart]
  | cons x X ih =>
    intro vs h
    cases vs with
    | nil => simp at h
    | cons v vs =>
      simp only [List.map_cons, List.cons.injEq] at h
      rw [List.zip_cons_cons]
      cases v <;> simp [finitePart, h.1, ih vs h.2]

/-- **C141, the recorded data do not depend on the parallelisation.**  After any sequence of batches the data are the evaluated points with their own values, in the order of
the batches, whatever the number of jobs and the schedules (and whether or not fitting the model fails). -/
theorem c141_run (cfg : Cfg K) (f : P → Option (Obs K)) (jobs : ℕ) (steps : List (EvalStep P)) (h : ∀ e ∈ steps, IsSchedule e.X.length e.order) :
    ((evalSteps cfg f jobs steps).data.getD []).map (fun r => (r.x, r.f)) = runRecords f (steps.map (fun e => e.X)) := by
  induction steps using List.reverseRecOn with
  | nil => simp [evalSteps, runRecords]
  | append_singleton steps e ih =>
    have ih := ih (fun e he => h e (by simp [he]))
    have hs : evalSteps cfg f jobs (steps ++ [e]) = evalTell cfg f jobs (evalSteps cfg f jobs steps) e := by simp [evalSteps]
    obtain ⟨a1, a2⟩ := c141_aligned f jobs e.order e.X (h e (by simp))
    have hrec : runRecords f ((steps ++ [e]).map (fun e => e.X)) = runRecords f (steps.map (fun e => e.X)) ++ runRecords f [e.X] := by
      simp [runRecords]
    rw [hs, hrec, ← ih]
    unfold evalTell
    cases hv : evaluatePoints f jobs e.order e.X with
    | none =>
      have hno : ¬ ∀ x ∈ e.X, ∃ v, f x = some v := by
        rw [← a1]
        rintro ⟨vs, hvs⟩
        rw [hv] at hvs
        cases hvs
      have : e.X.all (fun x => (f x).isSome) = false := by
        rw [← Bool.not_eq_true]
        intro hh
        exact hno (fun x hx => Option.isSome_iff_exists.1 (List.all_eq_true.1 hh x hx))
      simp [runRecords, this]
    | some vs =>
      have hall := a1.1 ⟨vs, hv⟩
      have hmap := a2 vs hv
      have hlen : e.X.length = vs.length := by simpa using congrArg List.length hmap
      have hb : e.X.all (fun x => (f x).isSome) = true :=
        List.all_eq_true.2 (fun x hx => Option.isSome_iff_exists.2 (hall x hx))
      have ht := (tell_spec cfg (evalSteps cfg f jobs steps) { X := e.X, vals := vs, oracle := e.oracle }).1
      change pairs _ = pairs _ ++ _
      rw [ht]
      congr 1
      have hr : runRecords f [e.X] = e.X.filterMap (fun x => match f x with | some (.fin v) => some (x, v) | _ => none) := by simp [runRecords, hb]
      rw [hr, ← finitePart_zip f e.X vs hmap]
      simp only [told]
      by_cases hX : e.X = []
      · rw [if_neg (by rintro ⟨h1, -⟩; exact h1 hX), hX]
        simp [finitePart]
      · exact if_pos ⟨hX, by simp [hlen], by simp⟩

/-- **C141, refuted for `parallel_obj_fun`.**  A function that returns too many values is not noticed: the first ones are taken and the call returns normally. -/
theorem c141_parallel_fun_refuted : ∃ (cfg : Cfg ℚ) (X : List ℕ) (vals : List (Obs ℚ)),
    vals.length ≠ X.length ∧ isOk (tell cfg {} { X := X, vals := vals }).2 = true :=
  ⟨{ minimize := true, maxFEs := none, ftarget := none }, [1, 2], [.fin 3, .fin 1, .fin 0], by simp, by decide +kernel⟩

/-- Three tasks that finish in the order 2, 0, 1. -/
example : IsSchedule [10, 20, 30].length [2, 0, 1] ∧ parallelEval (fun x : ℕ => some (x + 1)) [10, 20, 30] [2, 0, 1] = some [11, 21, 31] := by
  refine ⟨⟨by decide, fun i => ?_⟩, by decide⟩
  simp
  omega

end Verif.Props
