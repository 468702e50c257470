import Verif.Model.Fmin
import Verif.Proofs.Optimizer

/-! # C47, C59: the results of `fmin` -/
namespace Verif.Props
open Verif.Model Verif.Spec Verif.Proofs

variable {P K : Type*} [Field K] [LinearOrder K] [IsStrictOrderedRing K]

/-- What iteration `j` evaluates: the points of its batch with their finite values. -/
def evaluatedIn (inp : ℕ → StepIn P K) (j : ℕ) : List (P × K) := finitePart ((inp j).batch.zip (inp j).vals)

private theorem run_data (cfg : Cfg K) (inp : ℕ → StepIn P K) : ∀ (fuel i : ℕ) (s : OptState P K),
    ∀ k s' r, run cfg inp fuel i s = .returned k s' r →
      i ≤ k ∧ s'.iterCount = s.iterCount + (k - i) ∧ xopt cfg s' = .ok (some r) ∧
      pairs s' = pairs s ++ (List.range (k - i)).flatMap (fun j => evaluatedIn inp (i + j)) ∧
      s'.evalCount = s.evalCount + ((List.range (k - i)).map (fun j => (inp (i + j)).batch.length)).sum := by
  intro fuel
  induction fuel with
  | zero => intro i s k s' r h; simp [run] at h
  | succ fuel ih =>
    intro i s k s' r h
    unfold run at h
    have hframe := checkStop_frame cfg s
    split at h
    · cases h
    · rename_i s1 hcs
      rw [hcs] at hframe
      simp only [] at hframe
      split at h
      · rename_i r' hx
        cases h
        refine ⟨le_rfl, by simp [hframe.2.2.1], hx, ?_, by simp [hframe.2.1]⟩
        simp [pairs, hframe.1]
      · cases h
    · rename_i s1 hcs
      rw [hcs] at hframe
      simp only [] at hframe
      split at h
      · cases h
      · split at h
        · cases h
        · rename_i s2 u htell
          obtain ⟨t1, _, _, t4, t5, _, t7, _⟩ := tell_spec cfg s1
            { X := (inp i).batch, vals := (inp i).vals, oracle := (inp i).oracle }
          rw [htell] at t1 t4 t5 t7
          have hwf := (t4 rfl).1
          obtain ⟨q1, q2, q3, q4, q5⟩ := ih (i + 1) s2 k s' r h
          have hk : k - i = (k - (i + 1)) + 1 := by omega
          have hp1 : pairs s1 = pairs s := by simp [pairs, hframe.1]
          refine ⟨by omega, ?_, q3, ?_, ?_⟩
          · have := (t5 ⟨rfl, rfl⟩).1
            simp only [] at this
            rw [q2, this, hframe.2.2.1]; omega
          · rw [q4, t1, hp1, told_tell, if_pos hwf, hk, List.range_succ_eq_map, List.flatMap_cons, List.append_assoc,
              List.flatMap_map]
            simp only [evaluatedIn, Nat.add_zero]
            congr 2
            apply List.flatMap_congr
            intro j _
            rw [show i + 1 + j = i + j.succ by omega]
          · have := t7 hwf
            simp only [Bool.false_eq_true, if_false] at this
            rw [q5, this, hframe.2.1, hk, List.range_succ_eq_map, List.map_cons, List.sum_cons, List.map_map,
              Nat.add_zero, Nat.add_assoc]
            congr 3
            apply List.map_congr_left
            intro j _
            simp only [Function.comp]
            rw [show i + 1 + j = i + j.succ by omega]

/-- C59: the first two results of `fmin` are a recorded pair, and its value is the best of everything recorded
(the warm-start data and every finite value evaluated); the third is the number of iterations, the fourth the
number of points evaluated by these iterations. -/
theorem c59_fmin_result (cfg : Cfg K) (inp : ℕ → StepIn P K) (N n fuel : ℕ) (s0 : OptState P K)
    (h0 : s0.evalCount = 0 ∧ s0.iterCount = 0) (res : FminResult P K)
    (h : fmin cfg inp N n fuel s0 = some res) :
    let all := pairs s0 ++ (List.range res.iterations).flatMap (evaluatedIn inp)
    (res.xopt, res.fopt) ∈ all ∧ IsBestOf cfg.minimize res.fopt (all.map Prod.snd) ∧
    res.evaluations = ((List.range res.iterations).map (fun j => (inp j).batch.length)).sum := by
  intro all
  unfold fmin at h
  split at h
  · rename_i k s r hr
    obtain ⟨_, h2, h3, h4, h5⟩ := run_data cfg inp fuel 0 s0 k s r hr
    cases h
    have hk : s.iterCount = k := by rw [h2, h0.2]; omega
    have hall : all = pairs s := by
      simp only [all, h4, hk, Nat.sub_zero, Nat.zero_add]
    refine ⟨?_, ?_, ?_⟩
    · simp only [hall]
      unfold xopt at h3
      cases hd : s.data with
      | none => rw [hd] at h3; simp at h3
      | some d =>
        rw [hd] at h3
        simp only [] at h3
        cases hi : incumbent cfg.minimize d with
        | none => rw [hi] at h3; cases h3
        | some r' =>
          rw [hi] at h3
          cases h3
          obtain ⟨_, i, hi2, _⟩ := incumbent_spec hi
          simp only [pairs, hd, Option.getD_some]
          exact List.mem_map.mpr ⟨r, List.mem_of_getElem? hi2, rfl⟩
    · simp only [hall, ← pairs_snd]
      unfold xopt at h3
      cases hd : s.data with
      | none => rw [hd] at h3; simp at h3
      | some d =>
        rw [hd] at h3
        simp only [] at h3
        cases hi : incumbent cfg.minimize d with
        | none => rw [hi] at h3; cases h3
        | some r' =>
          rw [hi] at h3
          cases h3
          exact (incumbent_spec hi).1
    · simp only [h5, h0.1, hk, Nat.sub_zero, Nat.zero_add]
  · cases h

/-- How often the objective is called in all: for the points of `x0` and by the iterations. -/
def totalCalls (func : P → K) (dim : ℕ) (x0 : X0 P K) (inp : ℕ → StepIn P K) (k : ℕ) : ℕ :=
  (fminStart func dim x0).2.2 + ((List.range k).map (fun j => (inp j).batch.length)).sum

/-- C59, partial: unless `x0` gives points without values, the reported number of evaluations is the number of calls of
the objective. -/
theorem c59_calls_partial (func : P → K) (dim : ℕ) (x0 : X0 P K) (cfg : Cfg K) (inp : ℕ → StepIn P K) (N n fuel : ℕ)
    (s0 : OptState P K) (h0 : s0.evalCount = 0 ∧ s0.iterCount = 0) (res : FminResult P K)
    (h : fmin cfg inp N n fuel s0 = some res) (hx : ∀ X, x0 ≠ .points X .none) :
    res.evaluations = totalCalls func dim x0 inp res.iterations := by
  rw [(c59_fmin_result cfg inp N n fuel s0 h0 res h).2.2, totalCalls]
  cases x0 with
  | none => simp [fminStart]
  | size m => simp [fminStart]
  | points X y =>
    cases y with
    | none => exact absurd rfl (hx X)
    | some y => simp [fminStart]

/-- C59 refuted: when `x0` gives points without values, the calls made for them are not reported. -/
theorem c59_warm_calls_not_reported (func : P → K) (dim : ℕ) (X : List P) (cfg : Cfg K) (inp : ℕ → StepIn P K)
    (N n fuel : ℕ) (s0 : OptState P K) (h0 : s0.evalCount = 0 ∧ s0.iterCount = 0) (res : FminResult P K)
    (h : fmin cfg inp N n fuel s0 = some res) :
    totalCalls func dim (.points X .none) inp res.iterations = res.evaluations + X.length := by
  rw [(c59_fmin_result cfg inp N n fuel s0 h0 res h).2.2, totalCalls]
  simp only [fminStart]
  omega

private theorem slice_blocks {α : Type*} (L : ℕ → List α) (n : ℕ) : ∀ m, (∀ i < m, (L i).length = n) →
    ((List.range m).flatMap L).length = m * n ∧
    ∀ i < m, rowSlice ((List.range m).flatMap L) (i * n) ((i + 1) * n) = L i := by
  intro m
  induction m with
  | zero => intro _; simp
  | succ m ih =>
    intro h
    obtain ⟨h1, h2⟩ := ih (fun i hi => h i (by omega))
    have hm := h m (by omega)
    rw [List.range_succ, List.flatMap_append, List.flatMap_singleton]
    refine ⟨by rw [List.length_append, h1, hm]; ring, ?_⟩
    intro i hi
    unfold rowSlice
    by_cases him : i = m
    · subst him
      rw [List.take_of_length_le (by rw [List.length_append, h1, hm]; ring_nf; omega), List.drop_append, h1]
      simp [h1]
    · have him' : i < m := by omega
      have hle : (i + 1) * n ≤ m * n := Nat.mul_le_mul_right n (by omega)
      rw [List.take_append_of_le_length (by rw [h1]; exact hle)]
      exact h2 i him'

/-- C47, partial: without warm start, when the first batch has `DoE_size` points, the later ones `n_point` points and all
values are finite, the result has one group per iteration and the groups after the first are exactly the batches
of the later iterations.  The first group is not the initial design: it repeats the first `DoE_size` points
proposed after it (`c47_initial_design_missing`). -/
theorem c47_groups_partial (cfg : Cfg K) (inp : ℕ → StepIn P K) (N n fuel : ℕ) (res : FminResult P K)
    (h : fmin cfg inp N n fuel {} = some res) (hfirst : (inp 0).batch.length = N)
    (hlater : ∀ j, 1 ≤ j → j < res.iterations → (inp j).batch.length = n)
    (hfin : ∀ j < res.iterations, (evaluatedIn inp j).map Prod.fst = (inp j).batch) :
    res.groups.tail = (List.range (res.iterations - 1)).map (fun i => (inp (i + 1)).batch) ∧
    res.groups.head? = some (((List.range (res.iterations - 1)).flatMap (fun i => (inp (i + 1)).batch)).take N) := by
  unfold fmin at h
  split at h
  · rename_i k s r hr
    obtain ⟨_, h2, h3, h4, h5⟩ := run_data cfg inp fuel 0 {} k s r hr
    cases h
    have hk : s.iterCount = k := by rw [h2]; simp
    simp only [hk] at hlater hfin ⊢
    have hrows : (s.data.getD []).map Rec.x = (List.range k).flatMap (fun j => (inp j).batch) := by
      have : (s.data.getD []).map Rec.x = (pairs s).map Prod.fst := by simp [pairs, Function.comp_def]
      rw [this, h4]
      simp only [pairs, Option.getD_none, List.map_nil, List.nil_append, Nat.sub_zero, Nat.zero_add,
        List.map_flatMap]
      apply List.flatMap_congr
      intro j hj
      exact hfin j (List.mem_range.mp hj)
    cases k with
    | zero =>
      simp at hrows
      simp [fminGroups, hrows, rowSlice]
    | succ k =>
      have hdrop : ((s.data.getD []).map Rec.x).drop N = (List.range k).flatMap (fun i => (inp (i + 1)).batch) := by
        rw [hrows, List.range_succ_eq_map, List.flatMap_cons, List.flatMap_map, List.drop_append, hfirst]
        simp [← hfirst]
      obtain ⟨_, hb⟩ := slice_blocks (fun i => (inp (i + 1)).batch) n k
        (fun i hi => hlater (i + 1) (by omega) (by omega))
      simp only [fminGroups, hdrop, Nat.add_sub_cancel, List.tail_cons, List.head?_cons, Option.some.injEq]
      refine ⟨?_, by simp [rowSlice]⟩
      apply List.map_congr_left
      intro i hi
      exact hb i (List.mem_range.mp hi)
  · cases h

/-- Inputs of a run with an initial design of two points and one point per iteration. -/
def sampleFminInputs : ℕ → StepIn ℕ ℚ
  | 0 => { batch := [10, 20], vals := [.fin 5, .fin 3] }
  | j + 1 => { batch := [30 + j], vals := [.fin (4 - j)] }

/-- C47 refuted: with an initial design of two points and a budget of four evaluations, the groups do not contain the
initial design and list the later points twice. -/
theorem c47_initial_design_missing :
    (fmin { minimize := true, maxFEs := some 4, ftarget := none } sampleFminInputs 2 1 10 {}).map
      FminResult.groups = some [[30, 31], [30], [31]] := by decide +kernel

/-- The run of `c47_initial_design_missing` satisfies the hypotheses of `c47_groups_partial` and
`c59_fmin_result`: three iterations, four evaluations, best value 3 at the point 20. -/
example : (fmin { minimize := true, maxFEs := some 4, ftarget := none } sampleFminInputs 2 1 10 {}).map
      (fun r => (r.xopt, r.fopt, r.iterations, r.evaluations)) = some (20, 3, 3, 4) := by decide +kernel

example : (sampleFminInputs 0).batch.length = 2 ∧ (∀ j, 1 ≤ j → j < 3 → (sampleFminInputs j).batch.length = 1) ∧
    ∀ j < 3, (evaluatedIn sampleFminInputs j).map Prod.fst = (sampleFminInputs j).batch := by
  refine ⟨rfl, ?_, ?_⟩
  · intro j h1 _
    cases j with
    | zero => omega
    | succ j => rfl
  · intro j _
    cases j with
    | zero => rfl
    | succ j => rfl

end Verif.Props
