import Verif.Model.Batch
import Verif.Props.Acquisition

/-!
# C129: batches of criteria
-/
namespace Verif.Props

open Verif.Model

private theorem mapM_all {α β ε : Type*} (f : α → Except ε β) (g : α → β) (l : List α) (h : ∀ a ∈ l, f a = .ok (g a)) : l.mapM f = .ok (l.map g) := by
  induction l with
  | nil => rfl
  | cons a l ih =>
    rw [List.mapM_cons, h a (by simp), ih fun b hb => h b (by simp [hb])]; rfl

/-- **C129.** For every sequence of random numbers the strategy with several criteria builds one criterion per requested point: MGFI and UCB in turn, all in the user's
direction, with a valid parameter drawn anew around the fixed centre (`t` between 0 and 22.36, `alpha` between 0 and 1), and with the best standardised
observation as the value to improve on. -/
theorem c129_multi (o : AcqOpt) (zs : List ℝ) :
    ∃ as, multiCreate o zs = .ok as ∧ as.length = zs.length ∧
      ∀ (i : ℕ) (z : ℝ) (a : Acq), zs[i]? = some z → as[i]? = some a → a.minimize = o.minimize ∧
        (i % 2 = 0 → a.name = .MGFI ∧ a.par = min (Real.exp (z / 2)) 22.36 ∧ 0 < a.par ∧ a.plugin = some (if o.minimize then o.fmin else -o.fmax)) ∧
        (i % 2 = 1 → a.name = .UCB ∧ a.par = 1 / (1 + Real.exp (6 / 10 * z - 16 / 10)) ∧ 0 < a.par ∧ a.par < 1) := by
  obtain ⟨fn, ap, mn, fmin, fmax, mdl⟩ := o
  have hpos : ∀ z : ℝ, 0 < 1 + Real.exp (6 / 10 * z - 16 / 10) := fun z => by have := Real.exp_pos (6 / 10 * z - 16 / 10); linarith
  obtain ⟨g, hg⟩ : ∃ g : ℝ × ℕ → Acq, g = fun zi =>
      if zi.2 % 2 = 0 then ⟨.MGFI, min (Real.exp (zi.1 / 2)) (2236 / 100), some (if mn then fmin else -fmax), mn⟩
      else ⟨.UCB, 1 / (1 + Real.exp (6 / 10 * zi.1 - 16 / 10)), none, mn⟩ := ⟨_, rfl⟩
  refine ⟨zs.zipIdx.map g, ?_, by simp, ?_⟩
  · refine mapM_all _ g _ fun zi _ => ?_
    obtain ⟨z, i⟩ := zi
    by_cases h : i % 2 = 0
    · have e : Real.exp (Real.log 1 + 1 / 2 * z) = Real.exp (z / 2) := by rw [Real.log_one]; congr 1; ring
      simp only [multiPar, hg, h, if_true, sampler, e, Except.bind, boCreate, baseCreate, Option.getD_some]
      cases mn <;> simp [boPar, hasPlugin, acqInit, setPlugin, Real.exp_pos]
    · have e : Real.exp ((1 / 10 : ℝ) * 4 - 2 + 6 / 10 * z) = Real.exp (6 / 10 * z - 16 / 10) := by congr 1; ring
      simp only [multiPar, hg, h, if_false, sampler, e, Except.bind, boCreate, baseCreate, Option.getD_some, boPar, hasPlugin, acqInit,
        Bool.false_and, Bool.false_eq_true, Option.isSome_none, Bool.or_self]
      have := hpos z
      rw [if_pos (by positivity)]
  · intro i z a hz ha
    rw [List.getElem?_map, List.getElem?_zipIdx, hz] at ha
    simp only [Option.map_some, Option.some.injEq, Nat.zero_add] at ha
    subst ha
    have h2 : (2236 / 100 : ℝ) = 22.36 := by norm_num
    refine ⟨by rw [hg]; dsimp only; split_ifs <;> rfl, fun h => ?_, fun h => ?_⟩
    · rw [hg]; dsimp only; rw [if_pos h]
      refine ⟨rfl, by rw [← h2], ?_, rfl⟩
      exact lt_min (Real.exp_pos _) (by norm_num)
    · rw [hg]; dsimp only; rw [if_neg (by omega)]
      have := hpos z
      refine ⟨rfl, rfl, by positivity, ?_⟩
      rw [div_lt_one this]
      have := Real.exp_pos (6 / 10 * z - 16 / 10)
      linarith

/-- **C129.** The batch has one candidate and one value per criterion, in the order of the criteria. -/
theorem c129_results {A X : Type*} (argmax : A → X × Option ℝ) (criteria : List A) :
    (batchArgmax argmax criteria).1.length = criteria.length ∧ (batchArgmax argmax criteria).2.length = criteria.length ∧
      ∀ (i : ℕ) (c : A), criteria[i]? = some c →
        (batchArgmax argmax criteria).1[i]? = some (argmax c).1 ∧ (batchArgmax argmax criteria).2[i]? = some (argmax c).2 := by
  refine ⟨by simp [batchArgmax], by simp [batchArgmax], fun i c h => ?_⟩
  simp [batchArgmax, h]

/-- **C129 (refuted for `SelfAdaptiveBO`).** No batch is ever returned: line 172 sorts the pair of candidate and value of the second search instead of the values of all
searches, and that raises for every outcome of the searches — a point with its value, or two empty lists. -/
theorem c129_self_adaptive_refuted (sortBy : List (Option ℝ) → List ℕ) (results : List (NpItem × NpItem)) (ts : List ℝ) (hn : 2 ≤ results.length)
    (hr : ∀ r ∈ results, (∃ x v, r = (.vector x, .number v)) ∨ r = (.vector [], .vector [])) : selfAdaptive sortBy results ts = none := by
  unfold selfAdaptive
  have h1 : 1 < results.length := by omega
  rw [List.getElem?_eq_getElem h1, Option.bind_some]
  rcases hr _ (List.getElem_mem h1) with ⟨x, v, h⟩ | h
  · rw [h]; simp [npArgsortItems]
  · rw [h]
    have hhalf : results.length / 2 ≠ 0 := by omega
    simp [npArgsortItems, takeTs, hhalf]

/-- Two criteria. -/
example (o : AcqOpt) : ∃ as, multiCreate o [0, 0] = .ok as ∧ as.map Acq.name = [.MGFI, .UCB] := by
  obtain ⟨as, h1, h2, h3⟩ := c129_multi o [0, 0]
  match as, h2 with
  | [a, b], _ => exact ⟨_, h1, by simp [((h3 0 0 a rfl rfl).2.1 rfl).1, ((h3 1 0 b rfl rfl).2.2 rfl).1]⟩

end Verif.Props
