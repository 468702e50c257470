import Verif.Spec.InnerSearch
import Verif.Proofs.SpaceEdit
import Mathlib.Tactic.Linarith

/-!
# C127: the configuration of the acquisition search
-/
namespace Verif.Props

open Verif.Model Verif.Spec Verif.Proofs

private theorem real_iff (types : List VType) (hne : types ≠ []) : isRealSpace types = true ↔ AllReal types := by
  unfold isRealSpace AllReal
  rw [beq_iff_eq, classFor_iff]
  exact ⟨fun h => h.2, fun h => ⟨hne, h⟩⟩

private theorem truncate_spec (q : ℚ) : |(pyTruncate q : ℚ)| ≤ |q| ∧ |q| < |(pyTruncate q : ℚ)| + 1 ∧ 0 ≤ q * pyTruncate q := by
  unfold pyTruncate
  split_ifs with h
  · have h0 : (0 : ℚ) ≤ (⌊q⌋ : ℚ) := by exact_mod_cast Int.floor_nonneg.2 h
    rw [abs_of_nonneg h, abs_of_nonneg h0]
    exact ⟨Int.floor_le q, Int.lt_floor_add_one q, mul_nonneg h h0⟩
  · push Not at h
    have h0 : ((⌈q⌉ : ℤ) : ℚ) ≤ 0 := by
      have : ⌈q⌉ ≤ 0 := Int.ceil_le.2 (by push_cast; exact h.le)
      exact_mod_cast this
    rw [abs_of_neg h, abs_of_nonpos h0]
    refine ⟨neg_le_neg (Int.le_ceil q), ?_, mul_nonneg_of_nonpos_of_nonpos h.le h0⟩
    have := Int.ceil_lt_add_one q
    linarith

private theorem option_spec (eval : String → Option ℚ) (d : ℤ) (a : Option IntArg) (n : ℤ) (h : optionInt eval (some d) a = some n) : asksFor eval d a n := by
  cases a with
  | none => exact Or.inl ⟨rfl, (Option.some.inj h).symm⟩
  | some a =>
    right
    cases a with
    | text s =>
      obtain ⟨q, h1, rfl⟩ := Option.map_eq_some_iff.1 h
      exact ⟨q, Or.inr ⟨s, rfl, h1⟩, truncate_spec q⟩
    | num q =>
      obtain rfl := Option.some.inj h
      exact ⟨q, Or.inl rfl, truncate_spec q⟩
    | notFinite => exact absurd h (by simp [optionInt, argToInt])
    | other => exact absurd h (by simp [optionInt, argToInt])

private theorem set_eq {eval : String → Option ℚ} {o : InnerOptions} {c : InnerContext} {s : InnerSearch} (h : setInternal eval o c = some s) :
    s.optimizer = innerOptimizer o c ∧ optionInt eval (defaultMaxFEs s.optimizer c.types.length) o.maxFEs = some s.maxFEs ∧
      optionInt eval (some (5 * c.types.length)) o.nRestart = some s.nRestart ∧ optionInt eval (some 3) o.waitIter = some s.waitIter := by
  unfold setInternal at h
  simp only [Option.bind_eq_bind, Option.bind_eq_some_iff, Option.pure_def, Option.some.injEq] at h
  obtain ⟨m, h1, r, h2, w, h3, rfl⟩ := h
  exact ⟨rfl, h1, h2, h3⟩

/-- The search that runs on the whole space by default is the suited one, and gradients are computed just when it uses them; the constructor succeeds if the numerical
options are numbers. -/
private theorem default_cases (c : InnerContext) (hne : c.types ≠ []) (o : InnerOptions) (ho : o.optimizer = none) :
    (innerOptimizer o c = "BFGS" ∧ suited c = .bfgs ∧ AllReal c.types) ∨ (innerOptimizer o c = "OnePlusOne_Cholesky_CMA" ∧ suited c = .onePlusOne) ∨
      (innerOptimizer o c = "MIES" ∧ suited c = .mies) := by
  classical
  obtain ⟨types, gr, n, hh, hg⟩ := c
  have hiff := real_iff types hne
  unfold innerOptimizer suited
  rw [ho]
  by_cases hr : AllReal types
  · have h1 : isRealSpace types = true := hiff.2 hr
    by_cases hn : n = 1
    · subst hn
      cases gr <;> cases hh <;> cases hg <;> simp [hr, h1]
    · cases gr <;> cases hh <;> cases hg <;> simp [hr, h1, hn]
  · have h1 : isRealSpace types = false := by
      rw [Bool.eq_false_iff]; exact fun h => hr (hiff.1 h)
    cases gr <;> cases hh <;> cases hg <;> simp [hr, h1]

/-- **C127.** Without a named optimiser the constructor succeeds whenever the numerical options can be read, the suited algorithm runs, also after variables have been
fixed, and the criterion computes gradients just when that algorithm uses them. -/
theorem c127_default (eval : String → Option ℚ) (o : InnerOptions) (ho : o.optimizer = none) (c : InnerContext) (hne : c.types ≠ [])
    (hread : ∀ a, (o.maxFEs = some a ∨ o.nRestart = some a ∨ o.waitIter = some a) → (argToInt eval a).isSome) :
    ∃ s, setInternal eval o c = some s ∧ ∀ free : List VType, free ≠ [] → (∀ t ∈ free, t ∈ c.types) →
      runsAlgo s.optimizer free = some (suited c) ∧ (returnsGradient s = true ↔ suited c = .bfgs) := by
  have hopt : ∀ (d : Option ℤ) (a : Option IntArg), (∀ x, a = some x → (argToInt eval x).isSome) → d.isSome → ∃ n, optionInt eval d a = some n := by
    intro d a h1 h2
    cases a with
    | none => exact Option.isSome_iff_exists.1 h2
    | some a => exact Option.isSome_iff_exists.1 (h1 a rfl)
  have hcase := default_cases c hne o ho
  obtain ⟨m, hm⟩ := hopt (defaultMaxFEs (innerOptimizer o c) c.types.length) o.maxFEs (fun x hx => hread x (Or.inl hx)) (by
    rcases hcase with h | h | h <;> rw [h.1] <;> simp [defaultMaxFEs])
  obtain ⟨r, hr⟩ := hopt (some (5 * c.types.length)) o.nRestart (fun x hx => hread x (Or.inr (Or.inl hx))) rfl
  obtain ⟨w, hw⟩ := hopt (some 3) o.waitIter (fun x hx => hread x (Or.inr (Or.inr hx))) rfl
  refine ⟨⟨innerOptimizer o c, m, r, w⟩, by unfold setInternal; simp [hm, hr, hw], fun free hf hsub => ?_⟩
  show runsAlgo (innerOptimizer o c) free = _ ∧ ((innerOptimizer o c == "BFGS") = true ↔ _)
  rcases hcase with ⟨h1, h2, h3⟩ | ⟨h1, h2⟩ | ⟨h1, h2⟩
  · have : isRealSpace free = true := (real_iff free hf).2 fun t ht => h3 t (hsub t ht)
    rw [h1, h2]
    simp [runsAlgo, this]
  · rw [h1, h2]; simp [runsAlgo]
  · rw [h1, h2]; simp [runsAlgo]

/-- **C127.** With constraints the gradient-based search never runs, whatever was asked for. -/
theorem c127_constrained (eval : String → Option ℚ) (o : InnerOptions) (c : InnerContext) (hc : c.hasH = true ∨ c.hasG = true) (s : InnerSearch)
    (h : setInternal eval o c = some s) (free : List VType) : returnsGradient s = false ∧ runsAlgo s.optimizer free ≠ some .bfgs := by
  have h1 : s.optimizer ≠ "BFGS" := by
    rw [(set_eq h).1]
    unfold innerOptimizer
    dsimp only
    generalize Option.getD o.optimizer _ = name
    by_cases hb : (name == "BFGS" && (c.hasH || c.hasG)) = true
    · rw [if_pos hb]; decide
    · rw [if_neg hb]
      rintro rfl
      apply hb
      rcases hc with hc | hc <;> simp [hc]
  refine ⟨by simp [returnsGradient, h1], ?_⟩
  unfold runsAlgo
  have : (s.optimizer == "BFGS") = false := by simp [h1]
  simp only [this, Bool.and_false, Bool.false_eq_true, if_false, if_neg h1]
  split_ifs <;> simp

/-- **C127.** The budgets are the numbers given, cut to integers, or the documented defaults. -/
theorem c127_budgets (eval : String → Option ℚ) (o : InnerOptions) (c : InnerContext) (s : InnerSearch) (h : setInternal eval o c = some s) :
    (∃ d : ℤ, asksFor eval d o.maxFEs s.maxFEs ∧ (o.maxFEs = none → d = c.types.length * (if s.optimizer = "BFGS" then 100 else 1000))) ∧
      asksFor eval (5 * c.types.length) o.nRestart s.nRestart ∧ asksFor eval 3 o.waitIter s.waitIter := by
  obtain ⟨-, h1, h2, h3⟩ := set_eq h
  refine ⟨?_, option_spec _ _ _ _ h2, option_spec _ _ _ _ h3⟩
  cases hm : o.maxFEs with
  | none =>
    rw [hm] at h1
    refine ⟨s.maxFEs, Or.inl ⟨rfl, rfl⟩, fun _ => ?_⟩
    have h1' : defaultMaxFEs s.optimizer c.types.length = some s.maxFEs := h1
    unfold defaultMaxFEs at h1'
    split_ifs at h1' with e1 e2 e3
    · rw [if_neg (by rw [e1]; decide), ← Option.some.inj h1', mul_comm]
    · rw [if_pos e2, ← Option.some.inj h1', mul_comm]
    · rw [if_neg e2, ← Option.some.inj h1', mul_comm]
  | some a =>
    rw [hm] at h1
    exact ⟨0, option_spec eval 0 (some a) _ h1, fun h => by simp at h⟩

/-- **C127 (refuted for a named optimiser).** `"BFGS"` on a space with a variable that is not real: MIES runs instead, as it has to, but on a criterion that returns
pairs of value and gradient. -/
theorem c127_bfgs_refuted (eval : String → Option ℚ) (types : List VType) (hne : types ≠ []) (hmixed : ¬ AllReal types) (grad : Bool) (nObj : ℕ) :
    ∃ s, setInternal eval { optimizer := some "BFGS" } ⟨types, grad, nObj, false, false⟩ = some s ∧ returnsGradient s = true ∧
      runsAlgo s.optimizer types = some .mies := by
  have : isRealSpace types = false := by
    rw [Bool.eq_false_iff]
    exact fun h => hmixed ((real_iff types hne).1 h)
  refine ⟨⟨"BFGS", 100 * types.length, 5 * types.length, 3⟩, rfl, rfl, ?_⟩
  simp [runsAlgo, this]

/-- **C127 (refuted for an unknown name).** A name that is none of the three passes the constructor if a budget is given, and every search raises; without a budget
the constructor raises. -/
theorem c127_unknown_refuted (eval : String → Option ℚ) (name : String) (h1 : name ≠ "BFGS") (h2 : name ≠ "MIES") (h3 : name ≠ "OnePlusOne_Cholesky_CMA")
    (c : InnerContext) (q : ℚ) :
    (∃ s, setInternal eval { optimizer := some name, maxFEs := some (.num q) } c = some s ∧ ∀ free, runsAlgo s.optimizer free = none) ∧
      setInternal eval { optimizer := some name } c = none := by
  have hn : ∀ a, innerOptimizer { optimizer := some name, maxFEs := a } c = name := fun a => by simp [innerOptimizer, h1]
  refine ⟨⟨⟨name, pyTruncate q, 5 * c.types.length, 3⟩, ?_, fun free => by simp [runsAlgo, h1, h2, h3]⟩, ?_⟩
  · unfold setInternal
    rw [hn]
    rfl
  · unfold setInternal
    rw [hn]
    simp [optionInt, defaultMaxFEs, h1, h2, h3]

/-- A real space with a differentiable model, with and without a constraint. -/
example : suited ⟨[.real, .real], true, 1, false, false⟩ = .bfgs ∧ suited ⟨[.real, .real], true, 1, false, true⟩ = .onePlusOne ∧
    suited ⟨[.real, .integer], true, 1, false, false⟩ = .mies := by
  refine ⟨?_, ?_, ?_⟩ <;> simp [suited, AllReal]

example : setInternal (fun s => if s = "1e3" then some 1000 else none) { maxFEs := some (.text "1e3"), waitIter := some (.num (7 / 2)) }
    ⟨[.real, .real], true, 1, false, false⟩ = some ⟨"BFGS", 1000, 10, 3⟩ := by decide +kernel

end Verif.Props
