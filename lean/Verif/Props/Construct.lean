import Verif.Model.Construct
import Mathlib.Tactic.Linarith
import Mathlib.Tactic.NormNum

/-!
# C140: counts, budgets and seeds given to the constructor are used as given
-/
namespace Verif.Props

open Verif.Model

/-- The argument stands for the natural number `n`: as a number, or as a text that both `int` and `eval` read as `n`. -/
def StandsFor (parse : String → Option ℤ) (eval : String → Option ℚ) (n : ℕ) (a : NumArg) : Prop :=
  a = .num n ∨ ∃ s, s ≠ "" ∧ a = .text s ∧ parse s = some (n : ℤ) ∧ eval s = some (n : ℚ)

private theorem trunc_nat (n : ℕ) : pyTruncate (n : ℚ) = n := by
  unfold pyTruncate
  rw [if_pos (by positivity)]
  simp

/-- **C140, the part that holds.**  Positive whole numbers (given as such or as text) are used unchanged. -/
theorem c140_positive_partial (parse : String → Option ℤ) (eval : String → Option ℚ) (dim n : ℕ) (hn : 1 ≤ n) (a : NumArg) (ha : StandsFor parse eval n a) :
    doeSize eval dim a = some (n : ℤ) ∧ atLeastOne parse a = some (n : ℤ) ∧ budgetArg parse a = some (some (n : ℤ)) ∧
    (n < 2 ^ 32 → seedArg parse a = some (some (n : ℤ), some (n : ℤ))) := by
  have hq : (n : ℚ) ≠ 0 := by exact_mod_cast (by omega : n ≠ 0)
  have hmax : max 1 (n : ℤ) = n := max_eq_right (by exact_mod_cast hn)
  have hz : (n : ℤ) ≠ 0 := by omega
  rcases ha with rfl | ⟨s, hs, rfl, hp, he⟩
  · refine ⟨?_, ?_, ?_, fun hlt => ?_⟩
    · simp [doeSize, NumArg.truthy, hq, trunc_nat]
    · simp [atLeastOne, NumArg.toInt, trunc_nat, hmax]
    · simp [budgetArg, NumArg.truthy, hq, NumArg.toInt, trunc_nat]
    · have : (n : ℤ) < 2 ^ 32 := by exact_mod_cast hlt
      simp only [seedArg, NumArg.truthy, hq, NumArg.toInt, trunc_nat, ne_eq, not_false_eq_true, decide_true, if_true, Option.bind_some, hz, if_false]
      rw [if_pos ⟨by omega, this⟩]
  · refine ⟨?_, ?_, ?_, fun hlt => ?_⟩
    · simp [doeSize, NumArg.truthy, hs, he, trunc_nat]
    · simp [atLeastOne, NumArg.toInt, hp, hmax]
    · simp [budgetArg, NumArg.truthy, hs, NumArg.toInt, hp]
    · have : (n : ℤ) < 2 ^ 32 := by exact_mod_cast hlt
      simp only [seedArg, NumArg.truthy, hs, NumArg.toInt, hp, ne_eq, not_false_eq_true, decide_true, if_true, Option.bind_some, hz, if_false]
      rw [if_pos ⟨by omega, this⟩]

/-- **C140, integers of numpy.**  A positive one is used unchanged as a budget, as a number of points or jobs and as a seed (not as the size of the design, see
below). -/
theorem c140_numpy_partial (parse : String → Option ℤ) (n : ℤ) (hn : 1 ≤ n) :
    atLeastOne parse (.npInt n) = some n ∧ budgetArg parse (.npInt n) = some (some n) ∧ (n < 2 ^ 32 → seedArg parse (.npInt n) = some (some n, some n)) := by
  have hz : n ≠ 0 := by omega
  refine ⟨?_, ?_, fun hlt => ?_⟩
  · simp [atLeastOne, NumArg.toInt, hn]
  · simp [budgetArg, NumArg.truthy, hz, NumArg.toInt]
  · simp only [seedArg, NumArg.truthy, hz, NumArg.toInt, ne_eq, not_false_eq_true, decide_true, if_true, Option.bind_some, if_false]
    rw [if_pos ⟨by omega, hlt⟩]

/-- **C140, the sizes are positive**: whatever is given for `n_point` and `n_job`, the constructor raises or uses at least one; it is the given number if that is a
whole one. -/
theorem c140_at_least_one (parse : String → Option ℤ) (a : NumArg) (m : ℤ) (h : atLeastOne parse a = some m) :
    1 ≤ m ∧ ∀ n : ℤ, a = .num n ∨ a = .npInt n → m = max 1 n := by
  unfold atLeastOne at h
  obtain ⟨k, hk, rfl⟩ := Option.map_eq_some_iff.1 h
  refine ⟨le_max_left _ _, ?_⟩
  rintro n (rfl | rfl)
  · have : pyTruncate (n : ℚ) = n := by
      unfold pyTruncate
      split_ifs <;> simp
    rw [NumArg.toInt, this] at hk
    rw [Option.some.inj hk]
  · rw [NumArg.toInt] at hk
    rw [Option.some.inj hk]

/-- **C140, exactly which sizes of the design are accepted and give a design.**  For a number: it is at least one, or it is zero (then the default is used). -/
theorem c140_doe_iff {P : Type*} (eval : String → Option ℚ) (dim : ℕ) (hd : 1 ≤ dim) (q : ℚ) (sample : ℤ → List P) (hs : ∀ k : ℤ, sample k ≠ [] ↔ 1 ≤ k) :
    (∃ X : List P, (doeSize eval dim (.num q)).bind (firstAsk sample) = some X) ↔ 1 ≤ q ∨ q = 0 := by
  by_cases h0 : q = 0
  · subst h0
    have : sample (dim * 5) ≠ [] := (hs _).2 (by omega)
    simp only [doeSize, NumArg.truthy, ne_eq, not_true_eq_false, decide_false, Bool.false_eq_true, if_false, Option.bind_some, firstAsk]
    have hz : (dim : ℤ) * 5 ≠ 0 := by omega
    rw [if_neg hz]
    simp [this]
  · simp only [doeSize, NumArg.truthy, ne_eq, h0, not_false_eq_true, decide_true, if_true, Option.bind_some, firstAsk, or_false]
    have key : 1 ≤ pyTruncate q ↔ 1 ≤ q := by
      unfold pyTruncate
      split_ifs with hq
      · rw [Int.le_floor]; norm_num
      · have h1 : ⌈q⌉ ≤ 0 := Int.ceil_le.2 (by push_cast; linarith)
        constructor
        · intro h; omega
        · intro h; exact absurd (by linarith) hq
    by_cases hz : pyTruncate q = 0
    · rw [if_pos hz, ← key, hz]
      simp
    · rw [if_neg hz]
      by_cases he : sample (pyTruncate q) = []
      · rw [he, ← key]
        have : ¬ 1 ≤ pyTruncate q := fun h => (hs _).2 h he
        simp [this]
      · rw [← key]
        simp [he, (hs _).1 he]

/-- **C140, refuted for the design.**  A negative size is accepted, a fraction below one gives an empty design, so that the first `ask()` raises, and a numpy integer is
rejected. -/
theorem c140_doe_refuted {P : Type*} (eval : String → Option ℚ) (dim : ℕ) (sample : ℤ → List P) :
    doeSize eval dim (.num (-3)) = some (-3) ∧ (doeSize eval dim (.num (1 / 2))).bind (firstAsk sample) = none ∧ doeSize eval dim (.npInt 10) = none := by
  refine ⟨?_, ?_, ?_⟩
  · have : pyTruncate (-3 : ℚ) = -3 := by decide +kernel
    simp [doeSize, NumArg.truthy, this]
  · have : pyTruncate (1 / 2 : ℚ) = 0 := by decide +kernel
    simp only [doeSize, NumArg.truthy, this]
    norm_num [firstAsk]
  · simp [doeSize, NumArg.truthy]

/-- **C140, refuted for the budget.**  `max_FEs=0` means no limit at all, while any other budget below one, like `0.5`, stops the run before the first evaluation. -/
theorem c140_budget_refuted (parse : String → Option ℤ) :
    budgetArg parse (.num 0) = some none ∧
    ∀ q : ℚ, q ≠ 0 → q < 1 → ∃ m : ℤ, budgetArg parse (.num q) = some (some m) ∧
      ∀ (minimize : Bool), ((checkStop { minimize := minimize, maxFEs := some m, ftarget := none } ({} : OptState ℕ ℚ)).2.toOption = some true) := by
  refine ⟨by simp [budgetArg, NumArg.truthy], fun q h0 h1 => ?_⟩
  refine ⟨pyTruncate q, by simp [budgetArg, NumArg.truthy, h0, NumArg.toInt], fun mi => ?_⟩
  have hle : pyTruncate q ≤ 0 := by
    unfold pyTruncate
    split_ifs with hq
    · have : ⌊q⌋ < 1 := Int.floor_lt.2 (by push_cast; exact h1)
      omega
    · exact Int.ceil_le.2 (by push_cast; linarith)
  simp [checkStop, checkBudget, hle, stopFlag, Except.toOption]

/-- **C140, refuted for the seed.**  The seed 0 is ignored: the generator is not seeded and the attribute does not even exist. -/
theorem c140_seed_refuted (parse : String → Option ℤ) : seedArg parse (.num 0) = some (none, none) ∧ seedArg parse .missing = some (none, none) := by
  simp [seedArg, NumArg.truthy]

example : StandsFor (fun _ => some 7) (fun _ => some 7) 7 (.text "7") ∧ StandsFor (fun _ => none) (fun _ => none) 7 (.num 7) :=
  ⟨Or.inr ⟨"7", by decide, rfl, by simp, by simp⟩, Or.inl (by norm_num)⟩

example : ∀ k : ℤ, List.replicate k.toNat (0 : ℕ) ≠ [] ↔ 1 ≤ k := by
  intro k
  rw [ne_eq, List.replicate_eq_nil_iff]
  omega

end Verif.Props
