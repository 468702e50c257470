import Verif.Model.MiesFull
import Verif.Spec.MiesStrength

/-! # Specification for C175: when the evolution strategy ends -/
namespace Verif.Spec
open Verif.Model

/-- The value of evaluation number `j`. -/
def valueAt (ev : List (Row × ℝ)) (j : ℕ) : ℝ := (ev[j]?.map Prod.snd).getD 0

/-- The value of offspring `i` of generation `g` (from 1), for `mu` parents and `lam` offspring. -/
def offspringValue (mu lam : ℕ) (ev : List (Row × ℝ)) (g i : ℕ) : ℝ := valueAt ev (mu + lam * (g - 1) + i)

/-- The value of the first offspring of generation `g`, and 0 for the generation before the first. -/
def firstValue (mu lam : ℕ) (ev : List (Row × ℝ)) (g : ℕ) : ℝ := if g = 0 then 0 else offspringValue mu lam ev g 0

/-- The first offspring of the last `n` generations (counting 0 for those that have not been) had values within `1e-5` of each other. -/
def Level (mu lam n : ℕ) (ev : List (Row × ℝ)) (g : ℕ) : Prop :=
  ∀ a < n, ∀ b < n, firstValue mu lam ev (g - a) - firstValue mu lam ev (g - b) < 1e-5

/-- The number of the offspring that is compared with the first one: about a quarter of the offspring, but less than `mu`. -/
def quarterOffspring (mu lam : ℕ) : ℕ := min ⌈(1 / 10 : ℚ) + lam / 4⌉₊ (mu - 1)

/-- How many generations the strategy remembers, in `d` variables. -/
def remembered (d lam : ℕ) : ℕ := 3 + ⌈(30 * d : ℚ) / lam⌉₊

/-- Why the strategy ends after `g` generations: the limit on the evaluations is passed, or, after at least one generation, the offspring at a
quarter has the same value as the first one, or (only in generations in which the number of evaluations is a multiple of `lam` times the generations remembered) the first offspring of
the generations remembered had about the same value. -/
def EndsAfter (cfg : MiesCfg ℝ) (ev : List (Row × ℝ)) (g : ℕ) : Prop :=
  cfg.maxEval < cfg.mu + cfg.lam * g ∨
    g ≠ 0 ∧ (offspringValue cfg.mu cfg.lam ev g 0 = offspringValue cfg.mu cfg.lam ev g (quarterOffspring cfg.mu cfg.lam) ∨
      cfg.lam * remembered cfg.kinds.length cfg.lam ∣ cfg.mu + cfg.lam * g ∧ Level cfg.mu cfg.lam (remembered cfg.kinds.length cfg.lam) ev g)

end Verif.Spec
