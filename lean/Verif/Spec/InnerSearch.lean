import Verif.Model.InnerSearch

/-!
# Which algorithm fits
-/
namespace Verif.Spec
open Verif.Model

/-- All variables are real. -/
def AllReal (types : List VType) : Prop := ∀ t ∈ types, t = .real

/-- The algorithm expected by default: gradients where there are some and no constraints forbid them, evolution strategies otherwise, mixed integer where needed. -/
noncomputable def suited (c : InnerContext) : Algo :=
  open Classical in
  if AllReal c.types then
    if c.hasGradient = true ∧ c.nObj = 1 ∧ c.hasH = false ∧ c.hasG = false then .bfgs else .onePlusOne
  else .mies

/-- What an option asks for: its number cut to an integer. -/
def asksFor (eval : String → Option ℚ) (default : ℤ) (a : Option IntArg) (n : ℤ) : Prop :=
  (a = none ∧ n = default) ∨
    ∃ q : ℚ, (a = some (.num q) ∨ ∃ s, a = some (.text s) ∧ eval s = some q) ∧ |(n : ℚ)| ≤ |q| ∧ |q| < |(n : ℚ)| + 1 ∧ 0 ≤ q * n

end Verif.Spec
