import Verif.Model.AskSearch

/-! # Specification for C155 -/
namespace Verif.Spec
open Verif.Model

variable {G : Type*}

/-- One of the tests for stagnation of restart `k` ends it before its budget is used up. -/
def Stagnates (e : AskEnv G) (n i k : ℕ) : Prop :=
  match e.algo with
  | .bfgs => True
  | .onePlusOne => ∃ t, ((e.draws n i k).steps t).stag = true
  | .mies => ∃ t, (e.draws n i k).flat t = true

/-- By how much a restart may exceed its budget: one evaluation for the (1+1)-CMA-ES, a generation for MIES. -/
def overshoot : Algo → ℤ
  | .onePlusOne => 1
  | _ => 10

end Verif.Spec
