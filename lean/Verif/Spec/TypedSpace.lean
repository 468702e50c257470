import Verif.Model.TypedSpace

/-!
# What the arguments of a typed space ask for
-/
namespace Verif.Spec
open Verif.Model

/-- The value of an optional argument for variable `i`: one value counts for all variables. -/
def OptArg.at {V : Type*} (i : ℕ) : OptArg V → Option V
  | .absent => none
  | .scalar v => some v
  | .seq l => l[i]?

/-- The argument fits the number of variables. -/
def OptArg.Fits {V : Type*} (dim : ℕ) : OptArg V → Prop
  | .absent => True
  | .scalar _ => True
  | .seq l => l.length = dim

/-- The name of variable `i`: from the list, or the given one, numbered if there are several variables. -/
def NameArg.at (dim i : ℕ) : NameArg → Option String
  | .one s => some (if dim = 1 then s else s ++ toString i)
  | .many l => l[i]?

/-- The names fit the number of variables and differ from each other. -/
def NameArg.Fits (dim : ℕ) : NameArg → Prop
  | .one _ => True
  | .many l => l.length = dim ∧ l.Nodup

/-- Everything fits. -/
structure ArgsFit (dim : ℕ) (names : NameArg) (a : TypedArgs) : Prop where
  names : NameArg.Fits dim names
  default : OptArg.Fits dim a.default
  precision : OptArg.Fits dim a.precision
  scale : OptArg.Fits dim a.scale
  step : OptArg.Fits dim a.step

/-- Variable `v` is what was asked for at position `i`, with the bounds `b`. -/
structure AsAsked (τ : VType) (dim i : ℕ) (b : List Lvl) (names : NameArg) (a : TypedArgs) (v : PyVar) : Prop where
  typ : v.typ = τ
  bounds : v.bounds = boundsFor τ b
  name : NameArg.at dim i names = some v.name
  default : v.default = if τ = .bool then some ((OptArg.at i a.default).getD (.one (.bool true))) else OptArg.at i a.default
  precision : v.precision = OptArg.at i a.precision
  scale : v.scale = (OptArg.at i a.scale).getD .linear
  step : v.step = (OptArg.at i a.step).getD 1
  noCond : v.cond = none

end Verif.Spec
