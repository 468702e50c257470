import Verif.Model.Recovery

/-!
# What a caller who catches exceptions of `tell` may expect of the next `ask`
-/
namespace Verif.Spec

open Verif.Model

variable {P K : Type*} [Field K] [LinearOrder K] [IsStrictOrderedRing K]

/-- The last call of the history `h ++ [a]` returned. -/
def LastReturned (cfg : Cfg K) (c : SurrogateClass) (h : List (TellArgs P K × FitOutcome)) (a : TellArgs P K × FitOutcome) : Prop :=
  (tellSurrogate cfg c (tellAll cfg c h) a.1 a.2).2 = true

/-- The last call of the history `h ++ [a]` raised inside the user's constraint functions. -/
def LastFailedInConstraint (cfg : Cfg K) (c : SurrogateClass) (h : List (TellArgs P K × FitOutcome)) (a : TellArgs P K × FitOutcome) : Prop :=
  (tell cfg (tellAll cfg c h).1 { a.1 with oracle := { a.1.oracle with fitOk := decide (a.2 = .done) } }).2 = .error .constraintFailed

/-- The observations recorded after a history. -/
def RecordedAfter (cfg : Cfg K) (c : SurrogateClass) (h : List (TellArgs P K × FitOutcome)) : List (P × K) := recorded (tellAll cfg c h).1

/-- Where the proposals of the next `ask` come from. -/
def NextAsk (cfg : Cfg K) (c : SurrogateClass) (h : List (TellArgs P K × FitOutcome)) : AskSource (List (P × K)) := nextSource (tellAll cfg c h).2

/-- No training of the surrogate was interrupted half-way. -/
def NoneInterrupted (h : List (TellArgs P K × FitOutcome)) : Prop := ∀ a ∈ h, a.2 ≠ FitOutcome.trainFails

end Verif.Spec
