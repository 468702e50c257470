import Verif.Model.Retry
import Verif.Spec.Optimizer

/-!
# What retrying should guarantee
-/
namespace Verif.Spec
open Verif.Model

variable {P K : Type*} [Field K] [LinearOrder K] [IsStrictOrderedRing K]

/-- The objective raises at one of the points. -/
def Fails (e : Attempt P K) : Prop := ∃ p ∈ e.evals, p.2 = none

open Classical in
/-- What an attempt should contribute to the data: nothing if the objective raised, otherwise the points with a finite value. -/
noncomputable def contribution (e : Attempt P K) : List (P × K) :=
  if Fails e then [] else e.evals.filterMap fun p => match p.2 with | some (.fin v) => some (p.1, v) | _ => none

open Classical in
/-- The number of evaluations an attempt completes. -/
noncomputable def completedEvals (e : Attempt P K) : ℕ := if Fails e then 0 else e.evals.length

open Classical in
/-- The number of attempts in which the objective raises. -/
noncomputable def failures (es : List (Attempt P K)) : ℕ := es.countP fun e => decide (Fails e)

/-- What a call of `tell` that raises leaves behind, by kind of exception.  `old` and `new` are the states before and after the call. -/
def AfterFailedTell (cfg : Cfg K) (a : TellArgs P K) (old new : OptState P K) : TellErr → Prop
  -- nothing has happened
  | .emptyInput | .badIndex => new = old
  -- the values that were there are counted, no point is recorded
  | .shortValues => new = { old with evalCount := old.evalCount + if a.warm then 0 else a.vals.length }
  -- there are no data at all: the evaluations are counted
  | .noRows => new = { old with evalCount := old.evalCount + if a.warm then 0 else a.X.length }
  | .emptyData => new = { old with evalCount := old.evalCount + (if a.warm then 0 else a.X.length), data := some [] }
  -- the evaluations are counted and the points with finite values are recorded, but no iteration is counted and nothing is written to the file
  | .flatFitness | .modelFailed => ∃ rows : List (Rec P K), rows.map (fun r => (r.x, r.f)) = finitePart (a.X.zip a.vals) ∧
      new = { old with evalCount := old.evalCount + (if a.warm then 0 else a.X.length), data := some (old.data.getD [] ++ rows) }
  -- the points are also in the file
  | .constraintFailed => ∃ rows : List (Rec P K), rows.map (fun r => (r.x, r.f)) = finitePart (a.X.zip a.vals) ∧
      new = { old with evalCount := old.evalCount + (if a.warm then 0 else a.X.length), data := some (old.data.getD [] ++ rows),
                       csv := if cfg.dataFile then old.csv ++ rows else old.csv }

end Verif.Spec
