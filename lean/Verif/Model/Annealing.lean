import Mathlib.Analysis.SpecialFunctions.Pow.Real
import Mathlib.Analysis.SpecialFunctions.Log.Basic

/-!
# Model of the temperature in `AnnealingBO` (`bayes_optim/bayes_opt.py:118-143`)

The temperature lives in the dictionary `_acquisition_par` under the key `"t"`.  `ParallelBO.__init__` has the default argument
`acquisition_par: Dict = {"t": 2}` (line 70), one dictionary for all calls, and `BaseBO.__init__` stores the dictionary
it is given without copying it (`bayes_optim/base.py:112`).  Dictionaries are therefore modelled as cells of a store, of
which only the entry `"t"` is kept; cell 0 is the default argument.  Numbers are reals.
-/
namespace Verif.Model

/-- The `schedule` argument (line 119). -/
inductive ScheduleName where
  | exp
  | linear
  | log
  | other
  deriving DecidableEq

/-- `_anealer` (lines 128-136). -/
inductive Anneal where
  | exp (alpha : ℝ)
  | linear (eta : ℝ)
  | log (c : ℝ)

/-- Exceptions of the constructor: ZeroDivisionError in line 129 or 132, NotImplementedError in line 138. -/
inductive AnnealErr where
  | zeroDivision
  | notImplemented
  deriving DecidableEq

/-- Line 127; `max_FEs` is a finite number here. -/
noncomputable def annealMaxIter (maxFEs doe nPoint : ℕ) : ℝ := ((maxFEs : ℝ) - (doe : ℝ)) / (nPoint : ℝ)

/-- Lines 128-138. -/
noncomputable def annealInit (name : ScheduleName) (t0 tf maxIter : ℝ) : Except AnnealErr Anneal :=
  match name with
  | .exp => if maxIter = 0 then .error .zeroDivision else .ok (.exp ((tf / t0) ^ (1 / maxIter)))
  | .linear => if maxIter = 0 then .error .zeroDivision else .ok (.linear ((t0 - tf) / maxIter))
  | .log => .ok (.log (tf * Real.log (maxIter + 1)))
  | .other => .error .notImplemented

/-- Lines 130, 133, 136; `iter` is `self.iter_count` at the time of the call. -/
noncomputable def annealStep (a : Anneal) (iter : ℕ) (t : ℝ) : ℝ :=
  match a with
  | .exp alpha => t * alpha
  | .linear eta => t - eta
  | .log c => t * c / Real.log ((iter : ℝ) + 2)

/-- One optimiser: which dictionary it uses and its annealer. -/
structure AnnealObj where
  cell : ℕ
  anneal : Anneal

/-- The store of dictionaries, the optimisers created so far and the first unused cell. -/
structure AnnealWorld where
  cells : ℕ → ℝ
  objs : List AnnealObj
  fresh : ℕ

/-- The program start: the default dictionary holds `t = 2` (line 70). -/
def annealWorld0 : AnnealWorld := ⟨fun _ => 2, [], 1⟩

/-- What a user can do: create an optimiser, passing a dictionary of their own or not (the schedule has been computed by
`annealInit`), and ask an optimiser for points. -/
inductive AnnealOp where
  | create (own : Bool) (t0 : ℝ) (anneal : Anneal)
  | ask (i : ℕ) (iter : ℕ)

/-- Line 124 for `create`; line 141 (called from `base.py:477-478`) for `ask`. -/
noncomputable def annealExec (w : AnnealWorld) : AnnealOp → AnnealWorld
  | .create own t0 a =>
    let c := if own then w.fresh else 0
    { cells := Function.update w.cells c t0, objs := w.objs ++ [⟨c, a⟩],
      fresh := if own then w.fresh + 1 else w.fresh }
  | .ask i iter =>
    match w.objs[i]? with
    | none => w
    | some o => { w with cells := Function.update w.cells o.cell (annealStep o.anneal iter (w.cells o.cell)) }

/-- Any sequence of operations. -/
noncomputable def annealRun (w : AnnealWorld) (ops : List AnnealOp) : AnnealWorld := ops.foldl annealExec w

/-- The temperature of optimiser `i`. -/
def annealTemp (w : AnnealWorld) (i : ℕ) : Option ℝ := w.objs[i]?.map (fun o => w.cells o.cell)

end Verif.Model
