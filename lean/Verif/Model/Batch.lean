import Verif.Model.Acquisition

/-!
# Further batch strategies (`extension.py:309-353`, `bayes_opt.py:147-174`)
-/
namespace Verif.Model

/-- extension.py:320-325: the classes, the dictionaries and the numbers drawn (lines 336-338) of the two criteria. -/
noncomputable def multiPar (k : ℕ) (z : ℝ) : AcqName × Except AcqErr AcqPar :=
  if k % 2 = 0 then (.MGFI, sampler .MGFI { t := some 1 } z) else (.UCB, sampler .UCB { alpha := some (1 / 10) } z)

/-- extension.py:331-345: the criteria of a batch; `zs i` is the number drawn for criterion `i`.  The dictionaries are copied before they are changed. -/
noncomputable def multiCreate (o : AcqOpt) (zs : List ℝ) : Except AcqErr (List Acq) :=
  zs.zipIdx.mapM fun zi => (multiPar zi.2 zi.1).2.bind fun par => boCreate o (some (multiPar zi.2 zi.1).1) (some par)

/-- extension.py:347-353, bayes_opt.py:108-115: every criterion is maximised, and `tuple(zip(*__))` separates the candidates from the values.  With parallel
workers `joblib` returns the results in the order of the criteria. -/
def batchArgmax {A X : Type*} (argmax : A → X × Option ℝ) (criteria : List A) : List X × List (Option ℝ) :=
  ((criteria.map argmax).map Prod.fst, (criteria.map argmax).map Prod.snd)

/-- What a Python list passed to numpy holds: a number, or a list of numbers. -/
inductive NpItem where
  | number (v : Option ℝ)
  | vector (x : List ℝ)

/-- `np.argsort` of a list of items: positions for numbers, one row of positions per entry for vectors of one length; anything else is rejected (`ValueError` for the
uneven shape, `TypeError` for the comparison in older versions). -/
inductive NpOrder where
  | positions (l : List ℕ)
  | table (rows : List (List ℕ))

/-- See `NpOrder`; `sortBy` is the order numpy finds for the numbers. -/
def npArgsortItems (sortBy : List (Option ℝ) → List ℕ) (l : List NpItem) : Option NpOrder :=
  if l.all (fun i => match i with | .number _ => true | .vector _ => false) then
    some (.positions (sortBy (l.filterMap fun i => match i with | .number v => some v | .vector _ => none)))
  else
    let vs := l.filterMap fun i => match i with | .number _ => none | .vector x => some x
    if vs.length = l.length ∧ vs.all (fun x => x.length == (vs.headD []).length) then some (.table (vs.map fun x => sortBy (x.map some))) else none

/-- `[ts[i] for i in idx]`: an index that is an array raises. -/
def takeTs (ts : List ℝ) : NpOrder → Option (List ℝ)
  | .positions l => l.mapM fun i => ts[i]?
  | .table rows => if rows = [] then some [] else none

/-- bayes_opt.py:153-174 `SelfAdaptiveBO._batch_arg_max_acquisition` after the searches: `results` are the lists `[candidate, value]` (or `[[], []]`), `ts` the sampled
parameters; line 172 sorts the entries of `results[1]`.  The new parameter, or `none` for an exception. -/
noncomputable def selfAdaptive (sortBy : List (Option ℝ) → List ℕ) (results : List (NpItem × NpItem)) (ts : List ℝ) : Option ℝ :=
  (results[1]?).bind fun r => (npArgsortItems sortBy [r.1, r.2]).bind fun order =>
    let order := match order with
      | .positions l => .positions (l.reverse.take (results.length / 2))
      | .table rows => .table (rows.reverse.take (results.length / 2))
    (takeTs ts order).map npMean

end Verif.Model
