import Mathlib.Data.Rat.Defs
import Mathlib.Algebra.Order.Ring.Rat
import Mathlib.Data.List.Basic
import Mathlib.Order.Basic

/-!
# What `ConditionalBO.tell` records (`bayes_optim/extension.py:272-306`)

The points are opaque here: which entries reach the sub-optimiser is modelled in `Model/Conditional.lean`.
-/
namespace Verif.Model

/-- One evaluation handed to `tell`: the sub-optimiser that proposed it (`self._bo_idx`), the point and its value, `none` for NaN or an infinity. -/
structure CondEval (P : Type*) where
  sub : ℕ
  point : P
  value : Option ℚ

/-- The records: those of each sub-optimiser with the number of its evaluations, and those of the whole. -/
structure CondRecords (P : Type*) where
  subData : ℕ → List (P × ℚ)
  subCount : ℕ → ℕ
  data : List (P × ℚ)
  evalCount : ℕ
  iterCount : ℕ
  hist : List ℚ

/-- The state after the constructor. -/
def condStart (P : Type*) : CondRecords P := ⟨fun _ => [], fun _ => 0, [], 0, 0, []⟩

/-- base.py:402-412 `post_eval_check`: failed evaluations are removed. -/
def condFinite {P : Type*} (es : List (CondEval P)) : List (P × ℚ) := es.filterMap fun e => e.value.map fun v => (e.point, v)

/-- extension.py:295 with base.py:330-343 for one sub-optimiser: its counter and data are updated before the model is. -/
def subRecord {P : Type*} (s : CondRecords P) (e : CondEval P) : CondRecords P :=
  { s with subCount := Function.update s.subCount e.sub (s.subCount e.sub + 1), subData := Function.update s.subData e.sub (s.subData e.sub ++ condFinite [e]) }

/-- base.py:414-439 `update_model`: it raises on no data (`np.min` of an empty array) and when the fit does, in particular for a flat objective. -/
def subFits {P : Type*} (fit : List (P × ℚ) → Bool) (d : List (P × ℚ)) : Bool := !d.isEmpty && fit d

/-- extension.py:291-295: the loop over the batch; `false` if it raised. -/
def subLoop {P : Type*} (fit : List (P × ℚ) → Bool) : CondRecords P → List (CondEval P) → CondRecords P × Bool
  | s, [] => (s, true)
  | s, e :: es => if subFits fit ((subRecord s e).subData e.sub) then subLoop fit (subRecord s e) es else (subRecord s e, false)

/-- _base.py: the fitness of `xopt`; `none` for no data (`ValueError`). -/
def condBest {P : Type*} (minimize : Bool) (d : List (P × ℚ)) : Option ℚ := if minimize then (d.map Prod.snd).min? else (d.map Prod.snd).max?

/-- extension.py:297-306: the records of the whole. -/
def condWhole {P : Type*} (minimize warm : Bool) (s : CondRecords P) (es : List (CondEval P)) : CondRecords P × Bool :=
  let s1 : CondRecords P := { s with data := s.data ++ condFinite es, evalCount := s.evalCount + (condFinite es).length }
  match condBest minimize s1.data with
  | none => (s1, false)
  | some v => (if warm then s1 else { s1 with iterCount := s1.iterCount + 1, hist := s1.hist ++ [v] }, true)

/-- extension.py:272-306 `tell` for a batch that agrees in length with the last `ask`; `false`: it raised.  An empty batch raises in `Solution.from_dict`. -/
def condTell {P : Type*} (fit : List (P × ℚ) → Bool) (minimize warm : Bool) (s : CondRecords P) (es : List (CondEval P)) : CondRecords P × Bool :=
  let r := subLoop fit s es
  if r.2 && !es.isEmpty then condWhole minimize warm r.1 es else (r.1, false)

/-- A history of calls `(warm_start, batch)`; the caller goes on after an exception. -/
def condHistory {P : Type*} (fit : List (P × ℚ) → Bool) (minimize : Bool) : CondRecords P → List (Bool × List (CondEval P)) → CondRecords P
  | s, [] => s
  | s, c :: cs => condHistory fit minimize (condTell fit minimize c.1 s c.2).1 cs

/-- Whether no call of the history raises. -/
def condQuiet {P : Type*} (fit : List (P × ℚ) → Bool) (minimize : Bool) : CondRecords P → List (Bool × List (CondEval P)) → Bool
  | _, [] => true
  | s, c :: cs => (condTell fit minimize c.1 s c.2).2 && condQuiet fit minimize (condTell fit minimize c.1 s c.2).1 cs

end Verif.Model
