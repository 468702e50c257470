import Verif.Model.Pareto
import Verif.Model.BoxDecomposition
import Mathlib.Data.Real.Basic

/-!
# Model of the multi-objective optimiser: `bayes_optim/mobo.py:20-165` (class `BaseMOBO`)

Points are of any type `X` (their encoding is modelled elsewhere).  Objective values are reals; a value that is `nan`
or infinite is `none`.  The surrogate and the logger are left out: `update_model` (155-165) is taken to succeed.
-/
namespace Verif.Model

noncomputable section

variable {X : Type*} {m : ℕ}

/-- Python's `zip(*rows)`: as many tuples as the shortest row has entries; no tuple for no rows. -/
def zipStar {α : Type*} : List (List α) → List (List α)
  | [] => []
  | r :: rs =>
    (List.range (rs.foldl (fun n s => min n s.length) r.length)).map (fun i => (r :: rs).filterMap (fun s => s[i]?))

/-- mobo.py:77-93 `evaluate`: one list per objective, then `list(zip(*func_vals))`.  joblib returns results in the order
of the arguments, so the parallel branch is the same. -/
def moEvaluate {F : Type*} (objectives : List (X → F)) (xs : List X) : List (List F) :=
  zipStar (objectives.map (fun f => xs.map f))

/-- sklearn's `_handle_zeros_in_scale`: a range below ten times the machine precision is replaced by one. -/
def scaleRange (range : ℝ) : ℝ := if range < 10 / 2 ^ 52 then 1 else range

/-- sklearn's `MinMaxScaler().fit_transform`, entry `[i, k]` (mobo.py:70-71). -/
def minMaxScale (F : List (Fin (m + 1) → ℝ)) (v : Fin (m + 1) → ℝ) (k : Fin (m + 1)) : ℝ :=
  (v k - colMin F k) / scaleRange (colMax F k - colMin F k)

/-- `(-1) ** minimize`, one entry. -/
def flipSign (minimize : Bool) : ℝ := if minimize then -1 else 1

/-- mobo.py:65-75, property `y`, one row. -/
def moRow (minimize : Fin (m + 1) → Bool) (F : List (Fin (m + 1) → ℝ)) (v : Fin (m + 1) → ℝ) : Fin (m + 1) → ℝ :=
  fun k => minMaxScale F v k * flipSign (minimize k)

/-- mobo.py:65-75, property `y`. -/
def moY (minimize : Fin (m + 1) → Bool) (F : List (Fin (m + 1) → ℝ)) : List (Fin (m + 1) → ℝ) :=
  F.map (moRow minimize F)

/-- The attributes of the optimiser that `tell` changes. -/
structure MoState (X : Type*) (m : ℕ) where
  data : Option (List (X × (Fin (m + 1) → ℝ))) := none
  evalCount : ℕ := 0
  iterCount : ℕ := 0
  histF : List (List (Fin (m + 1) → ℝ)) := []

/-- mobo.py:51-57, property `xopt`.  `single` stands for the rounding to single precision by `Tensor(self.y)`. -/
def moXopt (single : ℝ → ℝ) (minimize : Fin (m + 1) → Bool) (data : List (X × (Fin (m + 1) → ℝ))) :
    List (X × (Fin (m + 1) → ℝ)) :=
  compress data (isNonDominated ((moY minimize (data.map Prod.snd)).map (fun r k => single (r k))) true)

/-- mobo.py:59-63, property `ref_point`: `np.min(self.y, axis=0) * 0.8`. -/
def moRefPoint (minimize : Fin (m + 1) → Bool) (F : List (Fin (m + 1) → ℝ)) : Fin (m + 1) → ℝ :=
  fun k => colMin (moY minimize F) k * (8 / 10)

/-- All entries of the rows, when none has failed. -/
def allFinite (vals : List (X × (Fin (m + 1) → Option ℝ))) : Option (List (X × (Fin (m + 1) → ℝ))) :=
  if ∀ p ∈ vals, ∀ k, (p.2 k).isSome = true then some (vals.map (fun p => (p.1, fun k => (p.2 k).getD 0))) else none

/-- mobo.py:95-153 `tell` (with base.py:413-421 `post_eval_check`).  The result is the new state and whether the call
returned.  The counter is advanced in the loop over the objectives (lines 117-120).  With a failed objective value
`post_eval_check` indexes the two-dimensional array with a two-dimensional mask and a slice, which raises. -/
def moTell (single : ℝ → ℝ) (minimize : Fin (m + 1) → Bool) (s : MoState X m)
    (vals : List (X × (Fin (m + 1) → Option ℝ))) (warmStart : Bool) : MoState X m × Bool :=
  let count := if warmStart then s.evalCount else s.evalCount + vals.length * (m + 1)
  match allFinite vals with
  | none => ({ s with evalCount := count }, false)
  | some new =>
    let data := (s.data.getD []) ++ new
    let front := (moXopt single minimize data).map Prod.snd
    if warmStart then ({ s with data := some data, evalCount := count }, true)
    else (⟨some data, count, s.iterCount + 1, s.histF ++ [front]⟩, true)

/-- Any sequence of calls of `tell`, of which those that raise are caught by the caller. -/
def moHistory (single : ℝ → ℝ) (minimize : Fin (m + 1) → Bool)
    (calls : List (List (X × (Fin (m + 1) → Option ℝ)) × Bool)) : MoState X m :=
  calls.foldl (fun s c => (moTell single minimize s c.1 c.2).1) {}

end

end Verif.Model
