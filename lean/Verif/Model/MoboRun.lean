import Verif.Model.Mobo

/-!
# A whole multi-objective optimisation: `run()` of a `MOBO` (`_base.py:123-136`, `base.py:252-307`, `mobo.py:51-165, 173-182`)

The initial design and the search on the expected hypervolume improvement are left open, but they see what the code shows them: the recorded points with the
transformed objective values `y`, to which the surrogate is fitted (mobo.py:157) and from which the partitioning is made (mobo.py:175), and the reference point.  No target value is given.
-/
namespace Verif.Model

noncomputable section

variable {X : Type*} {m : ℕ}

/-- What surrounds the optimiser: the points proposed in a step (`none` in the first argument: there are no data yet; `none` as the result: `ask` raises), the
objectives, `minimize`, and the rounding to single precision. -/
structure MoLearner (X : Type*) (m : ℕ) where
  propose : ℕ → Option (List (X × (Fin (m + 1) → ℝ)) × (Fin (m + 1) → ℝ)) → Option (List X)
  objectives : X → Fin (m + 1) → Option ℝ
  minimize : Fin (m + 1) → Bool
  single : ℝ → ℝ

/-- How `run` ends. -/
inductive MoEnd (X : Type*) (m : ℕ) where
  | stopped (front : List (X × (Fin (m + 1) → ℝ)))
  | raised
  | running

/-- The state, the points evaluated so far (a ghost variable) and the end. -/
structure MoOut (X : Type*) (m : ℕ) where
  opt : MoState X m
  log : List X
  ending : MoEnd X m

/-- What the surrogate and the criterion are made of (mobo.py:60-75, 157, 175-176). -/
def moView (L : MoLearner X m) (d : List (X × (Fin (m + 1) → ℝ))) : List (X × (Fin (m + 1) → ℝ)) × (Fin (m + 1) → ℝ) :=
  (d.map (fun p => (p.1, moRow L.minimize (d.map Prod.snd) p.2)), moRefPoint L.minimize (d.map Prod.snd))

/-- _base.py:133-136 `run` with base.py:252-256 `step`; `fuel` bounds the number of stopping tests, `i` counts the steps. -/
def moRun (maxFEs : Option ℤ) (L : MoLearner X m) : ℕ → ℕ → MoState X m → List X → MoOut X m
  | 0, _, s, log => ⟨s, log, .running⟩
  | fuel + 1, i, s, log =>
    if maxFEs.any (fun b => decide (b ≤ (s.evalCount : ℤ))) then
      match s.data with
      | none => ⟨s, log, .raised⟩
      | some d => ⟨s, log, .stopped (moXopt L.single L.minimize d)⟩
    else
      match L.propose i (s.data.map (moView L)) with
      | none => ⟨s, log, .raised⟩
      | some xs =>
        match moTell L.single L.minimize s (xs.map (fun x => (x, L.objectives x))) false with
        | (s', false) => ⟨s', log ++ xs, .raised⟩
        | (s', true) => moRun maxFEs L fuel (i + 1) s' (log ++ xs)

end

end Verif.Model
