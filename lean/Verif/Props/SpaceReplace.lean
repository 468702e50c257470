import Verif.Spec.SpaceReplace
import Verif.Props.SearchSpace
import Verif.Props.InnerSearch

/-!
# C151: assigning another search space
-/
namespace Verif.Props
open Verif.Model Verif.Spec Verif.Proofs

private theorem describes (sp : SpaceView) : Describes (spaceAttrs sp) sp := by
  have hid : ∀ τ, Positions ((setIndex sp.types).id τ) sp.types (· = τ) := by
    intro τ
    obtain ⟨h1, h2⟩ := c22_ids sp.types τ
    refine ⟨h2.imp (fun h => Nat.ne_of_lt h), fun j => ?_⟩
    rw [h1]
    exact ⟨fun h => ⟨τ, h, rfl⟩, by rintro ⟨t, h, rfl⟩; exact h⟩
  obtain ⟨hc1, hc2⟩ := c22_categorical_id sp.types
  refine ⟨rfl, rfl, rfl, hid .real, hid .integer, ⟨hc2, fun j => ?_⟩, rfl, rfl, rfl⟩
  show j ∈ (setIndex sp.types).categoricalId ↔ _
  rw [hc1]
  constructor
  · rintro ⟨t, ht, h⟩
    refine ⟨t, h, ?_, ?_⟩ <;> rintro rfl <;> simp at ht
  · rintro ⟨t, h, h1, h2⟩
    refine ⟨t, ?_, h⟩
    cases t <;> simp_all

private theorem construct_eq {eval : String → Option ℚ} {u : SpaceUses} {sp : SpaceView} {s : SpaceState} (h : constructOn eval u sp = some s) :
    s.space = sp ∧ s.attrs = spaceAttrs sp ∧ doeSize eval sp.types.length u.doe = some s.doeSize ∧
    setInternal eval u.options ⟨sp.types, u.hasGradient, u.nObj, u.hasH, u.hasG⟩ = some s.search ∧ s.wrapNames = sp.names := by
  unfold constructOn at h
  cases hd : doeSize eval sp.types.length u.doe with
  | none => rw [hd] at h; cases h
  | some n =>
    cases hs : setInternal eval u.options ⟨sp.types, u.hasGradient, u.nObj, u.hasH, u.hasG⟩ with
    | none => rw [hd, hs] at h; cases h
    | some q =>
      rw [hd, hs] at h
      cases h
      exact ⟨rfl, rfl, rfl, rfl, rfl⟩

private theorem foldl_assign (s : SpaceState) (sps : List SpaceView) :
    (sps.foldl assignSpace s).doeSize = s.doeSize ∧ (sps.foldl assignSpace s).search = s.search ∧
    (sps.foldl assignSpace s).wrapNames = s.wrapNames ∧ (sps.foldl assignSpace s).space = (s.space :: sps).getLast (by simp) ∧
    (s.attrs = spaceAttrs s.space → (sps.foldl assignSpace s).attrs = spaceAttrs (sps.foldl assignSpace s).space) := by
  induction sps generalizing s with
  | nil => exact ⟨rfl, rfl, rfl, rfl, id⟩
  | cons sp sps ih =>
    obtain ⟨h1, h2, h3, h4, h5⟩ := ih (assignSpace s sp)
    refine ⟨h1, h2, h3, ?_, fun _ => h5 rfl⟩
    rw [List.foldl_cons, h4, List.getLast_cons (List.cons_ne_nil sp sps)]
    rfl

/-- After any number of assignments the space is the last one assigned and the index attributes describe it. -/
theorem c151_attributes (eval : String → Option ℚ) (u : SpaceUses) (sp : SpaceView) (s : SpaceState) (h : constructOn eval u sp = some s)
    (sps : List SpaceView) :
    (sps.foldl assignSpace s).space = (sp :: sps).getLast (by simp) ∧
    Describes (sps.foldl assignSpace s).attrs ((sp :: sps).getLast (by simp)) := by
  obtain ⟨h1, h2, -⟩ := construct_eq h
  obtain ⟨-, -, -, h4, h5⟩ := foldl_assign s sps
  have hsp : (sps.foldl assignSpace s).space = (sp :: sps).getLast (by simp) := by rw [h4]; simp only [h1]
  refine ⟨hsp, ?_⟩
  rw [h5 (by rw [h1, h2]), hsp]
  exact describes _

/-- The size of the initial design, the settings of the acquisition search and the names under which constraints receive their values stay those of the space given to
the constructor. -/
theorem c151_settings_kept (eval : String → Option ℚ) (u : SpaceUses) (sp : SpaceView) (s : SpaceState) (h : constructOn eval u sp = some s)
    (sps : List SpaceView) :
    doeSize eval sp.types.length u.doe = some (sps.foldl assignSpace s).doeSize ∧
    setInternal eval u.options ⟨sp.types, u.hasGradient, u.nObj, u.hasH, u.hasG⟩ = some (sps.foldl assignSpace s).search ∧
    (sps.foldl assignSpace s).wrapNames = sp.names := by
  obtain ⟨-, -, h3, h4, h5⟩ := construct_eq h
  obtain ⟨e1, e2, e3, -⟩ := foldl_assign s sps
  rw [e1, e2, e3]
  exact ⟨h3, h4, h5⟩

/-- When the last space has the names of the first one, as many variables, and is all real exactly when that one is, the optimiser is as if made with the last one. -/
theorem c151_like_new_partial (eval : String → Option ℚ) (u : SpaceUses) (sp : SpaceView) (s : SpaceState) (h : constructOn eval u sp = some s)
    (sps : List SpaceView) (sp' : SpaceView) (hlast : (sp :: sps).getLast (by simp) = sp') (hn : sp'.names = sp.names)
    (hl : sp'.types.length = sp.types.length) (hne : sp.types ≠ [])
    (hr : (∀ t ∈ sp'.types, t = .real) ↔ (∀ t ∈ sp.types, t = .real)) :
    constructOn eval u sp' = some (sps.foldl assignSpace s) := by
  obtain ⟨h1, h2, h3, h4, h5⟩ := construct_eq h
  obtain ⟨e1, e2, e3, e4, e5⟩ := foldl_assign s sps
  have hreal : isRealSpace sp'.types = isRealSpace sp.types := by
    have key : ∀ l : List VType, l ≠ [] → (isRealSpace l = true ↔ ∀ t ∈ l, t = .real) := by
      intro l hl
      unfold isRealSpace
      rw [beq_iff_eq, classFor_iff]
      exact ⟨fun h => h.2, fun h => ⟨hl, h⟩⟩
    have hne' : sp'.types ≠ [] := by
      intro h0; rw [h0] at hl; exact hne (List.length_eq_zero_iff.1 hl.symm)
    rw [Bool.eq_iff_iff, key _ hne', key _ hne, hr]
  have hset : setInternal eval u.options ⟨sp'.types, u.hasGradient, u.nObj, u.hasH, u.hasG⟩ = some s.search := by
    rw [← h4]
    unfold setInternal innerOptimizer
    simp only [hl, hreal]
  unfold constructOn
  rw [hl, h3, hset]
  have hsp : (sps.foldl assignSpace s).space = sp' := by rw [e4, ← hlast]; simp only [h1]
  have hat : (sps.foldl assignSpace s).attrs = spaceAttrs sp' := by rw [e5 (by rw [h1, h2]), hsp]
  show some (SpaceState.mk sp' (spaceAttrs sp') s.doeSize s.search sp'.names) = _
  rw [hn, ← h5, ← hat, ← e1, ← e2, ← e3]
  congr 1
  rw [← hsp]

/-- Non-vacuity of `c151_like_new_partial`: from two real variables to two real variables by way of an integer space. -/
example (eval : String → Option ℚ) : ∃ s, constructOn eval ⟨.missing, {}, true, 1, false, false⟩ ⟨["x", "y"], [.real, .real]⟩ = some s ∧
    constructOn eval ⟨.missing, {}, true, 1, false, false⟩ ⟨["x", "y"], [.real, .real]⟩ =
      some ([(⟨["a"], [.integer]⟩ : SpaceView), ⟨["x", "y"], [.real, .real]⟩].foldl assignSpace s) :=
  ⟨_, rfl, c151_like_new_partial eval _ ⟨["x", "y"], [.real, .real]⟩ _ rfl _ ⟨["x", "y"], [.real, .real]⟩ rfl rfl rfl (by decide) Iff.rfl⟩

/-- The property fails: an optimiser with a differentiable model made on a real space of two variables and given an integer space of two variables goes on to ask the
criterion for its gradient although the search that runs is the evolution strategy, which a new optimiser would not; and with `eval_type="dict"` the constraints receive the
new values under the old names. -/
theorem c151_stale_refuted (eval : String → Option ℚ) :
    let u : SpaceUses := ⟨.missing, {}, true, 1, false, false⟩
    let old : SpaceView := ⟨["x", "y"], [.real, .real]⟩
    let new : SpaceView := ⟨["a", "b"], [.integer, .integer]⟩
    ∃ s s', constructOn eval u old = some s ∧ constructOn eval u new = some s' ∧
      runsAlgo (assignSpace s new).search.optimizer new.types = some .mies ∧ returnsGradient (assignSpace s new).search = true ∧
      runsAlgo s'.search.optimizer new.types = some .mies ∧ returnsGradient s'.search = false ∧
      candidateOf true (assignSpace s new).wrapNames [.one (.int 1), .one (.int 2)] = .dict [("x", .one (.int 1)), ("y", .one (.int 2))] ∧
      candidateOf true s'.wrapNames [.one (.int 1), .one (.int 2)] = .dict [("a", .one (.int 1)), ("b", .one (.int 2))] := by
  refine ⟨⟨⟨["x", "y"], [.real, .real]⟩, spaceAttrs _, 10, ⟨"BFGS", 200, 10, 3⟩, ["x", "y"]⟩,
    ⟨⟨["a", "b"], [.integer, .integer]⟩, spaceAttrs _, 10, ⟨"MIES", 2000, 10, 3⟩, ["a", "b"]⟩, rfl, rfl, ?_, rfl, ?_, rfl, rfl, rfl⟩ <;> decide

end Verif.Props
