import Verif.Spec.Penalty
import Mathlib.Algebra.Order.BigOperators.Group.List

/-! # C34: the dynamic penalty -/
namespace Verif.Props
open Verif.Model Verif.Spec

variable {α : Type*}

/-- A single point whose first coordinate is not a collection, or a non-empty batch. -/
def ProperArg (iter : α → Bool) : PenArg α → Prop
  | .point x => ∃ v y, x = v :: y ∧ iter v = false
  | .batch X => X ≠ []

private theorem rows_proper {iter : α → Bool} {X : PenArg α} (hX : ProperArg iter X) :
    penRows iter X = .ok ((pointsOf X).map .point) := by
  cases X with
  | point x =>
    obtain ⟨v, y, rfl, hv⟩ := hX
    simp [penRows, hv, pointsOf]
  | batch X =>
    cases X with
    | nil => exact absurd rfl hX
    | cons r X => rfl

private theorem mapM_some {β γ : Type*} (f : β → Option γ) (l : List β) (k : γ → Prop)
    (h : ∀ x ∈ l, ∃ v, f x = some v ∧ k v) : ∃ V, l.mapM f = some V ∧ (∀ v ∈ V, k v) ∧ V.length = l.length ∧
      ∀ (i : ℕ) x, l[i]? = some x → V[i]? = f x := by
  induction l with
  | nil => exact ⟨[], rfl, by simp, rfl, by simp⟩
  | cons b l ih =>
    obtain ⟨V, h1, h2, h3, h4⟩ := ih (fun x hx => h x (List.mem_cons_of_mem _ hx))
    obtain ⟨v, hv, hk⟩ := h b (List.mem_cons_self ..)
    refine ⟨v :: V, ?_, ?_, by simp [h3], ?_⟩
    · simp [List.mapM_cons, hv, h1]
    · intro w hw
      rcases List.mem_cons.mp hw with rfl | hw
      · exact hk
      · exact h2 w hw
    · intro i x hi
      cases i with
      | zero => simp at hi ⊢; rw [← hi, hv]
      | succ i => simpa using h4 i x (by simpa using hi)

private theorem terms_ok (term : List ℝ → ℝ) (f : Option (Cand α → Option (List ℝ))) (X : List (List α))
    (hf : Evaluable f X) : ∃ ps, penTerms term f (X.map .point) = .ok ps ∧ ps.length = X.length ∧
      ∀ (i : ℕ) x, X[i]? = some x →
        (f = none → ps[i]? = some 0) ∧
        (∀ c, f = some c → ∃ v, c (.point x) = some v ∧ ps[i]? = some (term v)) := by
  cases f with
  | none =>
    refine ⟨_, rfl, by simp, ?_⟩
    intro i x hx
    simp [hx]
  | some c =>
    obtain ⟨k, hk⟩ := hf c rfl
    obtain ⟨V, h1, h2, h3, h4⟩ := mapM_some c (X.map .point) (fun v => v.length = k) (by
      intro y hy
      obtain ⟨x, hx, rfl⟩ := List.mem_map.mp hy
      exact hk x hx)
    have hs : sameLength V = true := by
      unfold sameLength
      rw [List.all_eq_true]
      intro v hv
      cases V with
      | nil => simp at hv
      | cons w V => simp [h2 v hv, h2 w (List.mem_cons_self ..)]
    refine ⟨V.map term, ?_, by simp [h3], ?_⟩
    · simp [penTerms, constraintTable, h1, hs, Except.map]
    · intro i x hx
      refine ⟨by simp, ?_⟩
      intro c' hc'
      obtain rfl := Option.some.inj hc'
      obtain ⟨v, hv, -⟩ := hk x (List.mem_of_getElem? hx)
      refine ⟨v, hv, ?_⟩
      have := h4 i (.point x) (by simp [hx])
      simp [this, hv]

private theorem sum_zero_iff (l : List ℝ) (h : ∀ a ∈ l, 0 ≤ a) : 0 ≤ l.sum ∧ (l.sum = 0 ↔ ∀ a ∈ l, a = 0) := by
  induction l with
  | nil => simp
  | cons b l ih =>
    obtain ⟨h1, h2⟩ := ih (fun a ha => h a (List.mem_cons_of_mem _ ha))
    have hb := h b (List.mem_cons_self ..)
    simp only [List.sum_cons, List.forall_mem_cons]
    refine ⟨by linarith, ?_⟩
    rw [← h2]
    constructor
    · intro h; constructor <;> linarith
    · rintro ⟨h3, h4⟩; linarith

private theorem eqTerm_spec (eps : ℝ) (he : 0 ≤ eps) (v : List ℝ) :
    0 ≤ eqTerm eps v ∧ (eqTerm eps v = 0 ↔ ∀ a ∈ v, |a| ≤ eps) := by
  obtain ⟨h1, h2⟩ := sum_zero_iff (v.map (fun a => |if |a| ≤ eps then 0 else a|)) (by
    intro a ha
    obtain ⟨b, -, rfl⟩ := List.mem_map.mp ha
    exact abs_nonneg _)
  refine ⟨h1, ?_⟩
  unfold eqTerm
  rw [h2, List.forall_mem_map]
  constructor
  · intro h a ha
    have := h a ha
    by_contra hc
    rw [if_neg hc, abs_eq_zero] at this
    subst this
    exact hc (by simpa using he)
  · intro h a ha
    rw [if_pos (h a ha), abs_zero]

private theorem ineqTerm_spec (beta : ℝ) (hb : 0 < beta) (v : List ℝ) :
    0 ≤ ineqTerm beta v ∧ (ineqTerm beta v = 0 ↔ ∀ a ∈ v, a ≤ 0) := by
  obtain ⟨h1, h2⟩ := sum_zero_iff (v.map (fun a => |if a ≤ 0 then 0 else a| ^ beta)) (by
    intro a ha
    obtain ⟨b, -, rfl⟩ := List.mem_map.mp ha
    exact Real.rpow_nonneg (abs_nonneg _) _)
  refine ⟨h1, ?_⟩
  unfold ineqTerm
  rw [h2, List.forall_mem_map]
  constructor
  · intro h a ha
    have := h a ha
    by_contra hc
    rw [if_neg hc, Real.rpow_eq_zero (abs_nonneg _) hb.ne', abs_eq_zero] at this
    exact hc this.le
  · intro h a ha
    rw [if_pos (h a ha), abs_zero, Real.zero_rpow hb.ne']

/-- What a penalised run computes for row `i`, before scaling. -/
private theorem penalty_rows (iter : α → Bool) (h g : Option (Cand α → Option (List ℝ))) (X : PenArg α)
    (hX : ProperArg iter X) (hh : Evaluable h (pointsOf X)) (hg : Evaluable g (pointsOf X))
    (eps beta : ℝ) (he : 0 ≤ eps) (hb : 0 < beta) :
    ∃ qs : List ℝ, qs.length = (pointsOf X).length ∧
      (∀ par : PenPar, par.eps = eps → par.beta = beta → dynamicPenalty iter h g par X = .ok (qs.map (penScale par))) ∧
      ∀ (i : ℕ) x q, (pointsOf X)[i]? = some x → qs[i]? = some q → 0 ≤ q ∧ (q = 0 ↔ Satisfied eps h g x) := by
  obtain ⟨p1, h1, l1, r1⟩ := terms_ok (eqTerm eps) h _ hh
  obtain ⟨p2, h2, l2, r2⟩ := terms_ok (ineqTerm beta) g _ hg
  refine ⟨List.zipWith (· + ·) p1 p2, by simp [l1, l2], ?_, ?_⟩
  · intro par e1 e2
    unfold dynamicPenalty
    rw [rows_proper hX]
    simp only [Except.bind, e1, e2, h1, h2, Except.map]
  · intro i x q hx hq
    obtain ⟨a1, b1⟩ := r1 i x hx
    obtain ⟨a2, b2⟩ := r2 i x hx
    rw [List.getElem?_zipWith] at hq
    have left : ∃ u, p1[i]? = some u ∧ 0 ≤ u ∧
        (u = 0 ↔ ∀ f, h = some f → ∀ v, f (.point x) = some v → ∀ a ∈ v, |a| ≤ eps) := by
      cases h with
      | none => exact ⟨0, a1 rfl, le_refl _, by simp⟩
      | some f =>
        obtain ⟨v, hv, hp⟩ := b1 f rfl
        obtain ⟨h3, h4⟩ := eqTerm_spec eps he v
        refine ⟨_, hp, h3, ?_⟩
        rw [h4]
        constructor
        · intro h5 f' hf' v' hv'
          obtain rfl := Option.some.inj hf'
          rw [hv] at hv'
          obtain rfl := Option.some.inj hv'
          exact h5
        · intro h5; exact h5 f rfl v hv
    have right : ∃ u, p2[i]? = some u ∧ 0 ≤ u ∧
        (u = 0 ↔ ∀ f, g = some f → ∀ v, f (.point x) = some v → ∀ a ∈ v, a ≤ 0) := by
      cases g with
      | none => exact ⟨0, a2 rfl, le_refl _, by simp⟩
      | some f =>
        obtain ⟨v, hv, hp⟩ := b2 f rfl
        obtain ⟨h3, h4⟩ := ineqTerm_spec beta hb v
        refine ⟨_, hp, h3, ?_⟩
        rw [h4]
        constructor
        · intro h5 f' hf' v' hv'
          obtain rfl := Option.some.inj hf'
          rw [hv] at hv'
          obtain rfl := Option.some.inj hv'
          exact h5
        · intro h5; exact h5 f rfl v hv
    obtain ⟨u, hu, nu, su⟩ := left
    obtain ⟨w, hw, nw, sw⟩ := right
    simp only [hu, hw, Option.some.injEq] at hq
    subst hq
    refine ⟨by linarith, ?_⟩
    unfold Satisfied
    rw [← su, ← sw]
    constructor
    · intro h; constructor <;> linarith
    · rintro ⟨h3, h4⟩; linarith

/-- C34, partial (single points must not start with a collection, see `c34_subset_point_split`): there is one value per
point; it is zero iff the point satisfies the constraints, else positive when minimising and negative when maximising. -/
theorem c34_penalty_separates_partial (iter : α → Bool) (h g : Option (Cand α → Option (List ℝ))) (par : PenPar)
    (X : PenArg α) (hX : ProperArg iter X) (hh : Evaluable h (pointsOf X)) (hg : Evaluable g (pointsOf X))
    (hC : 0 < par.C) (ht : 0 < par.t) (he : 0 ≤ par.eps) (hb : 0 < par.beta) :
    ∃ ps, dynamicPenalty iter h g par X = .ok ps ∧ ps.length = (pointsOf X).length ∧
      ∀ (i : ℕ) x p, (pointsOf X)[i]? = some x → ps[i]? = some p →
        (p = 0 ↔ Satisfied par.eps h g x) ∧
        (¬ Satisfied par.eps h g x → if par.minimize then 0 < p else p < 0) := by
  obtain ⟨qs, hl, hq, hs⟩ := penalty_rows iter h g X hX hh hg par.eps par.beta he hb
  refine ⟨_, hq par rfl rfl, by simp [hl], ?_⟩
  intro i x p hx hp
  rw [List.getElem?_map, Option.map_eq_some_iff] at hp
  obtain ⟨q, hqi, rfl⟩ := hp
  obtain ⟨h1, h2⟩ := hs i x q hx hqi
  have hpos : 0 < (par.C * par.t) ^ par.alpha := Real.rpow_pos_of_pos (mul_pos hC ht) _
  rw [← h2]
  constructor
  · unfold penScale
    constructor
    · intro h
      by_contra hne
      have : 0 < (par.C * par.t) ^ par.alpha * q := mul_pos hpos (lt_of_le_of_ne h1 (Ne.symm hne))
      split at h <;> linarith
    · rintro rfl; simp
  · intro hne
    have : 0 < (par.C * par.t) ^ par.alpha * q := mul_pos hpos (lt_of_le_of_ne h1 (Ne.symm hne))
    unfold penScale
    split <;> linarith

/-- C34, partial: with all other parameters fixed and `alpha ≥ 0`, the magnitude of the penalty of a point never
decreases with `t`. -/
theorem c34_monotone_in_t_partial (iter : α → Bool) (h g : Option (Cand α → Option (List ℝ))) (par : PenPar)
    (X : PenArg α) (hX : ProperArg iter X) (hh : Evaluable h (pointsOf X)) (hg : Evaluable g (pointsOf X))
    (hC : 0 < par.C) (ht : 0 < par.t) (he : 0 ≤ par.eps) (hb : 0 < par.beta) (ha : 0 ≤ par.alpha)
    (t' : ℝ) (ht' : par.t ≤ t') :
    ∃ ps ps', dynamicPenalty iter h g par X = .ok ps ∧ dynamicPenalty iter h g { par with t := t' } X = .ok ps' ∧
      ∀ (i : ℕ) p p', ps[i]? = some p → ps'[i]? = some p' → |p| ≤ |p'| := by
  obtain ⟨qs, hl, hq, hs⟩ := penalty_rows iter h g X hX hh hg par.eps par.beta he hb
  refine ⟨_, _, hq par rfl rfl, hq { par with t := t' } rfl rfl, ?_⟩
  intro i p p' hp hp'
  rw [List.getElem?_map, Option.map_eq_some_iff] at hp hp'
  obtain ⟨q, hqi, rfl⟩ := hp
  obtain ⟨q', hqi', rfl⟩ := hp'
  rw [hqi] at hqi'
  obtain rfl := Option.some.inj hqi'
  have key : (par.C * par.t) ^ par.alpha ≤ (par.C * t') ^ par.alpha :=
    Real.rpow_le_rpow (mul_pos hC ht).le (mul_le_mul_of_nonneg_left ht' hC.le) ha
  have h0 : 0 ≤ (par.C * par.t) ^ par.alpha := Real.rpow_nonneg (mul_pos hC ht).le _
  have hsgn : |(if par.minimize then (1 : ℝ) else -1)| = 1 := by split <;> simp
  simp only [penScale, abs_mul, hsgn, mul_one]
  rw [abs_of_nonneg h0, abs_of_nonneg (h0.trans key)]
  exact mul_le_mul_of_nonneg_right key (abs_nonneg _)

/-- C34: an exception in a constraint function is reported as `ConstraintEvaluationError`, never as a value. -/
theorem c34_constraint_error (iter : α → Bool) (f : Cand α → Option (List ℝ)) (h : Option (Cand α → Option (List ℝ)))
    (par : PenPar) (X : PenArg α) (hX : ProperArg iter X) (x : List α) (hx : x ∈ pointsOf X)
    (hf : f (.point x) = none) :
    dynamicPenalty iter (some f) h par X = .error .constraint := by
  have : ((pointsOf X).map Cand.point).mapM f = none := by
    generalize pointsOf X = l at hx
    induction l with
    | nil => simp at hx
    | cons y l ih =>
      rw [List.map_cons, List.mapM_cons]
      rcases List.mem_cons.mp hx with rfl | hx
      · simp [hf]
      · cases f (.point y) <;> simp [ih hx]
  unfold dynamicPenalty
  rw [rows_proper hX]
  simp [Except.bind, penTerms, constraintTable, this, Except.map]

/-- C34 refuted for single points that start with a collection (a `Subset` value): the constraint functions are called
on the coordinates, and there is one value per coordinate. -/
theorem c34_subset_point_split :
    ∃ (f : Cand (ℤ ⊕ List ℤ) → Option (List ℝ)), f (.point [.inr [1, 2], .inl 3]) = some [0] ∧
      dynamicPenalty (Sum.elim (fun _ => false) (fun _ => true)) none (some f) (.default 1 true)
        (.point [.inr [1, 2], .inl 3]) = .ok [1 / 2, 1 / 2] := by
  refine ⟨fun c => match c with | .point _ => some [0] | .coord _ => some [1], rfl, ?_⟩
  norm_num [dynamicPenalty, penRows, Except.bind, penTerms, constraintTable, sameLength, Except.map, ineqTerm, penScale,
    PenPar.default]

/-- The hypotheses hold for a point of two reals with one equality and two inequality constraints, one violated. -/
example : ProperArg (fun _ : ℝ => false) (.point [3, 4]) ∧
    Evaluable (some (fun c => match c with | .point x => some [x.sum - 7] | .coord _ => none)) [[(3 : ℝ), 4]] ∧
    ¬ Satisfied (1 / 10) none (some (fun c => match c with | .point x => some [x.sum - 8, x.sum - 6] | .coord _ => none))
      [(3 : ℝ), 4] := by
  refine ⟨⟨3, [4], rfl, rfl⟩, ?_, ?_⟩
  · intro c hc
    obtain rfl := Option.some.inj hc
    exact ⟨1, by simp⟩
  · rintro ⟨-, h⟩
    have := h _ rfl _ rfl 1 (by norm_num)
    norm_num at this

end Verif.Props
