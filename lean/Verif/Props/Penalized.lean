import Verif.Proofs.Penalized
import Verif.Model.ArgmaxRestart

/-!
# C125: the penalised objective of the gradient-based acquisition search
-/
namespace Verif.Props

open Verif.Model Verif.Spec Verif.Proofs

private theorem call_eq (func : List ℝ → ℝ × List ℝ) (h g : Option (List ℝ → List ℝ)) (hc : h.isSome || g.isSome) (t : ℕ) (x : List ℝ) (hx : x ≠ []) :
    penalizedCall func (totalC h) (totalC g) t x =
      (.ok (-(func x).1 + t / 2 * violation (valuesOf h) (valuesOf g) x,
        List.zipWith (· + ·) ((func x).2.map (-1 * ·)) (centralDifferences (fun y => t / 2 * violation (valuesOf h) (valuesOf g) y) (1 / 100000) x)), t + 1) := by
  unfold penalizedCall
  have hc' : ((totalC h).isSome || (totalC g).isSome) = true := by
    unfold totalC
    rw [Option.isSome_map, Option.isSome_map]; exact hc
  dsimp only
  rw [if_pos hc', pointPenalty_eq h g t (Nat.cast_nonneg t) x hx,
    finiteDifference_eq _ (fun y => t / 2 * violation (valuesOf h) (valuesOf g) y) (fun y hy => pointPenalty_eq h g t (Nat.cast_nonneg t) y hy)]
  dsimp only
  rw [neg_one_mul]

/-- Without constraints every call returns the negated acquisition value and gradient. -/
theorem c125_unconstrained (func : List ℝ → ℝ × List ℝ) (xs : List (List ℝ)) (k : ℕ) (x : List ℝ) (hx : xs[k]? = some x) :
    (penalizedCalls func none none 10 xs)[k]? = some (.ok (-(func x).1, (func x).2.map (- ·))) := by
  have gen : ∀ (xs : List (List ℝ)) (t k : ℕ), xs[k]? = some x → (penalizedCalls func none none t xs)[k]? = some (.ok (-(func x).1, (func x).2.map (- ·))) := by
    intro xs
    induction xs with
    | nil => intro t k h; simp at h
    | cons y xs ih =>
      intro t k h
      unfold penalizedCalls
      cases k with
      | zero =>
        simp only [List.getElem?_cons_zero, Option.some.injEq] at h ⊢
        subst h
        simp [penalizedCall]
      | succ k =>
        rw [List.getElem?_cons_succ] at h ⊢
        exact ih _ k h
  exact gen xs 10 k hx

/-- With constraints, call number `k` of a run (from 0) returns the negated acquisition value plus `(10 + k) / 2` times the violation of the constraints, and
the negated gradient plus the central differences of that penalty. -/
theorem c125_calls (func : List ℝ → ℝ × List ℝ) (h g : Option (List ℝ → List ℝ)) (hc : h.isSome || g.isSome) (xs : List (List ℝ)) (hne : ∀ x ∈ xs, x ≠ [])
    (k : ℕ) (x : List ℝ) (hx : xs[k]? = some x) :
    (penalizedCalls func (totalC h) (totalC g) 10 xs)[k]? =
      some (.ok (-(func x).1 + ((10 + k : ℕ) : ℝ) / 2 * violation (valuesOf h) (valuesOf g) x,
        List.zipWith (· + ·) ((func x).2.map (-1 * ·))
          (centralDifferences (fun y => ((10 + k : ℕ) : ℝ) / 2 * violation (valuesOf h) (valuesOf g) y) (1 / 100000) x))) := by
  have gen : ∀ (xs : List (List ℝ)) (t k : ℕ), (∀ x ∈ xs, x ≠ []) → xs[k]? = some x →
      (penalizedCalls func (totalC h) (totalC g) t xs)[k]? = some (penalizedCall func (totalC h) (totalC g) (t + k) x).1 := by
    intro xs
    induction xs with
    | nil => intro t k _ h; simp at h
    | cons y xs ih =>
      intro t k hne hk
      unfold penalizedCalls
      cases k with
      | zero =>
        simp only [List.getElem?_cons_zero, Option.some.injEq] at hk ⊢
        rw [hk, Nat.add_zero]
      | succ k =>
        rw [List.getElem?_cons_succ] at hk ⊢
        rw [ih _ k (fun z hz => hne z (List.mem_cons_of_mem _ hz)) hk, call_eq func h g hc t y (hne y (List.mem_cons_self ..))]
        congr 2
        rw [show t + 1 + k = t + (k + 1) by omega]
  rw [gen xs 10 k hne hx, call_eq func h g hc _ x (hne x (List.mem_of_getElem? hx))]

/-- The penalty vanishes exactly at the points that meet the constraints (equalities up to a tenth), and is positive elsewhere. -/
theorem c125_separates (h g : List ℝ → List ℝ) (x : List ℝ) :
    (violation h g x = 0 ↔ WithinTolerance h g x) ∧ (¬ WithinTolerance h g x → 0 < violation h g x) :=
  ⟨violation_zero_iff h g x, fun hn => lt_of_le_of_ne (violation_nonneg h g x) fun e => hn ((violation_zero_iff h g x).1 e.symm)⟩

/-- At a point whose neighbours at distance `1e-5` along the axes meet the constraints too, value and gradient are those of the negated acquisition function. -/
theorem c125_interior (func : List ℝ → ℝ × List ℝ) (h g : Option (List ℝ → List ℝ)) (hc : h.isSome || g.isSome) (xs : List (List ℝ)) (hne : ∀ x ∈ xs, x ≠ [])
    (k : ℕ) (x : List ℝ) (hx : xs[k]? = some x) (hl : (func x).2.length = x.length) (hf : WithinTolerance (valuesOf h) (valuesOf g) x)
    (hn : ∀ i < x.length, WithinTolerance (valuesOf h) (valuesOf g) (x.modify i (· + 1 / 100000)) ∧
      WithinTolerance (valuesOf h) (valuesOf g) (x.modify i (· - 1 / 100000))) :
    (penalizedCalls func (totalC h) (totalC g) 10 xs)[k]? = some (.ok (-(func x).1, (func x).2.map (- ·))) := by
  rw [c125_calls func h g hc xs hne k x hx, (violation_zero_iff _ _ _).2 hf, mul_zero, add_zero]
  congr 3
  have : centralDifferences (fun y => ((10 + k : ℕ) : ℝ) / 2 * violation (valuesOf h) (valuesOf g) y) (1 / 100000) x = x.map fun _ => 0 := by
    unfold centralDifferences
    apply List.ext_getElem
    · simp
    · intro i h1 h2
      have hi : i < x.length := by simpa using h2
      simp only [List.getElem_map, List.getElem_range]
      rw [(violation_zero_iff _ _ _).2 (hn i hi).1, (violation_zero_iff _ _ _).2 (hn i hi).2]
      simp
  rw [this]
  apply List.ext_getElem
  · simp [hl]
  · intro i h1 h2
    simp

/-- The value reported for a point that `argmax_restart` takes as feasible is the acquisition value, without any penalty, whatever the number of the call. -/
theorem c125_reported (func : List ℝ → ℝ × List ℝ) (h g : Option (List ℝ → List ℝ)) (hc : h.isSome || g.isSome) (xs : List (List ℝ)) (hne : ∀ x ∈ xs, x ≠ [])
    (k : ℕ) (x : List ℝ) (hx : xs[k]? = some x) (hf : restartFeasible h g x = true) (v : ℝ) (d : List ℝ)
    (hv : (penalizedCalls func (totalC h) (totalC g) 10 xs)[k]? = some (.ok (v, d))) : -v = (func x).1 := by
  rw [c125_calls func h g hc xs hne k x hx] at hv
  simp only [Option.some.injEq, Except.ok.injEq, Prod.mk.injEq] at hv
  have hfe : WithinTolerance (valuesOf h) (valuesOf g) x := by
    unfold restartFeasible at hf
    rw [Bool.and_eq_true] at hf
    constructor
    · cases h with
      | none => intro a ha; simp [valuesOf] at ha
      | some f =>
        intro a ha
        have := List.all_eq_true.1 hf.1 a ha
        simpa using this
    · cases g with
      | none => intro a ha; simp [valuesOf] at ha
      | some f =>
        intro a ha
        have := List.all_eq_true.1 hf.2 a ha
        simpa using this
  rw [← hv.1, (violation_zero_iff _ _ _).2 hfe, mul_zero, add_zero, neg_neg]

/-- What L-BFGS-B is given is not a function of the point: at an infeasible point every later call returns a larger value. -/
theorem c125_drift_refuted (func : List ℝ → ℝ × List ℝ) (h g : Option (List ℝ → List ℝ)) (hc : h.isSome || g.isSome) (xs : List (List ℝ)) (hne : ∀ x ∈ xs, x ≠ [])
    (j k : ℕ) (hjk : j < k) (x : List ℝ) (hj : xs[j]? = some x) (hk : xs[k]? = some x) (hn : ¬ WithinTolerance (valuesOf h) (valuesOf g) x) (v w : ℝ) (d e : List ℝ)
    (hv : (penalizedCalls func (totalC h) (totalC g) 10 xs)[j]? = some (.ok (v, d)))
    (hw : (penalizedCalls func (totalC h) (totalC g) 10 xs)[k]? = some (.ok (w, e))) : v < w := by
  rw [c125_calls func h g hc xs hne j x hj] at hv
  rw [c125_calls func h g hc xs hne k x hk] at hw
  simp only [Option.some.injEq, Except.ok.injEq, Prod.mk.injEq] at hv hw
  rw [← hv.1, ← hw.1]
  have := (c125_separates (valuesOf h) (valuesOf g) x).2 hn
  have h2 : ((10 + j : ℕ) : ℝ) < ((10 + k : ℕ) : ℝ) := by exact_mod_cast (by omega : 10 + j < 10 + k)
  nlinarith

/-- The central differences are within `M δ² / 6` of the partial derivatives, for a function with third derivatives bounded by `M` along the axes. -/
theorem c125_gradient_error (v : List ℝ → ℝ) (delta M : ℝ) (hd : 0 < delta) (x : List ℝ) (i : ℕ) (f1 f2 f3 : ℝ → ℝ)
    (h1 : ∀ s ∈ Set.Icc (-delta) delta, HasDerivAt (alongAxis v x i) (f1 s) s) (h2 : ∀ s ∈ Set.Icc (-delta) delta, HasDerivAt f1 (f2 s) s)
    (h3 : ∀ s ∈ Set.Icc (-delta) delta, HasDerivAt f2 (f3 s) s) (hM : ∀ s ∈ Set.Icc (-delta) delta, |f3 s| ≤ M) (hi : i < x.length) :
    ∃ d, (centralDifferences v delta x)[i]? = some d ∧ |d - f1 0| ≤ M * delta ^ 2 / 6 := by
  refine ⟨_, ?_, central_error (alongAxis v x i) f1 f2 f3 M delta hd h1 h2 h3 hM⟩
  unfold centralDifferences
  rw [List.getElem?_map, List.getElem?_range hi]
  simp only [Option.map_some, alongAxis, sub_eq_add_neg]

/-- A constrained run: `x₀ ≤ 1`, called at 3 twice and at 0. -/
example : ¬ WithinTolerance (valuesOf none) (valuesOf (some fun x => [x.headD 0 - 1])) [3] ∧ WithinTolerance (valuesOf none) (valuesOf (some fun x => [x.headD 0 - 1])) [0] := by
  constructor
  · rintro ⟨_, h⟩
    have := h 2 (by simp [valuesOf]; norm_num)
    norm_num at this
  · exact ⟨by simp [valuesOf], by simp [valuesOf]⟩

/-! ### The hypotheses of C125 are met -/

/-- The acquisition function `x ↦ x[0]` and the constraint `x[0] <= 1`. -/
private noncomputable def demoFunc (x : List ℝ) : ℝ × List ℝ := (x.headD 0, [1])
private noncomputable def demoCon (x : List ℝ) : List ℝ := [x.headD 0 - 1]

example : (penalizedCalls demoFunc none (totalC (some demoCon)) 10 [[0], [3], [3]])[0]? = some (.ok (-0, [-1])) := by
  have h := c125_interior demoFunc none (some demoCon) rfl [[0], [3], [3]] (by simp) 0 [0] rfl rfl
    ⟨by simp [valuesOf], by simp [valuesOf, demoCon]⟩ (by
      intro i hi
      have : i = 0 := by simpa using hi
      subst this
      refine ⟨⟨by simp [valuesOf], ?_⟩, ⟨by simp [valuesOf], ?_⟩⟩ <;> simp [valuesOf, demoCon] <;> norm_num)
  simpa [demoFunc, totalC] using h

/-- The second and the third call at the same infeasible point give different values. -/
example : ∃ v w d e, (penalizedCalls demoFunc none (totalC (some demoCon)) 10 [[0], [3], [3]])[1]? = some (.ok (v, d)) ∧
    (penalizedCalls demoFunc none (totalC (some demoCon)) 10 [[0], [3], [3]])[2]? = some (.ok (w, e)) ∧ v < w := by
  have h1 := c125_calls demoFunc none (some demoCon) rfl [[0], [3], [3]] (by simp) 1 [3] rfl
  have h2 := c125_calls demoFunc none (some demoCon) rfl [[0], [3], [3]] (by simp) 2 [3] rfl
  refine ⟨_, _, _, _, h1, h2, c125_drift_refuted demoFunc none (some demoCon) rfl [[0], [3], [3]] (by simp) 1 2 (by norm_num) [3] rfl rfl ?_ _ _ _ _ h1 h2⟩
  rintro ⟨_, h⟩
  have := h 2 (by simp [valuesOf, demoCon]; norm_num)
  norm_num at this

/-- The error of the differences for the cube of the first coordinate at 1 is at most `delta ^ 2`. -/
example : ∃ d, (centralDifferences (fun x => x.headD 0 ^ 3) (1 / 100000) [1])[0]? = some d ∧ |d - 3 * (1 + 0) ^ 2| ≤ 6 * (1 / 100000) ^ 2 / 6 := by
  have hf : alongAxis (fun x => x.headD 0 ^ 3) [1] 0 = fun s => (1 + s) ^ 3 := by
    funext s
    simp [alongAxis]
  have hlin : ∀ s : ℝ, HasDerivAt (fun s : ℝ => 1 + s) 1 s := fun s => (hasDerivAt_id s).const_add 1
  refine c125_gradient_error (fun x => x.headD 0 ^ 3) (1 / 100000) 6 (by norm_num) [1] 0 (fun s => 3 * (1 + s) ^ 2) (fun s => 6 * (1 + s)) (fun _ => 6)
    ?_ ?_ ?_ (by intro s _; norm_num) (by simp)
  · intro s _
    rw [hf]
    have : HasDerivAt (fun s : ℝ => (1 + s) ^ 3) (((3 : ℕ) : ℝ) * (1 + s) ^ (3 - 1) * 1) s := (hlin s).pow 3
    simpa using this
  · intro s _
    have : HasDerivAt (fun s : ℝ => 3 * (1 + s) ^ 2) (3 * (((2 : ℕ) : ℝ) * (1 + s) ^ (2 - 1) * 1)) s := ((hlin s).pow 2).const_mul 3
    refine this.congr_deriv ?_
    norm_num
    ring
  · intro s _
    simpa using (hlin s).const_mul 6

end Verif.Props
