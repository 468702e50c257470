import Verif.Model.FixedSeed
import Verif.Props.OnePlusOne
import Mathlib.Tactic.Linarith

/-!
# C138: the restarts of the acquisition search are different searches
-/
namespace Verif.Props

open Verif.Model

variable {G : Type*} {n : ℕ}

/-! ### What holds: L-BFGS-B -/

/-- The `i`-th of the points drawn one after the other from the generator in state `r`. -/
def nthDraw {X : Type*} (start : G → X × G) : ℕ → G → X
  | 0, r => (start r).1
  | i + 1, r => nthDraw start i (start r).2

/-- **C138, the part that holds.**  With L-BFGS-B the `i`-th restart starts at the `i`-th point drawn from the user's generator. -/
theorem c138_bfgs_partial {X : Type*} (start : G → X × G) (lbfgs : X → ℤ → Outcome X ℝ) (h g : Option (X → List ℝ)) (w k : ℕ) (budget : ℤ) (r : G)
    (i : ℕ) (o : Outcome X ℝ) (hi : (seededRun start (bfgsInner lbfgs) h g w k budget r).1.runs[i]? = some o) :
    ∃ b : ℤ, o = lbfgs (nthDraw start i r) b := by
  have key : ∀ (k : ℕ) (s : RState X ℝ) (r : G) (i : ℕ) (o : Outcome X ℝ),
      (seededLoop start (bfgsInner lbfgs) h g w k s r).1.runs[s.runs.length + i]? = some o → ∃ b : ℤ, o = lbfgs (nthDraw start i r) b := by
    intro k
    induction k with
    | zero =>
      intro s r i o hi
      simp [seededLoop] at hi
    | succ k ih =>
      intro s r i o hi
      have hruns : (restartStep h g s (bfgsInner lbfgs (start r).1 s.budget (start r).2).1).runs = s.runs ++ [lbfgs (start r).1 s.budget] := by
        unfold restartStep bfgsInner
        split_ifs <;> rfl
      have hpre : ∀ (k : ℕ) (t : RState X ℝ) (r : G) (j : ℕ), j < t.runs.length →
          (seededLoop start (bfgsInner lbfgs) h g w k t r).1.runs[j]? = t.runs[j]? := by
        intro k
        induction k with
        | zero => intro t r j hj; rfl
        | succ k ih2 =>
          intro t r j hj
          have h2 : (restartStep h g t (bfgsInner lbfgs (start r).1 t.budget (start r).2).1).runs = t.runs ++ [lbfgs (start r).1 t.budget] := by
            unfold restartStep bfgsInner
            split_ifs <;> rfl
          have e : (t.runs ++ [lbfgs (start r).1 t.budget])[j]? = t.runs[j]? := List.getElem?_append_left hj
          unfold seededLoop
          simp only
          split_ifs
          · show (restartStep h g t _).runs[j]? = _
            rw [h2, e]
          · rw [ih2 _ _ j (by rw [h2]; simp; omega), h2, e]
      have hmain : (seededLoop start (bfgsInner lbfgs) h g w (k + 1) s r).1.runs[s.runs.length + i]? = some o := hi
      have hlen : (restartStep h g s (bfgsInner lbfgs (start r).1 s.budget (start r).2).1).runs.length = s.runs.length + 1 := by rw [hruns]; simp
      unfold seededLoop at hmain
      simp only at hmain
      cases i with
      | zero =>
        have e : (s.runs ++ [lbfgs (start r).1 s.budget])[s.runs.length]? = some (lbfgs (start r).1 s.budget) := by simp
        split_ifs at hmain with hc
        · have : (restartStep h g s (bfgsInner lbfgs (start r).1 s.budget (start r).2).1).runs[s.runs.length + 0]? = some o := hmain
          rw [hruns, Nat.add_zero, e] at this
          exact ⟨s.budget, (Option.some.inj this).symm⟩
        · rw [hpre k _ _ _ (by rw [hlen]; omega), hruns, Nat.add_zero, e] at hmain
          exact ⟨s.budget, (Option.some.inj hmain).symm⟩
      | succ i =>
        split_ifs at hmain with hc
        · have : (restartStep h g s (bfgsInner lbfgs (start r).1 s.budget (start r).2).1).runs[s.runs.length + (i + 1)]? = some o := hmain
          rw [List.getElem?_eq_none (by rw [hlen]; omega)] at this
          cases this
        · exact ih _ _ i o (by rw [hlen]; rw [show s.runs.length + 1 + i = s.runs.length + (i + 1) by omega]; exact hmain)
  have := key k ⟨[], ⊥, 0, budget, []⟩ r i o (by simpa [seededRun] using hi)
  exact this

/-! ### What fails: the (1+1)-CMA-ES -/

/-- **C138, refuted: the seed does not matter.**  With the (1+1)-CMA-ES the whole search, with its result and the state in which it leaves the
global generator, is the same whatever the state of the generator before: neither the seed of the user nor earlier draws have any influence,
and two successive searches on the same acquisition function propose the same point. -/
theorem c138_seed_refuted (vars : Fin n → RealVar) (f : (Fin n → ℝ) → ℝ) (penalty : ℕ → (Fin n → ℝ) → ℝ) (src : CmaSource G n) (seeded : G)
    (start : G → (Fin n → ℝ) × G) (h g : Option ((Fin n → ℝ) → List ℝ)) (w k : ℕ) (hk : 1 ≤ k) (budget : ℤ) (r r' : G) :
    seededRun start (cmaInner vars f penalty src seeded) h g w k budget r = seededRun start (cmaInner vars f penalty src seeded) h g w k budget r' := by
  have key : ∀ (k : ℕ) (s : RState (Fin n → ℝ) ℝ) (r r' : G), 1 ≤ k →
      seededLoop start (cmaInner vars f penalty src seeded) h g w k s r = seededLoop start (cmaInner vars f penalty src seeded) h g w k s r' := by
    intro k
    induction k with
    | zero => intro s r r' hk; omega
    | succ k ih =>
      intro s r r' _
      unfold seededLoop
      have e : cmaInner vars f penalty src seeded (start r).1 s.budget (start r).2 = cmaInner vars f penalty src seeded (start r').1 s.budget (start r').2 := rfl
      simp only [e]
  exact key k _ r r' hk

private theorem eval_best (vars : Fin n → RealVar) (f : (Fin n → ℝ) → ℝ) (b : ℕ) (s : CmaState n) (v : ℝ) (x : Fin n → ℝ)
    (hb : ∃ (z : Fin n → ℝ) (y : ℝ), s.best = some (z, y, y) ∧ v ≤ y) :
    ∃ (z : Fin n → ℝ) (y : ℝ), (cmaEvaluate ⟨vars, f, fun _ _ => 0, false, none, b⟩ s x).best = some (z, y, y) ∧ v ≤ y := by
  obtain ⟨z, y, e, hy⟩ := hb
  unfold cmaEvaluate cmaTell
  by_cases hs : s.stop = true
  · simp only [hs, if_true]
    exact ⟨z, y, e, hy⟩
  · simp only [hs, Bool.false_eq_true, if_false, e]
    by_cases hc : y ≤ f x
    · refine ⟨x, f x, ?_, hy.trans hc⟩
      simp [CmaCfg.better, hc]
    · exact ⟨z, y, by simp [CmaCfg.better, hc], hy⟩

private theorem check_best (cfg : CmaCfg n) (b : Bool) (s : CmaState n) : (cmaCheckStop cfg b s).best = s.best := by
  unfold cmaCheckStop
  simp only
  split_ifs <;> rfl

private theorem step_best (vars : Fin n → RealVar) (f : (Fin n → ℝ) → ℝ) (b : ℕ) (w : CmaNoise n) (s : CmaState n) (v : ℝ)
    (hb : ∃ (z : Fin n → ℝ) (y : ℝ), s.best = some (z, y, y) ∧ v ≤ y) :
    ∃ (z : Fin n → ℝ) (y : ℝ), (cmaStep ⟨vars, f, fun _ _ => 0, false, none, b⟩ w s).best = some (z, y, y) ∧ v ≤ y := by
  have h1 := eval_best vars f b s v (cmaAsk ⟨vars, f, fun _ _ => 0, false, none, b⟩ (w.mutant s.x)) hb
  unfold cmaStep cmaRestart
  split_ifs with hf
  · exact eval_best vars f b _ v _ (by
      show ∃ (z : Fin n → ℝ) (y : ℝ), (cmaCheckStop _ w.stag _).best = some (z, y, y) ∧ v ≤ y
      rw [check_best]; exact h1)
  · rw [check_best]; exact h1

private theorem run_best (vars : Fin n → RealVar) (f : (Fin n → ℝ) → ℝ) (b : ℕ) (noise : ℕ → CmaNoise n) (v : ℝ) :
    ∀ (fuel k : ℕ) (s : CmaState n), (∃ (z : Fin n → ℝ) (y : ℝ), s.best = some (z, y, y) ∧ v ≤ y) →
    ∃ (z : Fin n → ℝ) (y : ℝ), (cmaRun ⟨vars, f, fun _ _ => 0, false, none, b⟩ noise fuel k s).1.best = some (z, y, y) ∧ v ≤ y := by
  intro fuel
  induction fuel with
  | zero => intro k s hb; exact hb
  | succ fuel ih =>
    intro k s hb
    unfold cmaRun
    split_ifs
    · exact hb
    · exact ih (k + 1) _ (step_best vars f b (noise k) s v hb)

private theorem run_mono (vars : Fin n → RealVar) (f : (Fin n → ℝ) → ℝ) (b b' : ℕ) (hbb : b ≤ b') (noise : ℕ → CmaNoise n) :
    ∀ (fuel fuel' k : ℕ) (s : CmaState n), fuel ≤ fuel' → s.stop = false → s.dict = false → s.nRestart = 0 → s.restartFlag = false →
    (∃ (z : Fin n → ℝ) (y : ℝ), s.best = some (z, y, y)) →
    ∃ (z : Fin n → ℝ) (y : ℝ) (z' : Fin n → ℝ) (y' : ℝ), (cmaRun ⟨vars, f, fun _ _ => 0, false, none, b⟩ noise fuel k s).1.best = some (z, y, y) ∧
      (cmaRun ⟨vars, f, fun _ _ => 0, false, none, b'⟩ noise fuel' k s).1.best = some (z', y', y') ∧ y ≤ y' := by
  intro fuel
  induction fuel with
  | zero =>
    intro fuel' k s _ _ _ _ _ hb
    obtain ⟨z, y, e⟩ := hb
    obtain ⟨z', y', e', h'⟩ := run_best vars f b' noise y fuel' k s ⟨z, y, e, le_rfl⟩
    exact ⟨z, y, z', y', e, e', h'⟩
  | succ fuel ih =>
    intro fuel' k s hfu hs hd hn hr hb
    obtain ⟨fuel', rfl⟩ : ∃ m, fuel' = m + 1 := ⟨fuel' - 1, by omega⟩
    obtain ⟨z, y, e⟩ := hb
    unfold cmaRun
    rw [if_neg (by simp [hs]), if_neg (by simp [hs])]
    -- the evaluated state does not depend on the budget
    set s1 := cmaEvaluate ⟨vars, f, fun _ _ => 0, false, none, b⟩ s (cmaAsk ⟨vars, f, fun _ _ => 0, false, none, b⟩ ((noise k).mutant s.x)) with hs1
    have e1 : cmaEvaluate ⟨vars, f, fun _ _ => 0, false, none, b'⟩ s (cmaAsk ⟨vars, f, fun _ _ => 0, false, none, b'⟩ ((noise k).mutant s.x)) = s1 := rfl
    have f1 : s1.stop = false ∧ s1.dict = false ∧ s1.nRestart = 0 ∧ s1.restartFlag = false := by
      rw [hs1]
      unfold cmaEvaluate cmaTell
      simp only [hs, Bool.false_eq_true, if_false, e]
      exact ⟨trivial, hd, hn, hr⟩
    obtain ⟨g1, g2, g3, g4⟩ := f1
    have hit : ∀ m, cmaHit (n := n) ⟨vars, f, fun _ _ => 0, false, none, m⟩ s1 = false := by intro m; unfold cmaHit; rfl
    have hcheck : ∀ m : ℕ, cmaStep ⟨vars, f, fun _ _ => 0, false, none, m⟩ (noise k) s =
        { s1 with dict := (decide (m ≤ s1.evalCount) || (noise k).stag), stop := (decide (m ≤ s1.evalCount) || (noise k).stag) } := by
      intro m
      have e2 : cmaEvaluate ⟨vars, f, fun _ _ => 0, false, none, m⟩ s (cmaAsk ⟨vars, f, fun _ _ => 0, false, none, m⟩ ((noise k).mutant s.x)) = s1 := rfl
      unfold cmaStep
      rw [e2]
      have hc : cmaCheckStop ⟨vars, f, fun _ _ => 0, false, none, m⟩ (noise k).stag s1 =
          { s1 with dict := (decide (m ≤ s1.evalCount) || (noise k).stag), stop := (decide (m ≤ s1.evalCount) || (noise k).stag) } := by
        unfold cmaCheckStop
        simp only [hit, g2, g3, cmaFull, Bool.false_or, lt_irrefl, if_false]
        by_cases hm : m ≤ s1.evalCount
        · simp [hm]
        · simp [hm]
      rw [hc]
      unfold cmaRestart
      rw [if_neg]
      simp [g4]
    obtain ⟨z1, y1, hb1, hy1⟩ := eval_best vars f b s y (cmaAsk ⟨vars, f, fun _ _ => 0, false, none, b⟩ ((noise k).mutant s.x)) ⟨z, y, e, le_rfl⟩
    have hb1' : s1.best = some (z1, y1, y1) := hb1
    by_cases hstop : (decide (b ≤ s1.evalCount) || (noise k).stag) = true
    · have e3 : (cmaRun ⟨vars, f, fun _ _ => 0, false, none, b⟩ noise fuel (k + 1) (cmaStep ⟨vars, f, fun _ _ => 0, false, none, b⟩ (noise k) s)).1.best =
          some (z1, y1, y1) := by
        rw [hcheck b, hstop]
        cases fuel with
        | zero => exact hb1'
        | succ fuel => unfold cmaRun; rw [if_pos rfl]; exact hb1'
      obtain ⟨z', y', e', h'⟩ := run_best vars f b' noise y1 fuel' (k + 1) (cmaStep ⟨vars, f, fun _ _ => 0, false, none, b'⟩ (noise k) s)
        ⟨z1, y1, by rw [hcheck b']; exact hb1', le_rfl⟩
      exact ⟨z1, y1, z', y', e3, e', h'⟩
    · have h0 : (decide (b ≤ s1.evalCount) || (noise k).stag) = false := by simpa using hstop
      have h0' : (decide (b' ≤ s1.evalCount) || (noise k).stag) = false := by
        simp only [Bool.or_eq_false_iff, decide_eq_false_iff_not, not_le] at h0 ⊢
        exact ⟨by omega, h0.2⟩
      rw [hcheck b, hcheck b', h0, h0']
      exact ih fuel' (k + 1) _ (by omega) rfl rfl g3 g4 ⟨z1, y1, hb1'⟩

/-- The result of the inner search improves with the budget, for a fixed seed. -/
private theorem inner_mono (vars : Fin n → RealVar) (f : (Fin n → ℝ) → ℝ) (src : CmaSource G n) (seeded : G) (b b' : ℤ) (hb : b ≤ b')
    (x0 x0' : Fin n → ℝ) (r r' : G) :
    ∃ v v' : ℝ, (cmaInner vars f (fun _ _ => 0) src seeded x0 b r).1.f = some v ∧ (cmaInner vars f (fun _ _ => 0) src seeded x0' b' r').1.f = some v' ∧ v ≤ v' := by
  have hn : b.toNat ≤ b'.toNat := Int.toNat_le_toNat hb
  have hsample : ∀ m, cmaSample (n := n) ⟨vars, f, fun _ _ => 0, false, none, m⟩ (src.first seeded) =
      fun i => ((vars i).hi - (vars i).lo) * src.first seeded i + (vars i).lo := fun m => rfl
  set x : Fin n → ℝ := fun i => ((vars i).hi - (vars i).lo) * src.first seeded i + (vars i).lo with hx
  have hset : ∀ m, cmaSetX (n := n) ⟨vars, f, fun _ _ => 0, false, none, m⟩ (cmaEmpty x 0) x =
      { cmaEmpty x 0 with evalCount := 1, best := some (x, f x, f x), told := [⟨x, f x, 0⟩] } := by
    intro m
    simp [cmaSetX, cmaEvaluate, cmaTell, cmaEmpty]
  obtain ⟨z, y, z', y', e, e', h⟩ := run_mono vars f b.toNat b'.toNat hn (src.noise seeded) (b.toNat + 1) (b'.toNat + 1) 0
    { cmaEmpty x 0 with evalCount := 1, best := some (x, f x, f x), told := [⟨x, f x, 0⟩] } (by omega) rfl rfl rfl rfl ⟨x, f x, rfl⟩
  refine ⟨y, y', ?_, ?_, h⟩
  · simp only [cmaInner, hsample, hset, ← hx]
    rw [e]; rfl
  · simp only [cmaInner, hsample, hset, ← hx]
    rw [e']; rfl

/-- **C138, refuted: restarts gain nothing.**  For every objective without constraints, every box, budget and number of restarts: no restart of the
(1+1)-CMA-ES finds a better value than the first one, because each of them repeats its run with a smaller budget. -/
theorem c138_restarts_refuted (vars : Fin n → RealVar) (f : (Fin n → ℝ) → ℝ) (src : CmaSource G n) (seeded : G)
    (start : G → (Fin n → ℝ) × G) (w k : ℕ) (hk : 1 ≤ k) (budget : ℤ) (r : G) :
    let first := cmaInner vars f (fun _ _ => 0) src seeded (start r).1 budget r
    let s := (seededRun start (cmaInner vars f (fun _ _ => 0) src seeded) none none w k budget r).1
    ∃ v : ℝ, first.1.f = some v ∧ s.best = (v : WithBot ℝ) ∧ (first.1.x, first.1.f) ∈ s.found ∧ ∀ p ∈ s.found, ∃ u : ℝ, p.2 = some u ∧ u ≤ v := by
  intro first s
  obtain ⟨v, -, hv, -, -⟩ := inner_mono vars f src seeded budget budget le_rfl (start r).1 (start r).1 r r
  refine ⟨v, hv, ?_⟩
  have hle : ∀ (b : ℤ) (x0 : Fin n → ℝ) (r' : G), b ≤ budget → ∃ u : ℝ, (cmaInner vars f (fun _ _ => 0) src seeded x0 b r').1.f = some u ∧ u ≤ v := by
    intro b x0 r' hb
    obtain ⟨u, v', h1, h2, h3⟩ := inner_mono vars f src seeded b budget hb x0 (start r).1 r' r
    rw [h2] at hv
    exact ⟨u, h1, by rw [← Option.some.inj hv]; exact h3⟩
  have key : ∀ (k : ℕ) (t : RState (Fin n → ℝ) ℝ) (r' : G), t.best = (v : WithBot ℝ) → (first.1.x, first.1.f) ∈ t.found →
      (∀ p ∈ t.found, ∃ u : ℝ, p.2 = some u ∧ u ≤ v) → t.budget ≤ budget →
      (let s := (seededLoop start (cmaInner vars f (fun _ _ => 0) src seeded) none none w k t r').1
       s.best = (v : WithBot ℝ) ∧ (first.1.x, first.1.f) ∈ s.found ∧ ∀ p ∈ s.found, ∃ u : ℝ, p.2 = some u ∧ u ≤ v) := by
    intro k
    induction k with
    | zero => intro t r' h1 h2 h3 _; exact ⟨h1, h2, h3⟩
    | succ k ih =>
      intro t r' h1 h2 h3 h4
      obtain ⟨u, hu, huv⟩ := hle t.budget (start r').1 (start r').2 h4
      set o := cmaInner vars f (fun _ _ => 0) src seeded (start r').1 t.budget (start r').2 with ho
      have himp : improves o.1.f t.best = false := by
        rw [hu, h1]
        simpa [improves] using huv
      have hstep : restartStep none none t o.1 = ⟨t.found ++ [(o.1.x, o.1.f)], t.best, t.wait + 1, t.budget - o.1.funcalls, t.runs ++ [o.1]⟩ := by
        unfold restartStep
        simp [restartFeasible, himp]
      have i1 : (restartStep none none t o.1).best = (v : WithBot ℝ) := by rw [hstep]; exact h1
      have i2 : (first.1.x, first.1.f) ∈ (restartStep none none t o.1).found := by rw [hstep]; exact List.mem_append_left _ h2
      have i3 : ∀ p ∈ (restartStep none none t o.1).found, ∃ u : ℝ, p.2 = some u ∧ u ≤ v := by
        rw [hstep]
        intro p hp
        rcases List.mem_append.1 hp with hp | hp
        · exact h3 p hp
        · rw [List.mem_singleton] at hp
          exact ⟨u, by rw [hp]; exact hu, huv⟩
      have i4 : (restartStep none none t o.1).budget ≤ budget := by rw [hstep]; show t.budget - (o.1.funcalls : ℤ) ≤ budget; omega
      unfold seededLoop
      simp only [← ho]
      split_ifs
      · exact ⟨i1, i2, i3⟩
      · exact ih _ _ i1 i2 i3 i4
  obtain ⟨k, rfl⟩ : ∃ m, k = m + 1 := ⟨k - 1, by omega⟩
  have e : cmaInner vars f (fun _ _ => 0) src seeded (start r).1 budget (start r).2 = first := rfl
  have hstep : restartStep none none ⟨[], ⊥, 0, budget, []⟩ first.1 = ⟨[(first.1.x, first.1.f)], (v : WithBot ℝ), 0, budget - first.1.funcalls, [first.1]⟩ := by
    unfold restartStep
    rw [show first.1.f = some v from hv]
    simp [restartFeasible, improves]
  have j3 : ∀ p ∈ [(first.1.x, first.1.f)], ∃ u : ℝ, p.2 = some u ∧ u ≤ v := by
    intro p hp
    rw [List.mem_singleton] at hp
    exact ⟨v, by rw [hp]; exact hv, le_rfl⟩
  show (let s := (seededLoop start (cmaInner vars f (fun _ _ => 0) src seeded) none none w (k + 1) ⟨[], ⊥, 0, budget, []⟩ r).1
       s.best = (v : WithBot ℝ) ∧ (first.1.x, first.1.f) ∈ s.found ∧ ∀ p ∈ s.found, ∃ u : ℝ, p.2 = some u ∧ u ≤ v)
  unfold seededLoop
  simp only [e, hstep]
  split_ifs
  · exact ⟨rfl, by simp, j3⟩
  · exact key k _ _ rfl (by simp) j3 (by show budget - (first.1.funcalls : ℤ) ≤ budget; omega)

/-- The run inside one restart comes to an end by itself within the steps that the model allows. -/
example (vars : Fin n → RealVar) (f : (Fin n → ℝ) → ℝ) (noise : ℕ → CmaNoise n) (b : ℕ) (s : CmaState n) :
    (cmaRun ⟨vars, f, fun _ _ => 0, false, none, b⟩ noise (b + 1) 0 s).2 = true := c64_terminates _ noise s 0 (b + 1) le_rfl

/-- L-BFGS-B with a generator that counts: the two restarts start at different points. -/
example : (seededRun (fun r : ℕ => ((r : ℝ), r + 1)) (bfgsInner (fun x _ => (⟨x, some x, 1⟩ : Outcome ℝ ℝ))) none none 3 2 100 7).1.runs.map (fun o => o.x) = [7, 8] := by
  simp [seededRun, seededLoop, bfgsInner, restartStep, restartFeasible, improves]
  norm_num
  rw [if_neg (by split_ifs <;> norm_num)]
  rfl

end Verif.Props
