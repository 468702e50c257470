import Verif.Model.FullRun
import Verif.Props.AskFull
import Verif.Props.Optimizer
import Verif.Spec.Exhaust

/-! # C146: a whole run; C152: every run ends -/
namespace Verif.Props
open Verif.Model Verif.Spec Verif.Proofs

variable {G : Type*}

/-- The assumptions on a run: at least one point per request, and in every step the libraries and the space are as in C144. -/
structure RunOk (u : RunSetup) (w : ℕ → StepWorld G) : Prop where
  point : 1 ≤ u.nPoint
  design : 1 ≤ u.doeSize
  bounds : OrderedBounds u.vars
  libraries : ∀ i, LibrariesOk (w i).env (u.vars.map Prod.snd)
  space : ∀ i, SpaceOk (w i).env (u.vars.map Prod.snd)

/-- The point satisfies the constraints, or it is the rounded version of a point of the space that does (C145). -/
def FeasibleOrRounded (ks : List Kind) (h g : Option (Row → List ℝ)) (x : Row) : Prop :=
  SatisfiesUpTo (1 / 10) h g x ∨ ∃ y, SatisfiesUpTo (1 / 100) h g y ∧ PointOf ks y ∧ x = roundedPoint ks y

private structure RunInv (cfg : Cfg ℝ) (u : RunSetup) (w : ℕ → StepWorld G) (i : ℕ) (s : OptState Row ℝ)
    (log : List (ℕ × Row × Obs ℝ)) : Prop where
  recorded : pairs s = finitePart (log.map Prod.snd)
  count : s.evalCount = log.length
  steps : ∀ e ∈ log, e.1 < i
  points : ∀ e ∈ log, PointOf (u.vars.map Prod.snd) e.2.1 ∧ e.2.2 = (w e.1).objective e.2.1 ∧
    FeasibleOrRounded (u.vars.map Prod.snd) (w e.1).env.h (w e.1).env.g e.2.1
  differ : ∀ a ∈ log, ∀ b ∈ log, ∀ v, b.1 < a.1 → b.2.2 = .fin v → Differs (u.vars.map Prod.snd) a.2.1 b.2.1
  budget : ∀ m, cfg.maxFEs = some m → (log.length : ℤ) ≤ max 0 (m - 1) + max u.nPoint u.doeSize
  exact : ∀ m, cfg.maxFEs = some m → 0 ≤ m → u.nPoint = 1 → u.doeSize ≤ m → (log.length : ℤ) ≤ m

private theorem pointOf_of_honours {vars : Vars} {x : Row} (h : Honours vars [] x) : PointOf (vars.map Prod.snd) x := by
  refine ⟨by simpa using h.1, ?_⟩
  intro j k v hj hv
  rw [List.getElem?_map, Option.map_eq_some_iff] at hj
  obtain ⟨⟨name, k'⟩, hj, rfl⟩ := hj
  exact (h.2 j name k' v hj hv).2 rfl

private theorem freeVars_nil (vars : Vars) : freeVars vars [] = vars := by simp [freeVars]

private theorem mem_finitePart {P K : Type*} {l : List (P × Obs K)} {x : P} {v : K} (h : (x, Obs.fin v) ∈ l) : (x, v) ∈ finitePart l := by
  induction l with
  | nil => simp at h
  | cons a l ih =>
    obtain ⟨y, o⟩ := a
    rcases List.mem_cons.mp h with h1 | h1
    · cases h1; simp [finitePart]
    · have := ih h1
      cases o <;> simp [finitePart, this]

private theorem of_mem_finitePart {P K : Type*} {l : List (P × Obs K)} {x : P} {v : K} (h : (x, v) ∈ finitePart l) : (x, Obs.fin v) ∈ l := by
  induction l with
  | nil => simp [finitePart] at h
  | cons a l ih =>
    obtain ⟨y, o⟩ := a
    cases o with
    | fin c =>
      simp only [finitePart, List.mem_cons] at h
      rcases h with h | h
      · cases h; simp
      · simp [ih h]
    | _ => simp only [finitePart] at h; simp [ih h]

private theorem finitePart_append {P K : Type*} (l l' : List (P × Obs K)) : finitePart (l ++ l') = finitePart l ++ finitePart l' := by
  induction l with
  | nil => rfl
  | cons a l ih =>
    obtain ⟨y, o⟩ := a
    cases o <;> simp [finitePart, ih]

private theorem step_inv (cfg : Cfg ℝ) (u : RunSetup) (w : ℕ → StepWorld G) (hok : RunOk u w) (i : ℕ) (s : OptState Row ℝ)
    (log : List (ℕ × Row × Obs ℝ)) (hinv : RunInv cfg u w i s log) (hfresh : s.data = none → log = [])
    (hbud : ∀ m, cfg.maxFEs = some m → (log.length : ℤ) < m) (X : List Row)
    (hask : askFull (w i).env (askStateOf u s) none none = .ok X) :
    RunInv cfg u w (i + 1) (tell cfg s { X := X, vals := X.map (w i).objective, oracle := (w i).oracle }).1
      (log ++ X.map (fun x => (i, x, (w i).objective x))) := by
  have hreq : requested (askStateOf u s) none = if s.data.isSome then u.nPoint else u.doeSize := rfl
  have hreq1 : 1 ≤ requested (askStateOf u s) none := by
    rw [hreq]; split
    · exact hok.point
    · exact hok.design
  have hl : LibrariesOk (w i).env ((freeVars (askStateOf u s).vars ((none : Option (List (String × Val))).getD [])).map Prod.snd) := by
    show LibrariesOk (w i).env ((freeVars u.vars []).map Prod.snd)
    rw [freeVars_nil]; exact hok.libraries i
  have hs : SpaceOk (w i).env ((freeVars (askStateOf u s).vars ((none : Option (List (String × Val))).getD [])).map Prod.snd) := by
    show SpaceOk (w i).env ((freeVars u.vars []).map Prod.snd)
    rw [freeVars_nil]; exact hok.space i
  obtain ⟨hX1, hX2, hX3⟩ := c144_ask_in_space_partial (w i).env (askStateOf u s) none none X hreq1 hok.bounds
    (by intro name v c _ hc; simp at hc) hl hs hask
  have hfe := c145_ask_feasible_partial (w i).env (askStateOf u s) none none X hreq1 hl hs hask
  have hdiff := c15_differs_from_recorded (askStateOf u s) none none _ _ X hask
  have hwf : WellFormed (P := Row) (K := ℝ) { X := X, vals := X.map (w i).objective, oracle := (w i).oracle } := by
    refine ⟨by intro h0; replace h0 : X = [] := h0; rw [h0] at hX1; simp at hX1, by simp, by intro l hl; cases hl⟩
  obtain ⟨t1, -, -, -, -, -, t7, -⟩ := tell_spec cfg s { X := X, vals := X.map (w i).objective, oracle := (w i).oracle }
  have hzip : X.zip (X.map (w i).objective) = X.map (fun x => (x, (w i).objective x)) := by
    rw [List.zip_map_right]
    clear * -
    induction X with
    | nil => rfl
    | cons a X ih => simp_all
  refine ⟨?_, ?_, ?_, ?_, ?_, ?_, ?_⟩
  · rw [t1, told_tell, if_pos hwf, hinv.recorded, hzip, List.map_append, finitePart_append, List.map_map]
    rfl
  · rw [t7 hwf, hinv.count]
    simp
  · intro e he
    rcases List.mem_append.mp he with he | he
    · exact (hinv.steps e he).trans (Nat.lt_succ_self i)
    · obtain ⟨x, _, rfl⟩ := List.mem_map.mp he
      exact Nat.lt_succ_self i
  · intro e he
    rcases List.mem_append.mp he with he | he
    · exact hinv.points e he
    · obtain ⟨x, hx, rfl⟩ := List.mem_map.mp he
      refine ⟨pointOf_of_honours (hX3 x hx), rfl, ?_⟩
      rcases hfe x hx with ⟨-, h1⟩ | ⟨y, h1, h2, h3⟩
      · exact Or.inl h1
      · exact Or.inr ⟨y, h1, pointOf_of_honours h2, h3⟩
  · intro a ha b hb v hlt hv
    rcases List.mem_append.mp ha with ha | ha
    · rcases List.mem_append.mp hb with hb | hb
      · exact hinv.differ a ha b hb v hlt hv
      · obtain ⟨x, hx, rfl⟩ := List.mem_map.mp hb
        have := hinv.steps a ha
        simp only at hlt
        omega
    · obtain ⟨x, hx, rfl⟩ := List.mem_map.mp ha
      rcases List.mem_append.mp hb with hb | hb
      · refine hdiff x hx b.2.1 ?_
        have hm : (b.2.1, v) ∈ pairs s := by
          rw [hinv.recorded]
          apply mem_finitePart
          rw [← hv]
          exact List.mem_map.mpr ⟨b, hb, rfl⟩
        unfold pairs at hm
        obtain ⟨r, hr, hrx⟩ := List.mem_map.mp hm
        simp only [Prod.mk.injEq] at hrx
        exact List.mem_map.mpr ⟨r, hr, hrx.1⟩
      · obtain ⟨y, hy, rfl⟩ := List.mem_map.mp hb
        simp at hlt
  · intro m hm
    have := hbud m hm
    rw [hreq] at hX2
    rw [List.length_append, List.length_map]
    push_cast
    have : (X.length : ℤ) ≤ max u.nPoint u.doeSize := by
      split at hX2
      · exact hX2.trans (le_max_left _ _)
      · exact hX2.trans (le_max_right _ _)
    have := le_max_right 0 (m - 1)
    omega
  · intro m hm h0 h1 h2
    have hb := hbud m hm
    rw [hreq] at hX2
    rw [List.length_append, List.length_map]
    push_cast
    split at hX2
    · omega
    · rename_i hd
      rw [Option.not_isSome_iff_eq_none] at hd
      rw [hfresh hd] at hb ⊢
      simp at hb ⊢
      omega

theorem checkStop_false {cfg : Cfg ℝ} {s s1 : OptState Row ℝ} (h : checkStop cfg s = (s1, .ok false)) :
    s1.stopMaxFEs = none ∧ s1.stopFtarget = none ∧ ∀ m, cfg.maxFEs = some m → (s.evalCount : ℤ) < m := by
  have hb : (checkBudget cfg s).stopMaxFEs = none → ∀ m, cfg.maxFEs = some m → (s.evalCount : ℤ) < m := by
    intro h0 m hm
    unfold checkBudget at h0
    rw [hm] at h0
    simp only at h0
    split_ifs at h0 with hc
    · omega
  have hflag : ∀ s2 : OptState Row ℝ, stopFlag s2 = false → s2.stopMaxFEs = none ∧ s2.stopFtarget = none := by
    intro s2 h2
    unfold stopFlag at h2
    rw [Bool.or_eq_false_iff, Option.isSome_eq_false_iff, Option.isSome_eq_false_iff, Option.isNone_iff_eq_none,
      Option.isNone_iff_eq_none] at h2
    exact h2
  unfold checkStop at h
  simp only at h
  split at h
  · simp only [Prod.mk.injEq, Except.ok.injEq] at h
    obtain ⟨rfl, h2⟩ := h
    exact ⟨(hflag _ h2).1, (hflag _ h2).2, hb (hflag _ h2).1⟩
  · split at h
    · simp at h
    · simp only [Prod.mk.injEq, Except.ok.injEq] at h
      obtain ⟨rfl, h2⟩ := h
      exact ⟨(hflag _ h2).1, (hflag _ h2).2, hb (hflag _ h2).1⟩
    · simp only [Prod.mk.injEq, Except.ok.injEq] at h
      obtain ⟨rfl, h2⟩ := h
      refine ⟨(hflag _ h2).1, (hflag _ h2).2, hb ?_⟩
      have := (hflag _ h2).1
      split_ifs at this <;> exact this

theorem checkStop_true {cfg : Cfg ℝ} {s s1 : OptState Row ℝ} (h : checkStop cfg s = (s1, .ok true)) (h0 : s.stopMaxFEs = none)
    (h1 : s.stopFtarget = none) (ht : cfg.ftarget = none) (m : ℤ) (hm : cfg.maxFEs = some m) : m ≤ s.evalCount := by
  unfold checkStop at h
  rw [ht] at h
  simp only [Prod.mk.injEq, Except.ok.injEq] at h
  obtain ⟨rfl, h2⟩ := h
  by_contra hc
  have : checkBudget cfg s = s := by
    unfold checkBudget
    rw [hm]
    simp only
    rw [if_neg (by omega)]
  rw [this] at h2
  simp [stopFlag, h0, h1] at h2

private theorem inv_congr {cfg : Cfg ℝ} {u : RunSetup} {w : ℕ → StepWorld G} {i : ℕ} {s s' : OptState Row ℝ}
    {log : List (ℕ × Row × Obs ℝ)} (h : RunInv cfg u w i s log) (h1 : s'.data = s.data) (h2 : s'.evalCount = s.evalCount) :
    RunInv cfg u w i s' log := by
  obtain ⟨a, b, c, d, e, f, g⟩ := h
  exact ⟨by rw [← a]; unfold pairs; rw [h1], by rw [h2, b], c, d, e, f, g⟩

private theorem run_inv_aux (cfg : Cfg ℝ) (u : RunSetup) (w : ℕ → StepWorld G) (hok : RunOk u w) : ∀ (fuel i : ℕ) (s : OptState Row ℝ)
    (log : List (ℕ × Row × Obs ℝ)), RunInv cfg u w i s log → (s.data = none → log = []) → s.stopMaxFEs = none → s.stopFtarget = none →
    let out := fullRun cfg u w fuel i s log
    (∃ j, RunInv cfg u w j out.opt out.log) ∧ (∀ r, out.ending = .stopped r → xopt cfg out.opt = .ok (some r) ∧
      ∀ m, cfg.maxFEs = some m → cfg.ftarget = none → m ≤ (out.log.length : ℤ)) ∧
    (∀ m, cfg.maxFEs = some m → 1 ≤ fuel → m < (log.length + fuel : ℕ) → out.ending ≠ .running) := by
  intro fuel
  induction fuel with
  | zero =>
    intro i s log hinv hf _ _
    exact ⟨⟨i, hinv⟩, (by intro r hr; cases hr), by intro m hm h1; omega⟩
  | succ fuel ih =>
    intro i s log hinv hf h0 h0'
    obtain ⟨f1, f2, -, -, -⟩ := checkStop_frame cfg s
    cases hcs : checkStop cfg s with
    | mk s1 res =>
      rw [hcs] at f1 f2
      simp only at f1 f2
      have hinv1 := inv_congr hinv f1 f2
      cases res with
      | error e =>
        simp only [fullRun, hcs]
        exact ⟨⟨i, hinv1⟩, (by intro r hr; cases hr), by intro _ _ _ _ h; cases h⟩
      | ok b =>
        cases b with
        | true =>
          simp only [fullRun, hcs]
          cases hx : xopt cfg s1 with
          | error e => exact ⟨⟨i, hinv1⟩, (by intro r hr; cases hr), by intro _ _ _ _ h; cases h⟩
          | ok o =>
            cases o with
            | none => exact ⟨⟨i, hinv1⟩, (by intro r hr; cases hr), by intro _ _ _ _ h; cases h⟩
            | some r =>
              refine ⟨⟨i, hinv1⟩, ?_, by intro _ _ _ _ h; cases h⟩
              intro r' hr
              cases hr
              refine ⟨hx, fun m hm ht => ?_⟩
              have := checkStop_true hcs h0 h0' ht m hm
              rw [hinv.count] at this
              exact this
        | false =>
          obtain ⟨g1, g2, g3⟩ := checkStop_false hcs
          simp only [fullRun, hcs]
          cases ha : askFull (w i).env (askStateOf u s1) none none with
          | error e => exact ⟨⟨i, hinv1⟩, (by intro r hr; cases hr), by intro _ _ _ _ h; cases h⟩
          | ok X =>
            have hstep := step_inv cfg u w hok i s1 log hinv1 (by rw [f1]; exact hf)
              (by intro m hm; have := g3 m hm; rw [hinv.count] at this; exact this) X ha
            obtain ⟨-, t2, t3, t4, -⟩ := tell_spec cfg s1 { X := X, vals := X.map (w i).objective, oracle := (w i).oracle }
            cases ht : tell cfg s1 { X := X, vals := X.map (w i).objective, oracle := (w i).oracle } with
            | mk s2 res2 =>
              rw [ht] at hstep t2 t3 t4
              simp only [ht] at hstep t2 t3 t4 ⊢
              cases res2 with
              | error e => exact ⟨⟨i + 1, hstep⟩, (by intro r hr; cases hr), by intro _ _ _ _ h; cases h⟩
              | ok _ =>
                obtain ⟨hwf, hd, -⟩ := t4 rfl
                obtain ⟨k1, k2, k3⟩ := ih (i + 1) s2 _ hstep (fun h => absurd h hd) (by rw [t2, g1]) (by rw [t3, g2])
                refine ⟨k1, k2, ?_⟩
                intro m hm _ hlt
                have hX : 1 ≤ X.length := by
                  rcases Nat.eq_zero_or_pos X.length with h | h
                  · exact absurd (List.length_eq_zero_iff.mp h) hwf.1
                  · exact h
                have hg := g3 m hm
                rw [hinv.count] at hg
                refine k3 m hm ?_ ?_
                · push_cast at hlt
                  omega
                · rw [List.length_append, List.length_map]
                  push_cast at hlt ⊢
                  omega

private theorem run_inv' (cfg : Cfg ℝ) (u : RunSetup) (w : ℕ → StepWorld G) (hok : RunOk u w) (fuel : ℕ) :
    let out := fullRun cfg u w fuel 0 {} []
    (∃ j, RunInv cfg u w j out.opt out.log) ∧ (∀ r, out.ending = .stopped r → xopt cfg out.opt = .ok (some r) ∧
      ∀ m, cfg.maxFEs = some m → cfg.ftarget = none → m ≤ (out.log.length : ℤ)) ∧
    (∀ m, cfg.maxFEs = some m → 1 ≤ fuel → m < fuel → out.ending ≠ .running) := by
  have h0 : RunInv cfg u w 0 {} [] := by
    refine ⟨rfl, rfl, by simp, by simp, by simp, ?_, fun m hm h0 _ _ => by simpa using h0⟩
    intro m hm
    have := le_max_left 0 (m - 1)
    have := le_max_left u.nPoint u.doeSize
    have := hok.point
    simp only [List.length_nil, Nat.cast_zero]
    omega
  simpa using run_inv_aux cfg u w hok fuel 0 {} [] h0 (fun _ => rfl) rfl rfl

/-- C146, partial (as C144 and C145): in every run, however it ends and at every moment, each point handed to the objective lies in the search space and
satisfies the constraints as in C145, and it differs from every point of an earlier step whose value was finite. -/
theorem c146_run_points_partial (cfg : Cfg ℝ) (u : RunSetup) (w : ℕ → StepWorld G) (hok : RunOk u w) (fuel : ℕ) :
    let log := (fullRun cfg u w fuel 0 {} []).log
    (∀ i x v, (i, x, v) ∈ log → PointOf (u.vars.map Prod.snd) x ∧ v = (w i).objective x ∧
      FeasibleOrRounded (u.vars.map Prod.snd) (w i).env.h (w i).env.g x) ∧
    (∀ i x v j y c, (i, x, v) ∈ log → (j, y, Obs.fin c) ∈ log → j < i → Differs (u.vars.map Prod.snd) x y) := by
  obtain ⟨⟨j, hinv⟩, -, -⟩ := run_inv' cfg u w hok fuel
  exact ⟨fun i x v h => hinv.points _ h, fun i x v j y c h1 h2 hlt => hinv.differ _ h1 _ h2 c hlt rfl⟩

/-- C146: the counter is the number of calls of the objective.  A run with budget `m` makes at most `max 0 (m - 1)` calls plus one batch; exactly `m` at most, if
points are proposed one at a time and the design fits in the budget; it ends, and without a target it ends normally only after `m` calls. -/
theorem c146_run_budget (cfg : Cfg ℝ) (u : RunSetup) (w : ℕ → StepWorld G) (hok : RunOk u w) (fuel : ℕ) (m : ℤ)
    (hm : cfg.maxFEs = some m) :
    let out := fullRun cfg u w fuel 0 {} []
    out.opt.evalCount = out.log.length ∧
    (out.log.length : ℤ) ≤ max 0 (m - 1) + max u.nPoint u.doeSize ∧
    (0 ≤ m → u.nPoint = 1 → u.doeSize ≤ m → (out.log.length : ℤ) ≤ m) ∧
    (1 ≤ fuel → m < fuel → out.ending ≠ .running) ∧
    (∀ r, out.ending = .stopped r → cfg.ftarget = none → m ≤ out.log.length) := by
  obtain ⟨⟨j, hinv⟩, h2, h3⟩ := run_inv' cfg u w hok fuel
  exact ⟨hinv.count, hinv.budget m hm, hinv.exact m hm, h3 m hm, fun r hr ht => (h2 r hr).2 m hm ht⟩

/-- C146: the solution returned is a point at which the objective was called, with its value, and no finite value seen is better. -/
theorem c146_run_best (cfg : Cfg ℝ) (u : RunSetup) (w : ℕ → StepWorld G) (hok : RunOk u w) (fuel : ℕ) (r : Rec Row ℝ)
    (hr : (fullRun cfg u w fuel 0 {} []).ending = .stopped r) :
    let log := (fullRun cfg u w fuel 0 {} []).log
    (∃ i, (i, r.x, Obs.fin r.f) ∈ log ∧ (w i).objective r.x = .fin r.f) ∧
    (∀ i x v, (i, x, Obs.fin v) ∈ log → ¬ Better cfg.minimize v r.f) := by
  obtain ⟨⟨j, hinv⟩, h2, -⟩ := run_inv' cfg u w hok fuel
  have hx := (h2 r hr).1
  generalize fullRun cfg u w fuel 0 {} [] = out at hinv hx ⊢
  unfold xopt at hx
  cases hd : out.opt.data with
  | none => rw [hd] at hx; cases hx
  | some d =>
    rw [hd] at hx
    simp only at hx
    cases hi : incumbent cfg.minimize d with
    | none => rw [hi] at hx; cases hx
    | some r' =>
      rw [hi] at hx
      simp only [Except.ok.injEq, Option.some.injEq] at hx
      subst hx
      obtain ⟨hb, k, hk, -⟩ := incumbent_spec hi
      have hpairs : d.map (fun r => (r.x, r.f)) = finitePart (out.log.map Prod.snd) := by
        rw [← hinv.recorded]; unfold pairs; rw [hd]; rfl
      constructor
      · have hm : (r'.x, r'.f) ∈ finitePart (out.log.map Prod.snd) := by
          rw [← hpairs]
          exact List.mem_map.mpr ⟨r', List.mem_of_getElem? hk, rfl⟩
        obtain ⟨⟨i, x, v⟩, he, hex⟩ := List.mem_map.mp (of_mem_finitePart hm)
        simp only [Prod.mk.injEq] at hex
        obtain ⟨rfl, rfl⟩ := hex
        exact ⟨i, he, ((hinv.points _ he).2.1).symm⟩
      · intro i x v he hbet
        have hm : (x, v) ∈ finitePart (out.log.map Prod.snd) := mem_finitePart (List.mem_map.mpr ⟨(i, x, Obs.fin v), he, rfl⟩)
        rw [← hpairs] at hm
        obtain ⟨q, hq, hqx⟩ := List.mem_map.mp hm
        simp only [Prod.mk.injEq] at hqx
        have := hb.2 q.f (List.mem_map.mpr ⟨q, hq, rfl⟩)
        rw [hqx.2] at this
        unfold Better at hbet
        cases hmin : cfg.minimize <;> simp [hmin] at this hbet <;> linarith

/-! ### A concrete run -/

/-- A variable in [0, 1]. -/
noncomputable def unitVar : RealVar := { lo := 0, hi := 1 }

/-- The objective of the example. -/
noncomputable def demoObjective : Row → Obs ℝ
  | [.real a] => .fin (1 - a)
  | _ => .nan

/-- One variable in [0, 1]; the sampler draws 0 and the acquisition search, by L-BFGS-B, finds 1/2. -/
noncomputable def demoWorld (f : Row → Obs ℝ) : ℕ → StepWorld Unit := fun _ =>
  { env := { zeroEnv .bfgs none none [1 / 2] with nRestart := 1 }, objective := f }

/-- The optimiser of the example: one variable, one point at a time. -/
noncomputable def demoSetup : RunSetup := { vars := [("a", .real unitVar)], parallel := false, nPoint := 1, doeSize := 1 }

private noncomputable def demoCfg : Cfg ℝ := { minimize := true, maxFEs := some 2, ftarget := none }

theorem demo_ok (f : Row → Obs ℝ) : RunOk demoSetup (demoWorld f) where
  point := le_rfl
  design := le_rfl
  bounds := by
    intro name v h
    simp [demoSetup] at h
    rw [h.2]
    simp [unitVar]
  libraries := fun i => by
    have h := zeroEnv_libraries .bfgs none none [1 / 2] (demoSetup.vars.map Prod.snd) (by
      refine ⟨rfl, ?_⟩
      intro j v a hj ha
      cases j with
      | succ j => simp [demoSetup] at hj
      | zero =>
        simp [demoSetup] at hj ha
        subst hj
        subst ha
        norm_num [unitVar])
    exact ⟨h.rng, h.argsort, h.sortPop, h.bfgs, h.start, h.steps, h.parents, h.pick⟩
  space := fun i => by
    have hk : ∀ P : Kind → Prop, P (.real unitVar) → ∀ k ∈ demoSetup.vars.map Prod.snd, P k := by
      intro P hP k hk
      rw [List.mem_singleton.mp hk]
      exact hP
    refine ⟨by simp [demoSetup], hk _ ?_, hk _ ?_, fun _ => hk _ ⟨_, rfl⟩, fun h => by simp [demoWorld, zeroEnv] at h⟩
    · simp [Proper, unitVar, scaleDomain]
    · simp [Regular, unitVar]

theorem demo_first (f : Row → Obs ℝ) : askFull (demoWorld f 0).env (askStateOf demoSetup {}) none none = .ok [[.real 0]] := by
  have hsamp : unitVar.sample 0 = some 0 := by
    simp [RealVar.sample, unitVar, affine, scaleTrans, RealVar.toLinear, scaleInv, RealVar.round]
  have hdes : ∀ k, designSample (demoWorld f 0).env demoSetup.vars [] k 1 = [[.real 0]] := by
    intro k
    have hfk : freeKinds demoSetup.vars [] = [.real unitVar] := by simp [freeKinds, demoSetup]
    unfold designSample
    simp only [hfk]
    rw [if_neg (by simp [demoWorld, zeroEnv])]
    simp [sampleFree, sampledRows, sampleRaw, pureType, sampleGroup, realCols, toRows, Kind.vtype, Kind.ofUniform, demoWorld, zeroEnv, hsamp,
      List.range_succ, List.zipIdx]
  have hdoe : createDoE demoSetup.vars none [] (designSample (demoWorld f 0).env demoSetup.vars []) 1 = some [[.real 0]] := by
    simp only [createDoE, Option.getD_none]
    unfold doeLoop
    rw [if_neg one_ne_zero, hdes]
    have hfill : fillin (demoSetup.vars.map Prod.fst) (some []) [[Val.real 0]] = some [[.real 0]] := by
      simp [fillin, fillRow, List.lookup, demoSetup]
    rw [hfill, Option.bind_some]
    have hround : [[Val.real 0]].map (roundRow (demoSetup.vars.map Prod.snd)) = [[.real 0]] := by
      simp [roundRow, roundVal, demoSetup, RealVar.round, unitVar]
    simp only [List.isEmpty_cons, Bool.false_eq_true, if_false, hround, preEvalCheck_singleton, List.nil_append]
    unfold doeLoop
    simp
  unfold askFull ask askPoints
  have hf : (askStateOf demoSetup {}).fitted = false := rfl
  have hd : (none : Option ℤ).getD (askStateOf demoSetup {}).doeSize = 1 := rfl
  have hv : (askStateOf demoSetup {}).vars = demoSetup.vars := rfl
  have hda : (askStateOf demoSetup {}).data = [] := rfl
  rw [hf, hd, hv, hda]
  simp only [Option.getD_none, Bool.false_eq_true, if_false]
  rw [hdoe]
  rfl

private theorem demo_second (f : Row → Obs ℝ) (k : ℕ) (s : OptState Row ℝ) (r : Rec Row ℝ) (hs : s.data = some [r]) (hr : r.x = [.real 0]) :
    askFull (demoWorld f k).env (askStateOf demoSetup s) none none = .ok [[.real (1 / 2)]] := by
  have hbest : acquisitionBest (demoWorld f k).env demoSetup.vars [] 0 = [.real (1 / 2)] := by
    simp [acquisitionBest, argmaxRestart, restartRun, restartLoop, restartStep, restartFeasible, innerRun, demoWorld, zeroEnv, nanSort,
      List.range_succ, List.insertionSort]
  have hf : (askStateOf demoSetup s).fitted = true := by simp [askStateOf, hs]
  have hv : (askStateOf demoSetup s).vars = demoSetup.vars := rfl
  have hda : (askStateOf demoSetup s).data = [[.real 0]] := by simp [askStateOf, hs, hr]
  have harg : argMaxAcquisition (askStateOf demoSetup s) 1 none (acquisitionBest (demoWorld f k).env demoSetup.vars []) =
      .ok [[.real (1 / 2)]] := by
    simp [argMaxAcquisition, hbest, fillin, Except.bind]
  have hpre : preEvalCheck (demoSetup.vars.map Prod.snd) [[.real 0]] [[.real (1 / 2)]] = [[.real (1 / 2)]] := by
    have hnm : ¬ matchesRow (demoSetup.vars.map Prod.snd) [.real 0] [.real (1 / 2)] := by
      intro h
      have h0 : isClose 0 (1 / 2) := h.1 0 (by simp [typeIds, demoSetup, Kind.vtype])
      unfold isClose at h0
      norm_num [abs_of_pos] at h0
    unfold preEvalCheck
    rw [List.filter_eq_self.mpr]
    · simp
    · intro i hi
      have hi0 : i = 0 := by simpa using hi
      subst hi0
      rw [Bool.not_eq_true', List.any_eq_false]
      intro j hj hdec
      simp only [decide_eq_true_eq] at hdec
      obtain ⟨hne, hm⟩ := hdec
      have hj1 : j = 1 := by simp at hj; omega
      subst hj1
      exact hnm hm
  unfold askFull ask askPoints
  have hn : (none : Option ℤ).getD (askStateOf demoSetup s).nPoint = 1 := rfl
  rw [hf, hn, hv, hda]
  simp only [Option.getD_none, if_true]
  rw [harg]
  simp only [Except.bind, hpre]
  simp

/-- The run evaluates 0 and 1/2 and returns 1/2: the hypotheses of C146 hold and the run ends normally. -/
theorem c146_concrete_run : RunOk demoSetup (demoWorld demoObjective) ∧ ∃ r, (fullRun demoCfg demoSetup (demoWorld demoObjective) 3 0 {} []).ending = .stopped r ∧
    r.x = [.real (1 / 2)] ∧ (fullRun demoCfg demoSetup (demoWorld demoObjective) 3 0 {} []).log.length = 2 := by
  refine ⟨demo_ok _, ?_⟩
  have h0 : checkStop demoCfg ({} : OptState Row ℝ) = ({}, .ok false) := by
    simp [checkStop, demoCfg, checkBudget, stopFlag]
  let r0 : Rec Row ℝ := { x := [.real 0], f := 1, nEval := 2, index := toString 0 }
  let s1 : OptState Row ℝ := { evalCount := 1, iterCount := 1, data := some [r0], histF := [1] }
  have t0 : tell demoCfg ({} : OptState Row ℝ) { X := [[.real 0]], vals := [[Val.real 0]].map (demoWorld demoObjective 0).objective, oracle := (demoWorld demoObjective 0).oracle } =
      (s1, .ok ()) := by
    simp [tell, observe, tellRest, postEvalCheck, demoWorld, demoObjective, demoCfg, labels, defaultIndex, isFlat, incumbent, getBest, s1, r0]
  have h1 : checkStop demoCfg s1 = (s1, .ok false) := by
    simp [checkStop, demoCfg, checkBudget, stopFlag, s1]
  let r1 : Rec Row ℝ := { x := [.real (1 / 2)], f := 1 / 2, nEval := 2, index := toString 0 }
  let s2 : OptState Row ℝ := { evalCount := 2, iterCount := 2, data := some [r0, r1], histF := [1, 1 / 2] }
  have t1 : tell demoCfg s1 { X := [[.real (1 / 2)]], vals := [[Val.real (1 / 2)]].map (demoWorld demoObjective 1).objective, oracle := (demoWorld demoObjective 1).oracle } =
      (s2, .ok ()) := by
    simp [tell, observe, tellRest, postEvalCheck, demoWorld, demoObjective, demoCfg, labels, defaultIndex, isFlat, incumbent, getBest, s1, s2, r0, r1]
    norm_num
  have h2 : checkStop demoCfg s2 = ({ s2 with stopMaxFEs := some 2 }, .ok true) := by
    simp [checkStop, demoCfg, checkBudget, stopFlag, s2]
  have hx : xopt demoCfg { s2 with stopMaxFEs := some 2 } = .ok (some r1) := by
    simp [xopt, incumbent, getBest, s2, r0, r1, demoCfg]
    norm_num
  have hrun : fullRun demoCfg demoSetup (demoWorld demoObjective) 3 0 {} [] = ⟨{ s2 with stopMaxFEs := some 2 },
      [(0, [.real 0], (demoWorld demoObjective 0).objective [.real 0]), (1, [.real (1 / 2)], (demoWorld demoObjective 1).objective [.real (1 / 2)])], .stopped r1⟩ := by
    simp only [fullRun, h0, demo_first, t0, h1, demo_second _ 1 s1 r0 rfl rfl, t1, h2, hx]
    simp
  rw [hrun]
  exact ⟨r1, rfl, rfl, rfl⟩

private noncomputable def failingObjective : Row → Obs ℝ
  | [.real a] => if a = 0 then .fin 1 else .nan
  | _ => .nan

/-- C146 refuted: a point whose evaluation failed is not remembered and is evaluated again in the next step. -/
theorem c146_failed_point_again : ∃ (u : RunSetup) (w : ℕ → StepWorld Unit) (cfg : Cfg ℝ) (x : Row), RunOk u w ∧
    (1, x, Obs.nan) ∈ (fullRun cfg u w 4 0 {} []).log ∧ (2, x, Obs.nan) ∈ (fullRun cfg u w 4 0 {} []).log := by
  let w := demoWorld failingObjective
  let cfg : Cfg ℝ := { minimize := true, maxFEs := some 3, ftarget := none }
  let r0 : Rec Row ℝ := { x := [.real 0], f := 1, nEval := 2, index := toString 0 }
  let st : ℕ → OptState Row ℝ := fun k =>
    { evalCount := k + 1, iterCount := k + 1, data := some [r0], histF := List.replicate (k + 1) 1 }
  have h0 : checkStop cfg ({} : OptState Row ℝ) = ({}, .ok false) := by
    simp [checkStop, cfg, checkBudget, stopFlag]
  have t0 : tell cfg ({} : OptState Row ℝ) { X := [[.real 0]], vals := [[Val.real 0]].map (w 0).objective, oracle := (w 0).oracle } =
      (st 0, .ok ()) := by
    simp [tell, observe, tellRest, postEvalCheck, w, demoWorld, failingObjective, cfg, labels, defaultIndex, isFlat, incumbent, getBest, st, r0]
  have hk : ∀ k < 2, checkStop cfg (st k) = (st k, .ok false) := by
    intro k hk
    have : ¬ ((3 : ℤ) ≤ (k : ℤ) + 1) := by omega
    simp [checkStop, cfg, checkBudget, stopFlag, st, this]
  have tk : ∀ i k, tell cfg (st k) { X := [[.real (1 / 2)]], vals := [[Val.real (1 / 2)]].map (w i).objective, oracle := (w i).oracle } =
      (st (k + 1), .ok ()) := by
    intro i k
    have : failingObjective [.real (1 / 2)] = .nan := by simp [failingObjective]
    simp only [List.map_cons, List.map_nil]
    simp [tell, observe, tellRest, postEvalCheck, w, demoWorld, cfg, labels, defaultIndex, isFlat, incumbent, getBest, st, r0,
      failingObjective, List.replicate_succ']
  have h2 : checkStop cfg (st 2) = ({ st 2 with stopMaxFEs := some 3 }, .ok true) := by
    simp [checkStop, cfg, checkBudget, stopFlag, st]
  have hx : xopt cfg { st 2 with stopMaxFEs := some 3 } = .ok (some r0) := by
    simp [xopt, incumbent, getBest, st, r0, cfg]
  have hrun : (fullRun cfg demoSetup w 4 0 {} []).log = [(0, [.real 0], (w 0).objective [.real 0]),
      (1, [.real (1 / 2)], (w 1).objective [.real (1 / 2)]), (2, [.real (1 / 2)], (w 2).objective [.real (1 / 2)])] := by
    simp only [fullRun, h0, demo_first, t0, hk 0 (by norm_num), hk 1 (by norm_num), demo_second _ 1 (st 0) r0 rfl rfl,
      demo_second _ 2 (st 1) r0 rfl rfl, tk, h2, hx, w]
    simp
  have hv : ∀ i, (w i).objective [.real (1 / 2)] = .nan := fun i => by simp [w, demoWorld, failingObjective]
  refine ⟨demoSetup, w, cfg, [.real (1 / 2)], demo_ok _, ?_, ?_⟩ <;> rw [hrun, hv, hv] <;> simp

/-! ### C152 -/

/-- The number of a value among those the optimiser tells apart. -/
noncomputable def codeVal : Kind → Val → ℕ
  | .real v, .real a => ⌊(a - v.lo) * 10 ^ 8⌋₊
  | .integer v, .int z => (z - ⌈v.lo⌉).toNat
  | k, .lvl l => k.levels.idxOf l
  | _, _ => 0

theorem codeVal_lt {k : Kind} {v : Val} (h : k.contains v) : codeVal k v < distinctValues k := by
  have hl : ∀ (l : List Lvl) x, x ∈ l → l.idxOf x < l.length := fun l x hx => List.idxOf_lt_length_of_mem hx
  cases k <;> cases v <;> simp only [Kind.contains] at h
  case real.real r a =>
    show ⌊(a - r.lo) * 10 ^ 8⌋₊ < ⌊(r.hi - r.lo) * 10 ^ 8⌋₊ + 1
    have : a - r.lo ≤ r.hi - r.lo := by have := h.2; linarith
    exact Nat.lt_succ_of_le (Nat.floor_le_floor (mul_le_mul_of_nonneg_right this (by norm_num)))
  case integer.int r z =>
    show (z - ⌈r.lo⌉).toNat < (⌊r.hi⌋ - ⌈r.lo⌉ + 1).toNat
    have h1 : ⌈r.lo⌉ ≤ z := Int.ceil_le.2 h.1
    have h2 : z ≤ ⌊r.hi⌋ := Int.le_floor.2 h.2
    omega
  case ordinal.lvl l x => exact hl l x h
  case discrete.lvl l x => exact hl l x h
  case bool.lvl x => exact hl _ x h
  case subset.lvl b x => exact hl _ x h

theorem codeVal_inj {k : Kind} {v v' : Val} (h : k.contains v) (h' : k.contains v') (hc : codeVal k v = codeVal k v') :
    (k.vtype ≠ .real → v = v') ∧ (k.vtype = .real → ∀ a b, v = .real a → v' = .real b → |a - b| ≤ 1 / 10 ^ 8) := by
  have hl : ∀ (l : List Lvl) x y, x ∈ l → l.idxOf x = l.idxOf y → x = y := fun l x y hx he => (List.idxOf_inj hx).1 he
  cases k <;> cases v <;> simp only [Kind.contains] at h <;> cases v' <;> simp only [Kind.contains] at h'
  case real.real.real r a b =>
    refine ⟨fun h => absurd rfl h, fun _ a' b' ha hb => ?_⟩
    cases ha
    cases hb
    have hc : ⌊(a - r.lo) * 10 ^ 8⌋₊ = ⌊(b - r.lo) * 10 ^ 8⌋₊ := hc
    have pa : 0 ≤ (a - r.lo) * 10 ^ 8 := mul_nonneg (by have := h.1; linarith) (by norm_num)
    have pb : 0 ≤ (b - r.lo) * 10 ^ 8 := mul_nonneg (by have := h'.1; linarith) (by norm_num)
    have a1 := Nat.floor_le pa
    have a2 := Nat.lt_floor_add_one ((a - r.lo) * 10 ^ 8)
    have b1 := Nat.floor_le pb
    have b2 := Nat.lt_floor_add_one ((b - r.lo) * 10 ^ 8)
    rw [hc] at a1 a2
    rw [abs_le]
    constructor <;> linarith
  case integer.int.int r z z' =>
    refine ⟨fun _ => ?_, fun h => by cases h⟩
    have hc : (z - ⌈r.lo⌉).toNat = (z' - ⌈r.lo⌉).toNat := hc
    have h1 : ⌈r.lo⌉ ≤ z := Int.ceil_le.2 h.1
    have h2 : ⌈r.lo⌉ ≤ z' := Int.ceil_le.2 h'.1
    congr 1
    omega
  case ordinal.lvl.lvl l x y => exact ⟨fun _ => congrArg _ (hl l x y h hc), fun h => by cases h⟩
  case discrete.lvl.lvl l x y => exact ⟨fun _ => congrArg _ (hl l x y h hc), fun h => by cases h⟩
  case bool.lvl.lvl x y => exact ⟨fun _ => congrArg _ (hl _ x y h hc), fun h => by cases h⟩
  case subset.lvl.lvl b x y => exact ⟨fun _ => congrArg _ (hl _ x y h hc), fun h => by cases h⟩

/-- The numbers of the values of a point. -/
noncomputable def codeRow (ks : List Kind) (x : Row) (j : Fin ks.length) : ℕ := ((x[(j : ℕ)]?).map (codeVal ks[j])).getD 0

theorem codeRow_differs {ks : List Kind} {x y : Row} (hx : PointOf ks x) (hy : PointOf ks y) (hd : Differs ks x y) :
    codeRow ks x ≠ codeRow ks y := by
  intro he
  obtain ⟨j, k, hk, h1, h2⟩ := hd
  obtain ⟨hj, rfl⟩ := List.getElem?_eq_some_iff.1 hk
  have ex : x[j]? = some (x[j]'(by rw [hx.1]; exact hj)) := List.getElem?_eq_getElem _
  have ey : y[j]? = some (y[j]'(by rw [hy.1]; exact hj)) := List.getElem?_eq_getElem _
  generalize x[j]'(by rw [hx.1]; exact hj) = a at ex
  generalize y[j]'(by rw [hy.1]; exact hj) = b at ey
  have hc : codeVal ks[j] a = codeVal ks[j] b := by
    have := congrFun he ⟨j, hj⟩
    simp only [codeRow, ex, ey, Option.map_some, Option.getD_some] at this
    exact this
  obtain ⟨i1, i2⟩ := codeVal_inj (hx.2 j _ a hk ex) (hy.2 j _ b hk ey) hc
  by_cases ht : (ks[j]).vtype = .real
  · have hreal : ∀ v, (ks[j]).contains v → ∃ r, v = .real r := by
      intro v hv
      revert hv ht
      generalize ks[j] = k
      intro ht hv
      cases k <;> simp only [Kind.vtype, reduceCtorEq] at ht
      cases v <;> simp only [Kind.contains] at hv
      exact ⟨_, rfl⟩
    obtain ⟨ra, rfl⟩ := hreal a (hx.2 j _ a hk ex)
    obtain ⟨rb, rfl⟩ := hreal b (hy.2 j _ b hk ey)
    have h3 := h2 ht rb ra ey ex
    have h4 := i2 ht ra rb rfl rfl
    rw [abs_sub_comm] at h4
    have : 0 ≤ 1 / 10 ^ 5 * |ra| := by positivity
    linarith
  · apply h1 ht
    rw [ex, ey, i1 ht]

private theorem steps_le {ks : List Kind} {n : ℕ} (x : Fin n → Row) (hp : ∀ i, PointOf ks (x i)) (hd : ∀ i j, j < i → Differs ks (x i) (x j)) :
    n ≤ distinctPoints ks := by
  classical
  have hinj : Function.Injective (fun i => codeRow ks (x i)) := by
    intro i j he
    by_contra hne
    rcases lt_or_gt_of_ne hne with h | h
    · exact codeRow_differs (hp j) (hp i) (hd j i h) he.symm
    · exact codeRow_differs (hp i) (hp j) (hd i j h) he
  have hmem : ∀ i ∈ (Finset.univ : Finset (Fin n)),
      codeRow ks (x i) ∈ Fintype.piFinset (fun j : Fin ks.length => Finset.range (distinctValues ks[j])) := by
    intro i _
    rw [Fintype.mem_piFinset]
    intro j
    rw [Finset.mem_range]
    have e : (x i)[(j : ℕ)]? = some ((x i)[(j : ℕ)]'(by rw [(hp i).1]; exact j.2)) := List.getElem?_eq_getElem _
    unfold codeRow
    rw [e]
    exact codeVal_lt ((hp i).2 j _ _ (List.getElem?_eq_getElem j.2) e)
  have h := Finset.card_le_card_of_injOn _ hmem (hinj.injOn)
  rw [Finset.card_univ, Fintype.card_fin, Fintype.card_piFinset] at h
  refine h.trans (le_of_eq ?_)
  simp only [Finset.card_range]
  unfold distinctPoints
  rw [← List.prod_ofFn]
  congr 1
  exact List.ext_getElem (by simp) (by simp)

theorem run_steps (cfg : Cfg ℝ) (u : RunSetup) (w : ℕ → StepWorld G) (hok : RunOk u w) : ∀ (fuel i : ℕ) (s : OptState Row ℝ)
    (log : List (ℕ × Row × Obs ℝ)), (log.length : ℤ) ≤ i * max u.nPoint u.doeSize → (∀ j < i, ∃ x v, (j, x, v) ∈ log) →
    let out := fullRun cfg u w fuel i s log
    ∃ k : ℕ, (out.log.length : ℤ) ≤ k * max u.nPoint u.doeSize ∧ (∀ j < k, ∃ x v, (j, x, v) ∈ out.log) ∧ (out.ending = .running → k = i + fuel) := by
  intro fuel
  induction fuel with
  | zero => intro i s log h1 h2; exact ⟨i, h1, h2, fun _ => rfl⟩
  | succ fuel ih =>
    intro i s log h1 h2
    have leave : ∀ s1 e, e ≠ FullEnd.running → ∃ k : ℕ, ((⟨s1, log, e⟩ : FullOut).log.length : ℤ) ≤ k * max u.nPoint u.doeSize ∧
        (∀ j < k, ∃ x v, (j, x, v) ∈ (⟨s1, log, e⟩ : FullOut).log) ∧ ((⟨s1, log, e⟩ : FullOut).ending = .running → k = i + (fuel + 1)) :=
      fun s1 e he => ⟨i, h1, h2, fun h => absurd h he⟩
    cases hcs : checkStop cfg s with
    | mk s1 res =>
      cases res with
      | error e => simp only [fullRun, hcs]; exact leave s1 .raised (by simp)
      | ok b =>
        cases b with
        | true =>
          simp only [fullRun, hcs]
          cases hx : xopt cfg s1 with
          | error e => exact leave s1 .raised (by simp)
          | ok o =>
            cases o with
            | none => exact leave s1 .raised (by simp)
            | some r => exact leave s1 (.stopped r) (by simp)
        | false =>
          simp only [fullRun, hcs]
          cases ha : askFull (w i).env (askStateOf u s1) none none with
          | error e => exact leave s1 .raised (by simp)
          | ok X =>
            dsimp only
            have hreq : requested (askStateOf u s1) none = if s1.data.isSome then u.nPoint else u.doeSize := rfl
            obtain ⟨hX1, hX2, -⟩ := c144_ask_in_space_partial (w i).env (askStateOf u s1) none none X
              (by rw [hreq]; split; exacts [hok.point, hok.design]) hok.bounds (by intro name v c _ hc; simp at hc)
              (by show LibrariesOk (w i).env ((freeVars u.vars []).map Prod.snd); rw [freeVars_nil]; exact hok.libraries i)
              (by show SpaceOk (w i).env ((freeVars u.vars []).map Prod.snd); rw [freeVars_nil]; exact hok.space i) ha
            have hB : (X.length : ℤ) ≤ max u.nPoint u.doeSize := by
              rw [hreq] at hX2
              split at hX2
              · exact hX2.trans (le_max_left _ _)
              · exact hX2.trans (le_max_right _ _)
            have g1 : ((log ++ X.map (fun x => (i, x, (w i).objective x))).length : ℤ) ≤ (i + 1 : ℕ) * max u.nPoint u.doeSize := by
              rw [List.length_append, List.length_map]
              push_cast
              linarith [add_one_mul (i : ℤ) (max u.nPoint u.doeSize)]
            have g2 : ∀ j < i + 1, ∃ x v, (j, x, v) ∈ log ++ X.map (fun x => (i, x, (w i).objective x)) := by
              intro j hj
              rcases Nat.lt_succ_iff_lt_or_eq.1 hj with h | rfl
              · obtain ⟨x, v, h⟩ := h2 j h
                exact ⟨x, v, List.mem_append_left _ h⟩
              · obtain ⟨x, X', rfl⟩ := List.exists_cons_of_ne_nil (l := X) (by rintro rfl; simp at hX1)
                exact ⟨x, _, List.mem_append_right _ (List.mem_map.2 ⟨x, by simp, rfl⟩)⟩
            cases ht : tell cfg s1 { X := X, vals := X.map (w i).objective, oracle := (w i).oracle } with
            | mk s2 res2 =>
              cases res2 with
              | error e => exact ⟨i + 1, g1, g2, fun h => by cases h⟩
              | ok _ =>
                obtain ⟨k, k1, k2, k3⟩ := ih (i + 1) s2 _ g1 g2
                exact ⟨k, k1, k2, fun h => by rw [k3 h]; omega⟩

/-- **C152, partial** (for objectives with finite values): whatever the budget and the target, also without either, a run ends: it makes at most as many steps as
the space has points that the optimiser tells apart. -/
theorem c152_run_ends_partial (cfg : Cfg ℝ) (u : RunSetup) (w : ℕ → StepWorld G) (hok : RunOk u w)
    (hfin : ∀ i x, PointOf (u.vars.map Prod.snd) x → ∃ c, (w i).objective x = .fin c) (fuel : ℕ) :
    let out := fullRun cfg u w fuel 0 {} []
    (out.log.length : ℤ) ≤ distinctPoints (u.vars.map Prod.snd) * max u.nPoint u.doeSize ∧
    (distinctPoints (u.vars.map Prod.snd) < fuel → out.ending ≠ .running) := by
  intro out
  obtain ⟨k, h1, h2, h3⟩ := run_steps cfg u w hok fuel 0 {} [] (by simp) (by simp)
  obtain ⟨p1, p2⟩ := c146_run_points_partial cfg u w hok fuel
  choose x v hxv using h2
  have hk : k ≤ distinctPoints (u.vars.map Prod.snd) := by
    refine steps_le (fun i : Fin k => x i i.2) (fun i => (p1 _ _ _ (hxv i i.2)).1) ?_
    intro i j hlt
    obtain ⟨q1, q2, -⟩ := p1 _ _ _ (hxv j j.2)
    obtain ⟨c, hc⟩ := hfin j _ q1
    exact p2 i _ _ j _ c (hxv i i.2) (by rw [← hc, ← q2]; exact hxv j j.2) hlt
  have hB : 0 ≤ max u.nPoint u.doeSize := le_trans (by have := hok.point; omega) (le_max_left _ _)
  refine ⟨h1.trans (mul_le_mul_of_nonneg_right (by exact_mod_cast hk) hB), fun hlt hr => ?_⟩
  have := h3 hr
  omega

private theorem never_stopped (cfg : Cfg ℝ) (u : RunSetup) (w : ℕ → StepWorld G) (hm : cfg.maxFEs = none) (ht : cfg.ftarget = none) :
    ∀ (fuel i : ℕ) (s : OptState Row ℝ) (log : List (ℕ × Row × Obs ℝ)) (r : Rec Row ℝ), stopFlag s = false →
      (fullRun cfg u w fuel i s log).ending ≠ .stopped r := by
  intro fuel
  induction fuel with
  | zero => intro i s log r _ h; cases h
  | succ fuel ih =>
    intro i s log r hs
    have hcs : checkStop cfg s = (s, .ok false) := by
      simp only [checkStop, checkBudget, hm, ht, hs]
    simp only [fullRun, hcs]
    cases askFull (w i).env (askStateOf u s) none none with
    | error e => intro h; cases h
    | ok X =>
      dsimp only
      obtain ⟨-, t2, t3, -⟩ := tell_spec cfg s { X := X, vals := X.map (w i).objective, oracle := (w i).oracle }
      cases ht : tell cfg s { X := X, vals := X.map (w i).objective, oracle := (w i).oracle } with
      | mk s2 res2 =>
        rw [ht] at t2 t3
        cases res2 with
        | error e => intro h; cases h
        | ok _ => exact ih (i + 1) s2 _ r (by simp only [stopFlag] at hs ⊢; rw [t2, t3]; exact hs)

/-- **C152, refuted**: a run whose budget is larger than the space allows, without a target, never returns the best point; it is left by an exception.  The same holds
without a budget. -/
theorem c152_exhausted_raises (cfg : Cfg ℝ) (u : RunSetup) (w : ℕ → StepWorld G) (hok : RunOk u w)
    (hfin : ∀ i x, PointOf (u.vars.map Prod.snd) x → ∃ c, (w i).objective x = .fin c) (ht : cfg.ftarget = none)
    (hm : ∀ m, cfg.maxFEs = some m → distinctPoints (u.vars.map Prod.snd) * max u.nPoint u.doeSize < m) (fuel : ℕ)
    (hfuel : distinctPoints (u.vars.map Prod.snd) < fuel) : (fullRun cfg u w fuel 0 {} []).ending = .raised := by
  obtain ⟨h1, h2⟩ := c152_run_ends_partial cfg u w hok hfin fuel
  have h2 := h2 hfuel
  cases he : (fullRun cfg u w fuel 0 {} []).ending with
  | raised => rfl
  | running => exact absurd he h2
  | stopped r =>
    exfalso
    cases hmx : cfg.maxFEs with
    | some m =>
      have h3 := (c146_run_budget cfg u w hok fuel m hmx).2.2.2.2 r he ht
      have := hm m hmx
      omega
    | none => exact absurd he (never_stopped cfg u w hmx ht fuel 0 {} [] r rfl)

/-- **C152, refuted**: with an objective that fails from some point on and no budget, a run never ends: it evaluates the same point again and again. -/
theorem c152_never_ends_refuted : ∃ (u : RunSetup) (w : ℕ → StepWorld Unit) (cfg : Cfg ℝ) (x : Row), RunOk u w ∧
    ∀ fuel, (fullRun cfg u w fuel 0 {} []).ending = .running ∧ ∀ i, 0 < i → i < fuel → (i, x, Obs.nan) ∈ (fullRun cfg u w fuel 0 {} []).log := by
  let w := demoWorld failingObjective
  let cfg : Cfg ℝ := { minimize := true, maxFEs := none, ftarget := none }
  let r0 : Rec Row ℝ := { x := [.real 0], f := 1, nEval := 2, index := toString 0 }
  let st : ℕ → OptState Row ℝ := fun k =>
    { evalCount := k + 1, iterCount := k + 1, data := some [r0], histF := List.replicate (k + 1) 1 }
  have h0 : checkStop cfg ({} : OptState Row ℝ) = ({}, .ok false) := by
    simp [checkStop, cfg, checkBudget, stopFlag]
  have t0 : tell cfg ({} : OptState Row ℝ) { X := [[.real 0]], vals := [[Val.real 0]].map (w 0).objective, oracle := (w 0).oracle } =
      (st 0, .ok ()) := by
    simp [tell, observe, tellRest, postEvalCheck, w, demoWorld, failingObjective, cfg, labels, defaultIndex, isFlat, incumbent, getBest, st, r0]
  have hk : ∀ k, checkStop cfg (st k) = (st k, .ok false) := by
    intro k
    simp [checkStop, cfg, checkBudget, stopFlag, st]
  have hv : ∀ i, (w i).objective [.real (1 / 2)] = .nan := fun i => by simp [w, demoWorld, failingObjective]
  have tk : ∀ i k, tell cfg (st k) { X := [[.real (1 / 2)]], vals := [[Val.real (1 / 2)]].map (w i).objective, oracle := (w i).oracle } =
      (st (k + 1), .ok ()) := by
    intro i k
    simp only [List.map_cons, List.map_nil]
    simp [tell, observe, tellRest, postEvalCheck, w, demoWorld, cfg, labels, defaultIndex, isFlat, incumbent, getBest, st, r0,
      failingObjective, List.replicate_succ']
  have hrest : ∀ fuel i k log, (fullRun cfg demoSetup w fuel i (st k) log).ending = .running ∧
      (∀ e ∈ log, e ∈ (fullRun cfg demoSetup w fuel i (st k) log).log) ∧
      ∀ j, i ≤ j → j < i + fuel → (j, [Val.real (1 / 2)], Obs.nan) ∈ (fullRun cfg demoSetup w fuel i (st k) log).log := by
    intro fuel
    induction fuel with
    | zero => intro i k log; exact ⟨rfl, fun e he => he, fun j h1 h2 => by omega⟩
    | succ fuel ih =>
      intro i k log
      have hstep : fullRun cfg demoSetup w (fuel + 1) i (st k) log =
          fullRun cfg demoSetup w fuel (i + 1) (st (k + 1)) (log ++ [(i, [.real (1 / 2)], .nan)]) := by
        rw [← hv i]
        simp only [fullRun, hk k, demo_second failingObjective i (st k) r0 rfl rfl, tk, w]
        rfl
      rw [hstep]
      obtain ⟨i1, i2, i3⟩ := ih (i + 1) (k + 1) (log ++ [(i, [.real (1 / 2)], .nan)])
      refine ⟨i1, fun e he => i2 e (List.mem_append_left _ he), fun j h1 h2 => ?_⟩
      rcases Nat.lt_or_eq_of_le h1 with h | rfl
      · exact i3 j (by omega) (by omega)
      · exact i2 _ (by simp)
  refine ⟨demoSetup, w, cfg, [.real (1 / 2)], demo_ok _, fun fuel => ?_⟩
  cases fuel with
  | zero => exact ⟨rfl, fun i h1 h2 => by omega⟩
  | succ fuel =>
    have hstep : fullRun cfg demoSetup w (fuel + 1) 0 {} [] =
        fullRun cfg demoSetup w fuel 1 (st 0) [(0, [.real 0], (w 0).objective [.real 0])] := by
      simp only [fullRun, h0, demo_first, t0, w]
      rfl
    rw [hstep]
    obtain ⟨i1, -, i3⟩ := hrest fuel 1 0 [(0, [.real 0], (w 0).objective [.real 0])]
    exact ⟨i1, fun i h1 h2 => i3 i (by omega) (by omega)⟩

/-- The demo run without a budget meets the hypotheses: it is left by an exception after at most `10 ^ 8 + 1` steps. -/
example : distinctPoints (demoSetup.vars.map Prod.snd) = 10 ^ 8 + 1 ∧
    (fullRun { demoCfg with maxFEs := none } demoSetup (demoWorld demoObjective) (10 ^ 8 + 2) 0 {} []).ending = .raised := by
  have hd : distinctPoints (demoSetup.vars.map Prod.snd) = 10 ^ 8 + 1 := by
    have : ⌊((1 : ℝ) - 0) * 10 ^ 8⌋₊ = 10 ^ 8 := by
      rw [show ((1 : ℝ) - 0) * 10 ^ 8 = ((10 ^ 8 : ℕ) : ℝ) by norm_num, Nat.floor_natCast]
    simp only [distinctPoints, demoSetup, List.map_cons, List.map_nil, List.prod_cons, List.prod_nil, mul_one, distinctValues, unitVar]
    rw [this]
  refine ⟨hd, c152_exhausted_raises _ demoSetup (demoWorld demoObjective) (demo_ok _) ?_ rfl (by intro m h; cases h) _ (by rw [hd]; norm_num)⟩
  intro i x hx
  obtain ⟨a, rfl⟩ : ∃ a, x = [a] := List.length_eq_one_iff.1 hx.1
  have := hx.2 0 (.real unitVar) a rfl rfl
  cases a <;> simp only [Kind.contains] at this
  exact ⟨_, rfl⟩

end Verif.Props
