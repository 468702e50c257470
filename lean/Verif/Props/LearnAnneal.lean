import Verif.Model.LearnAnneal
import Verif.Spec.Annealing
import Verif.Props.LearnSteps
import Verif.Props.Annealing

/-! # C161: whole runs with annealing -/
namespace Verif.Props
open Verif.Model Verif.Spec Verif.Proofs

variable {G : Type*}

/-- The temperature of the `k`-th search: started at `t0`, changed by the annealer after every search; `iter_count` is then one more than the number of earlier searches. -/
private noncomputable def cooled (a : Anneal) (t0 : ℝ) : ℕ → ℝ
  | 0 => t0
  | k + 1 => annealStep a (k + 1) (cooled a t0 k)

/-- Temperatures as shifts of the numbers drawn. -/
private noncomputable def shifted (τ : ℕ → ℝ) (t0 : ℝ) (L : Learner G) : Learner G :=
  { L with normals := fun i => (L.normals i).map (fun z => z + 2 * Real.log (τ (i - 1) / t0)) }

private theorem batch_shift (cfg : Cfg ℝ) (ys : List ℝ) (mdl : AcqModel) (t t0 : ℝ) (ht : 0 < t) (h0 : 0 < t0) (zs : List ℝ) :
    batchCreate (optOf .MGFI { t := some t } cfg.minimize ys mdl) zs =
      batchCreate (optOf .MGFI { t := some t0 } cfg.minimize ys mdl) (zs.map (fun z => z + 2 * Real.log (t / t0))) := by
  unfold batchCreate
  rw [List.mapM_map]
  congr 1
  funext z
  have : Real.log t0 + 1 / 2 * (z + 2 * Real.log (t / t0)) = Real.log t + 1 / 2 * z := by
    rw [Real.log_div ht.ne' h0.ne']
    ring
  simp only [Function.comp, sampler, optOf, this]
  rfl

private theorem proposals_shift (cfg : Cfg ℝ) (u : RunSetup) (hp : 1 < u.nPoint) (τ : ℕ → ℝ) (t0 : ℝ) (h0 : 0 < t0) (L : Learner G) (i : ℕ) (s : OptState Row ℝ) (t : ℝ)
    (ht : s.data.isSome → t = τ (i - 1) ∧ 0 < t) :
    proposals cfg u (.MGFI, { t := some t }) L i s = proposals cfg u (.MGFI, { t := some t0 }) (shifted τ t0 L) i s := by
  unfold proposals
  cases hd : s.data with
  | none => rfl
  | some d =>
    obtain ⟨rfl, hpos⟩ := ht (by rw [hd]; rfl)
    have : criteriaOf cfg u (.MGFI, { t := some (τ (i - 1)) }) L i d = criteriaOf cfg u (.MGFI, { t := some t0 }) (shifted τ t0 L) i d := by
      unfold criteriaOf
      simp only [if_pos hp]
      rw [batch_shift cfg _ _ (τ (i - 1)) t0 hpos h0]
      rfl
    simp only [this]
    rfl

private theorem annealed_eq (cfg : Cfg ℝ) (u : RunSetup) (hp : 1 < u.nPoint) (a : Anneal) (t0 : ℝ) (h0 : 0 < t0) (L : Learner G) :
    ∀ (fuel i : ℕ) (s : OptState Row ℝ) (log : List (ℕ × Row × Obs ℝ)), s.iterCount = i → (s.data = none ↔ i = 0) →
      (∀ k, k + 1 < i + fuel → 0 < cooled a t0 k) →
      (annealedRun cfg u a L fuel i s (cooled a t0 (i - 1)) log).1 = learnRun cfg u (.MGFI, { t := some t0 }) (shifted (cooled a t0) t0 L) fuel i s log ∧
      ((annealedRun cfg u a L fuel i s (cooled a t0 (i - 1)) log).1.ending = .running →
        (annealedRun cfg u a L fuel i s (cooled a t0 (i - 1)) log).2 = cooled a t0 (i + fuel - 1)) := by
  intro fuel
  induction fuel with
  | zero => intro i s log _ _ _; exact ⟨rfl, fun _ => rfl⟩
  | succ fuel ih =>
    intro i s log hi hd hpos
    obtain ⟨f1, -, f3, -, -⟩ := checkStop_frame cfg s
    rw [annealedRun, learnRun]
    cases hcs : checkStop cfg s with
    | mk s1 res =>
      rw [hcs] at f1 f3
      simp only at f1 f3
      cases res with
      | error e => exact ⟨rfl, fun h => by cases h⟩
      | ok b =>
        cases b with
        | true =>
          dsimp only
          cases hx : xopt cfg s1 with
          | error e => exact ⟨rfl, fun h => by cases h⟩
          | ok o =>
            cases o with
            | none => exact ⟨rfl, fun h => by cases h⟩
            | some r => exact ⟨rfl, fun h => by cases h⟩
        | false =>
          dsimp only
          rw [← proposals_shift cfg u hp (cooled a t0) t0 h0 L i s1 (cooled a t0 (i - 1)) (fun _ => ⟨rfl, by
            rcases Nat.eq_zero_or_pos i with rfl | h
            · exact h0
            · exact hpos _ (by omega)⟩)]
          cases hX : proposals cfg u (.MGFI, { t := some (cooled a t0 (i - 1)) }) L i s1 with
          | none => exact ⟨rfl, fun h => by cases h⟩
          | some X =>
            dsimp only
            rw [show oracleOf cfg (shifted (cooled a t0) t0 L) i s1 X = oracleOf cfg L i s1 X from rfl,
              show (shifted (cooled a t0) t0 L).objective = L.objective from rfl]
            obtain ⟨-, -, -, t4, t5, -⟩ := tell_spec cfg s1 { X := X, vals := X.map (L.objective i), oracle := oracleOf cfg L i s1 X }
            cases ht : tell cfg s1 { X := X, vals := X.map (L.objective i), oracle := oracleOf cfg L i s1 X } with
            | mk s2 res2 =>
              rw [ht] at t4 t5
              cases res2 with
              | error e => exact ⟨rfl, fun h => by cases h⟩
              | ok _ =>
                dsimp only
                obtain ⟨-, hd2, -⟩ := t4 rfl
                obtain ⟨hit, -⟩ := t5 ⟨rfl, rfl⟩
                have htemp : (if s1.data.isSome then annealStep a s1.iterCount (cooled a t0 (i - 1)) else cooled a t0 (i - 1)) = cooled a t0 (i + 1 - 1) := by
                  rw [f1, f3, hi]
                  by_cases hz : i = 0
                  · rw [hd.mpr hz, hz]
                    rfl
                  · have hs : s.data.isSome := by
                      rw [Option.isSome_iff_ne_none]
                      exact fun h => hz (hd.mp h)
                    rw [if_pos hs]
                    obtain ⟨k, rfl⟩ : ∃ k, i = k + 1 := ⟨i - 1, by omega⟩
                    rfl
                rw [htemp]
                obtain ⟨g1, g2⟩ := ih (i + 1) s2 (log ++ X.map (fun x => (i, x, L.objective i x))) (by rw [hit, f3, hi])
                  ⟨fun h => absurd h hd2, fun h => by omega⟩ (fun k hk => hpos k (by omega))
                exact ⟨g1, fun h => by rw [g2 h]; congr 1; omega⟩

/-- The prescribed temperature of the `k`-th search for the two schedules that end at `tf`. -/
def Cooling (name : ScheduleName) (t0 tf N : ℝ) (τ : ℕ → ℝ) : Prop :=
  (name = .exp ∧ τ = geometric t0 tf N) ∨ (name = .linear ∧ τ = straight t0 tf N)

private theorem cooled_eq {name : ScheduleName} {t0 tf N : ℝ} {τ : ℕ → ℝ} (hτ : Cooling name t0 tf N τ) (h0 : 0 < tf) (h1 : tf < t0) (hN : 0 < N) {a : Anneal}
    (ha : annealInit name t0 tf N = .ok a) : cooled a t0 = τ := by
  funext k
  rcases hτ with ⟨rfl, rfl⟩ | ⟨rfl, rfl⟩
  · simp only [annealInit, if_neg hN.ne', Except.ok.injEq] at ha
    subst ha
    induction k with
    | zero => simp [cooled, geometric]
    | succ k ih =>
      simp only [cooled, ih, annealStep, geometric]
      rw [mul_assoc, ← Real.rpow_add (div_pos h0 (h0.trans h1))]
      congr 2
      push_cast
      ring
  · simp only [annealInit, if_neg hN.ne', Except.ok.injEq] at ha
    subst ha
    induction k with
    | zero => simp [cooled, straight]
    | succ k ih =>
      simp only [cooled, ih, annealStep, straight]
      push_cast
      field_simp
      ring

/-- **C161, partial** (as C158): in every step of a run with annealing after the initial design, the temperature kept is the one the schedule prescribes for that step, and
every point of the batch has the largest moment of improvement its search has seen, for a temperature drawn around it. -/
theorem c161_annealed_partial (cfg : Cfg ℝ) (u : RunSetup) (name : ScheduleName) (t0 tf N : ℝ) (h0 : 0 < tf) (h1 : tf < t0) (hN : 0 < N) (a : Anneal)
    (ha : annealInit name t0 tf N = .ok a) (τ : ℕ → ℝ) (hτ : Cooling name t0 tf N τ) (L : Learner G) (n : ℕ) (hn : 1 ≤ n) (hpos : ∀ k < n, 0 < τ k)
    (hrun : (annealedRun cfg u a L n 0 {} t0 []).1.ending = .running)
    (hcont : (checkStop cfg (annealedRun cfg u a L n 0 {} t0 []).1.opt).2 = .ok false)
    (hp : 1 < u.nPoint) (hpar : u.parallel = true) (hv : u.vars ≠ []) (huse : UsesCriteria L) (hz : ((L.normals n).length : ℤ) = u.nPoint)
    (henv : ∀ cs, LibrariesOk (L.search n cs) (u.vars.map Prod.snd) ∧ SpaceOk (L.search n cs) (u.vars.map Prod.snd) ∧ (L.search n cs).algo ≠ .bfgs ∧
      (∀ t x, (L.search n cs).penalty t x = 0) ∧ (L.search n cs).h = none ∧ (L.search n cs).g = none ∧ 1 ≤ (L.search n cs).nRestart ∧
      1 ≤ (L.search n cs).budget) :
    (annealedRun cfg u a L n 0 {} t0 []).2 = τ (n - 1) ∧
    ∃ (best : ℝ) (e : AskEnv G) (X : List Row), BestSoFar cfg.minimize (annealedRun cfg u a L n 0 {} t0 []).1.log best ∧
      (∃ cs, e = L.search n cs) ∧ (X.length : ℤ) = u.nPoint ∧
      (∀ (i : ℕ) (x : Row), X[i]? = some x → ∃ (z : ℝ) (m : ℕ) (B : ℕ → ℤ), (L.normals n)[i]? = some z ∧ 1 ≤ m ∧ B 0 = e.budget ∧
        (∃ k < m, x ∈ innerLog e (u.vars.map Prod.snd) i k (B k)) ∧
        ∀ k < m, ∀ y ∈ innerLog e (u.vars.map Prod.snd) i k (B k),
          momentWorth cfg.minimize L n (annealedRun cfg u a L n 0 {} t0 []).1.log best (min (τ (n - 1) * Real.exp (z / 2)) 22.36) y ≤
          momentWorth cfg.minimize L n (annealedRun cfg u a L n 0 {} t0 []).1.log best (min (τ (n - 1) * Real.exp (z / 2)) 22.36) x) ∧
      (FreshBatch (u.vars.map Prod.snd) ((succeeded (annealedRun cfg u a L n 0 {} t0 []).1.log).map Prod.fst) X →
        (annealedRun cfg u a L (n + 1) 0 {} t0 []).1.log =
          (annealedRun cfg u a L n 0 {} t0 []).1.log ++ X.map (fun x => (n, x, L.objective n x))) := by
  have hc := cooled_eq hτ h0 h1 hN ha
  have ht0 : 0 < t0 := h0.trans h1
  have hshift : ∀ fuel, fuel ≤ n + 1 → (annealedRun cfg u a L fuel 0 {} t0 []).1 = learnRun cfg u (.MGFI, { t := some t0 }) (shifted (cooled a t0) t0 L) fuel 0 {} [] ∧
      ((annealedRun cfg u a L fuel 0 {} t0 []).1.ending = .running → (annealedRun cfg u a L fuel 0 {} t0 []).2 = cooled a t0 (0 + fuel - 1)) := by
    intro fuel hf
    exact annealed_eq cfg u hp a t0 ht0 L fuel 0 {} [] rfl ⟨fun _ => rfl, fun _ => rfl⟩ (fun k hk => by rw [hc]; exact hpos k (by omega))
  obtain ⟨e1, e2⟩ := hshift n (by omega)
  obtain ⟨e3, -⟩ := hshift (n + 1) le_rfl
  refine ⟨by rw [e2 hrun, hc]; simp, ?_⟩
  rw [e1] at hrun hcont ⊢
  rw [e3]
  obtain ⟨best, e, X, g1, g2, g3, g4, g5⟩ := c158_batch_maximises_partial cfg u t0 ht0 (shifted (cooled a t0) t0 L) n hn hrun hcont hp hpar hv huse
    (by simpa [shifted] using hz) henv
  refine ⟨best, e, X, g1, g2, g3, fun i x hx => ?_, g5⟩
  obtain ⟨z', m, B, k1, k2, k3, k4, k5⟩ := g4 i x hx
  simp only [shifted, List.getElem?_map, Option.map_eq_some_iff] at k1
  obtain ⟨z, hz1, rfl⟩ := k1
  have htemp : t0 * Real.exp ((z + 2 * Real.log (cooled a t0 (n - 1) / t0)) / 2) = τ (n - 1) * Real.exp (z / 2) := by
    have hp1 := hpos (n - 1) (by omega)
    rw [hc, add_div, mul_div_cancel_left₀ _ (two_ne_zero), Real.exp_add, Real.exp_log (div_pos hp1 ht0)]
    field_simp
  rw [htemp] at k5
  exact ⟨z, m, B, hz1, k2, k3, k4, k5⟩

private theorem annealed_succ (cfg : Cfg ℝ) (u : RunSetup) (a : Anneal) (L : Learner G) (fuel i : ℕ) (s : OptState Row ℝ) (t : ℝ) (log : List (ℕ × Row × Obs ℝ))
    (hr : (annealedRun cfg u a L (fuel + 1) i s t log).1.ending = .running) :
    ∃ s2 t' log', (checkStop cfg s).2 = .ok false ∧ s2.stopMaxFEs = none ∧ s2.stopFtarget = none ∧
      ∀ f, annealedRun cfg u a L (f + 1) i s t log = annealedRun cfg u a L f (i + 1) s2 t' log' := by
  rw [annealedRun] at hr
  cases hcs : checkStop cfg s with
  | mk s1 res =>
    rw [hcs] at hr
    cases res with
    | error e => cases hr
    | ok b =>
      cases b with
      | true =>
        dsimp only at hr
        cases hx : xopt cfg s1 with
        | error e => rw [hx] at hr; cases hr
        | ok o =>
          cases o with
          | none => rw [hx] at hr; cases hr
          | some r => rw [hx] at hr; cases hr
      | false =>
        dsimp only at hr
        obtain ⟨g1, g2, -⟩ := checkStop_false hcs
        cases hX : proposals cfg u (.MGFI, { t := some t }) L i s1 with
        | none => rw [hX] at hr; cases hr
        | some X =>
          rw [hX] at hr
          dsimp only at hr
          obtain ⟨-, t2, t3, -⟩ := tell_spec cfg s1 { X := X, vals := X.map (L.objective i), oracle := oracleOf cfg L i s1 X }
          cases ht : tell cfg s1 { X := X, vals := X.map (L.objective i), oracle := oracleOf cfg L i s1 X } with
          | mk s2 res2 =>
            rw [ht] at hr t2 t3
            cases res2 with
            | error e => cases hr
            | ok _ =>
              refine ⟨s2, if s1.data.isSome then annealStep a s1.iterCount t else t, log ++ X.map (fun x => (i, x, L.objective i x)), rfl, by rw [t2, g1], by rw [t3, g2], fun f => ?_⟩
              rw [annealedRun, hcs]
              simp only [hX, ht]

private theorem annealed_prefix (cfg : Cfg ℝ) (u : RunSetup) (a : Anneal) (L : Learner G) : ∀ (n i : ℕ) (s : OptState Row ℝ) (t : ℝ) (log : List (ℕ × Row × Obs ℝ)),
    (annealedRun cfg u a L (n + 1) i s t log).1.ending = .running →
    (annealedRun cfg u a L n i s t log).1.ending = .running ∧ (checkStop cfg (annealedRun cfg u a L n i s t log).1.opt).2 = .ok false ∧
    (annealedRun cfg u a L (n + 1) i s t log).1.opt.stopMaxFEs = none ∧ (annealedRun cfg u a L (n + 1) i s t log).1.opt.stopFtarget = none := by
  intro n
  induction n with
  | zero =>
    intro i s t log hr
    obtain ⟨s2, t', log', h1, h2, h3, h4⟩ := annealed_succ cfg u a L 0 i s t log hr
    rw [h4 0]
    exact ⟨rfl, h1, h2, h3⟩
  | succ n ih =>
    intro i s t log hr
    obtain ⟨s2, t', log', -, -, -, h4⟩ := annealed_succ cfg u a L (n + 1) i s t log hr
    rw [h4 (n + 1)] at hr ⊢
    rw [h4 n]
    exact ih _ _ _ _ hr

private theorem annealed_split (cfg : Cfg ℝ) (u : RunSetup) (a : Anneal) (L : Learner G) : ∀ (n i : ℕ) (s : OptState Row ℝ) (t : ℝ) (log : List (ℕ × Row × Obs ℝ)),
    (annealedRun cfg u a L n i s t log).1.ending = .running → ∀ f,
      annealedRun cfg u a L (n + f) i s t log =
        annealedRun cfg u a L f (i + n) (annealedRun cfg u a L n i s t log).1.opt (annealedRun cfg u a L n i s t log).2 (annealedRun cfg u a L n i s t log).1.log := by
  intro n
  induction n with
  | zero => intro i s t log _ f; simp [annealedRun]
  | succ n ih =>
    intro i s t log hr f
    obtain ⟨s2, t', log', -, -, -, h4⟩ := annealed_succ cfg u a L n i s t log hr
    rw [show n + 1 + f = (n + f) + 1 by omega, h4 (n + f), h4 n]
    rw [h4 n] at hr
    rw [ih _ _ _ _ hr f]
    congr 1
    omega

private theorem annealed_stop (cfg : Cfg ℝ) (u : RunSetup) (a : Anneal) (L : Learner G) (i : ℕ) (s : OptState Row ℝ) (t : ℝ) (log : List (ℕ × Row × Obs ℝ))
    (hs : (checkStop cfg s).2 = .ok true) (f : ℕ) : (annealedRun cfg u a L f i s t log).2 = t := by
  cases f with
  | zero => rfl
  | succ f =>
    rw [annealedRun]
    cases hcs : checkStop cfg s with
    | mk s1 res =>
      rw [hcs] at hs
      simp only at hs
      subst hs
      dsimp only
      split <;> rfl

/-- **C161**: with a budget of the initial design and `N` batches, and all batches full, the temperature falls from `t0` and stays above `tf` as long as the run goes on,
and is `tf` when the budget is used up and ever after. -/
theorem c161_ends_at_final (cfg : Cfg ℝ) (u : RunSetup) (name : ScheduleName) (t0 tf : ℝ) (h0 : 0 < tf) (h1 : tf < t0) (N doe q : ℕ) (hN : 0 < N) (hq : (q : ℤ) = u.nPoint)
    (hp : 1 < u.nPoint) (a : Anneal) (ha : annealInit name t0 tf (annealMaxIter (doe + N * q) doe q) = .ok a) (τ : ℕ → ℝ) (hτ : Cooling name t0 tf N τ)
    (hm : cfg.maxFEs = some (doe + N * q : ℕ)) (htar : cfg.ftarget = none) (L : Learner G) (n : ℕ) (hn : 1 ≤ n)
    (hrun : (annealedRun cfg u a L n 0 {} t0 []).1.ending = .running)
    (hfull : ∀ k, 1 ≤ k → k ≤ n → (annealedRun cfg u a L k 0 {} t0 []).1.opt.evalCount = doe + (k - 1) * q) :
    ((checkStop cfg (annealedRun cfg u a L n 0 {} t0 []).1.opt).2 = .ok false →
      tf < (annealedRun cfg u a L n 0 {} t0 []).2 ∧ (annealedRun cfg u a L n 0 {} t0 []).2 ≤ t0) ∧
    ((checkStop cfg (annealedRun cfg u a L n 0 {} t0 []).1.opt).2 = .ok true → ∀ m, n ≤ m → (annealedRun cfg u a L m 0 {} t0 []).2 = tf) := by
  have hmi := c35_max_iter doe q N (by omega)
  rw [hmi] at ha
  have hNr : (0 : ℝ) < N := by exact_mod_cast hN
  have hc := cooled_eq hτ h0 h1 hNr ha
  obtain ⟨⟨a1, a2⟩, b1, c1, d1⟩ := c35_endpoints t0 tf N h0 h1 hNr
  have hτ0 : τ 0 = t0 ∧ (∀ k l : ℕ, k < l → τ l < τ k) ∧ τ N = tf ∧ ∀ k : ℕ, k < N → tf < τ k := by
    rcases hτ with ⟨-, rfl⟩ | ⟨-, rfl⟩
    · exact ⟨a1, fun k l h => (b1 k l h).1, (c1 N rfl).1, fun k h => (d1 k (by exact_mod_cast h)).1⟩
    · exact ⟨a2, fun k l h => (b1 k l h).2, (c1 N rfl).2, fun k h => (d1 k (by exact_mod_cast h)).2⟩
  obtain ⟨e0, edec, eN, elt⟩ := hτ0
  have hlt : ∀ k, 1 ≤ k → k ≤ n → (checkStop cfg (annealedRun cfg u a L k 0 {} t0 []).1.opt).2 = .ok false → k - 1 < N := by
    intro k hk1 hk2 hs
    cases hcs : checkStop cfg (annealedRun cfg u a L k 0 {} t0 []).1.opt with
    | mk s1 res =>
      rw [hcs] at hs
      simp only at hs
      subst hs
      have := (checkStop_false hcs).2.2 _ hm
      rw [hfull k hk1 hk2] at this
      have h3 : doe + (k - 1) * q < doe + N * q := by exact_mod_cast this
      exact lt_of_mul_lt_mul_right (by omega : (k - 1) * q < N * q) (Nat.zero_le q)
  obtain ⟨j, rfl⟩ : ∃ j, n = j + 1 := ⟨n - 1, by omega⟩
  obtain ⟨p1, p2, p3, p4⟩ := annealed_prefix cfg u a L j 0 {} t0 [] hrun
  have hjN : j ≤ N := by
    rcases Nat.eq_zero_or_pos j with rfl | hj
    · exact Nat.zero_le _
    · have := hlt j hj (by omega) p2
      omega
  have htemp : (annealedRun cfg u a L (j + 1) 0 {} t0 []).2 = τ j := by
    have := (annealed_eq cfg u hp a t0 (h0.trans h1) L (j + 1) 0 {} [] rfl ⟨fun _ => rfl, fun _ => rfl⟩ (fun k hk => by
      rw [hc]
      exact h0.trans (elt k (by omega)))).2 hrun
    simp only [Nat.zero_add, Nat.add_sub_cancel] at this
    rw [← hc]
    exact this
  constructor
  · rw [htemp]
    intro hs
    have := hlt (j + 1) (by omega) le_rfl hs
    refine ⟨elt j (by omega), ?_⟩
    rcases Nat.eq_zero_or_pos j with rfl | hj
    · exact e0.le
    · rw [← e0]; exact (edec 0 j hj).le
  · intro hs m hm1
    obtain ⟨f, rfl⟩ : ∃ f, m = j + 1 + f := ⟨m - (j + 1), by omega⟩
    rw [annealed_split cfg u a L (j + 1) 0 {} t0 [] hrun f, annealed_stop cfg u a L _ _ _ _ hs f, htemp]
    cases hcs : checkStop cfg (annealedRun cfg u a L (j + 1) 0 {} t0 []).1.opt with
    | mk s1 res =>
      rw [hcs] at hs
      simp only at hs
      subst hs
      have := checkStop_true hcs p3 p4 htar _ hm
      rw [hfull (j + 1) (by omega) le_rfl] at this
      have h3 : doe + N * q ≤ doe + j * q := by exact_mod_cast this
      have h4 : N ≤ j := Nat.le_of_mul_le_mul_right (by omega : N * q ≤ j * q) (by omega)
      rw [le_antisymm hjN h4, eN]

/-! ### The hypotheses are met -/

private theorem cool_first (m : ℤ) (hm : 0 < m) (a : Anneal) (t0 : ℝ) (ht : 0 < t0) :
    annealedRun { stepCfg with maxFEs := some m } { twoSetup with parallel := true, nPoint := 2 } a stepLearner 1 0 {} t0 [] = (⟨twoState, twoLog, .running⟩, t0) := by
  have h := annealed_eq { stepCfg with maxFEs := some m } { twoSetup with parallel := true, nPoint := 2 } (by norm_num) a t0 ht stepLearner 1 0 {} [] rfl
    ⟨fun _ => rfl, fun _ => rfl⟩ (fun k hk => by omega)
  have e : learnRun { stepCfg with maxFEs := some m } { twoSetup with parallel := true, nPoint := 2 } (.MGFI, { t := some t0 }) (shifted (cooled a t0) t0 stepLearner) 1 0 {} [] =
      ⟨twoState, twoLog, .running⟩ := step_run_any m hm stepLearner.predict (shifted (cooled a t0) t0 stepLearner).normals _ true 2
  rw [e] at h
  exact Prod.ext h.1 (h.2 (by rw [h.1]))

/-- The hypotheses of `c161_annealed_partial` are met by a run with two points in the initial design and batches of two points, for both schedules. -/
example (name : ScheduleName) (a : Anneal) (ha : annealInit name 2 (1 / 10) 5 = .ok a) (τ : ℕ → ℝ) (hτ : Cooling name 2 (1 / 10) 5 τ) (hpos : ∀ k < 1, 0 < τ k) :=
  c161_annealed_partial { stepCfg with maxFEs := some 12 } { twoSetup with parallel := true, nPoint := 2 } name 2 (1 / 10) 5 (by norm_num) (by norm_num) (by norm_num)
    a ha τ hτ stepLearner 1 le_rfl hpos (by rw [cool_first _ (by norm_num) _ _ (by norm_num)])
    (by
      rw [cool_first _ (by norm_num) _ _ (by norm_num)]
      simp [checkStop, stepCfg, checkBudget, stopFlag, twoState])
    (by norm_num) rfl (by simp [twoSetup, demoSetup]) step_uses (by simp [stepLearner]) step_env

/-- Both schedules exist and start with a positive temperature. -/
example : (∃ a, annealInit .exp 2 (1 / 10) 5 = .ok a) ∧ (∃ a, annealInit .linear 2 (1 / 10) 5 = .ok a) ∧ 0 < geometric 2 (1 / 10) 5 0 ∧ 0 < straight 2 (1 / 10) 5 0 := by
  refine ⟨⟨_, if_neg (by norm_num)⟩, ⟨_, if_neg (by norm_num)⟩, by simp [geometric], by simp [straight]⟩

/-- The hypotheses of `c161_ends_at_final` are met by the same run. -/
example (name : ScheduleName) (a : Anneal) (ha : annealInit name 2 (1 / 10) (annealMaxIter (2 + 5 * 2) 2 2) = .ok a) (τ : ℕ → ℝ) (hτ : Cooling name 2 (1 / 10) (5 : ℕ) τ) :=
  c161_ends_at_final { stepCfg with maxFEs := some 12 } { twoSetup with parallel := true, nPoint := 2 } name 2 (1 / 10) (by norm_num) (by norm_num) 5 2 2 (by norm_num)
    rfl (by norm_num) a ha τ hτ rfl rfl stepLearner 1 le_rfl (by rw [cool_first _ (by norm_num) _ _ (by norm_num)])
    (by
      intro k h1 h2
      obtain rfl : k = 1 := by omega
      rw [cool_first _ (by norm_num) _ _ (by norm_num)]
      rfl)

end Verif.Props
