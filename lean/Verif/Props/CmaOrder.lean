import Verif.Proofs.CmaNeutral
import Mathlib.Analysis.Convex.Jensen
import Mathlib.Data.Fin.Tuple.Sort

/-!
# C168: the CMA-ES uses the order of the objective values, not the values
-/
namespace Verif.Props

open Matrix Verif.Model Verif.Spec Verif.Proofs

variable {d l : ℕ}

/-- A sorting routine that only compares: the result depends on the order of the values, ties included. -/
def ComparesOnly (rank : (Fin l → ℝ) → Fin l → Fin l) : Prop := ∀ v w, (∀ i j, v i ≤ v j ↔ w i ≤ w j) → rank v = rank w

/-- The state in which the best value is reported on another scale, everything else being the same. -/
def rescaled (g : ℝ → ℝ) (s : CmaEsState d) : CmaEsState d := { s with fopt := s.fopt.map g }

private theorem rescaled_update (g : ℝ → ℝ) (s : CmaEsState d) (wcm : Fin d → ℝ) (x : Fin l → Fin d → ℝ) (r : Fin l → Fin l) (n : ℕ) :
    cmaUpdate (rescaled g s) wcm x r n = rescaled g (cmaUpdate s wcm x r n) := rfl

private theorem rescaled_bd (g : ℝ → ℝ) (eigh : Matrix (Fin d) (Fin d) ℝ → (Fin d → ℝ) × Matrix (Fin d) (Fin d) ℝ) (s : CmaEsState d) :
    cmaUpdateBD eigh (rescaled g s) = rescaled g (cmaUpdateBD eigh s) := by
  unfold cmaUpdateBD
  simp only [show (rescaled g s).C = s.C from rfl]
  split_ifs <;> rfl

private theorem rescaled_le {g : ℝ → ℝ} (hg : StrictMono g) (v : WithTop ℝ) (t : ℝ) : v.map g ≤ ((g t : ℝ) : WithTop ℝ) ↔ v ≤ (t : WithTop ℝ) := by
  cases v with
  | top => simp
  | coe a => simp [WithTop.map_coe, WithTop.coe_le_coe, hg.le_iff_le]

private theorem rescaled_lt {g : ℝ → ℝ} (hg : StrictMono g) (v : WithTop ℝ) (t : ℝ) : ((g t : ℝ) : WithTop ℝ) < v.map g ↔ (t : WithTop ℝ) < v := by
  rw [← not_le, ← not_le, rescaled_le hg]

private theorem rescaled_stop {g : ℝ → ℝ} (hg : StrictMono g) (sigma0 t : ℝ) (budget : ℕ) (s : CmaEsState d) :
    cmaEsCheckStop sigma0 (g t) budget (rescaled g s) = rescaled g (cmaEsCheckStop sigma0 t budget s) := by
  have h : decide ((rescaled g s).fopt ≤ ((g t : ℝ) : WithTop ℝ)) = decide (s.fopt ≤ (t : WithTop ℝ)) :=
    decide_eq_decide.2 (rescaled_le hg s.fopt t)
  unfold cmaEsCheckStop
  simp only [h]
  change (if s.sigma < 1e-16 ∨ 1e6 < s.sigma then _ else _) = _
  split_ifs <;> rfl

section Run

variable [NeZero l] (lb ub : Fin d → ℝ) (sigma0 t : ℝ) (budget : ℕ) (f : (Fin d → ℝ) → ℝ) (rank : (Fin l → ℝ) → Fin l → Fin l)
  (eigh : Matrix (Fin d) (Fin d) ℝ → (Fin d → ℝ) × Matrix (Fin d) (Fin d) ℝ)

private theorem rescaled_generation {g : ℝ → ℝ} (hg : StrictMono g) (hrank : ComparesOnly rank) (z : Fin l → Fin d → ℝ) (s : CmaEsState d) :
    cmaGeneration lb ub sigma0 (g t) budget (fun x => g (f x)) rank eigh z (rescaled g s) =
      rescaled g (cmaGeneration lb ub sigma0 t budget f rank eigh z s) := by
  have hx : cmaOffspring lb ub (rescaled g s) z = cmaOffspring lb ub s z := rfl
  have hr : rank (fun j => g (f (cmaOffspring lb ub s z j))) = rank (fun j => f (cmaOffspring lb ub s z j)) :=
    hrank _ _ fun i j => hg.le_iff_le
  unfold cmaGeneration
  simp only [hx, hr]
  generalize cmaOffspring lb ub s z = x
  generalize rank (fun j => f (x j)) = r
  rw [rescaled_update, ← rescaled_stop hg]
  congr 1
  generalize hs1 : cmaUpdate s (cmaMean x r) x r (s.evalCount + l) = s1
  have hs1' : cmaUpdate s (cmaMean x r) x r ((rescaled g s).evalCount + l) = s1 := hs1
  rw [hs1']
  have hbd : (if ((rescaled g s1).evalCount : ℝ) - (rescaled g s1).eigenEval > l / (cmaC1 d l + cmaCmu d l) / d / 10 then
      cmaUpdateBD eigh { rescaled g s1 with eigenEval := (rescaled g s1).evalCount } else rescaled g s1) =
      rescaled g (if (s1.evalCount : ℝ) - s1.eigenEval > l / (cmaC1 d l + cmaCmu d l) / d / 10 then
        cmaUpdateBD eigh { s1 with eigenEval := s1.evalCount } else s1) := by
    change (if (s1.evalCount : ℝ) - s1.eigenEval > l / (cmaC1 d l + cmaCmu d l) / d / 10 then
      cmaUpdateBD eigh (rescaled g { s1 with eigenEval := s1.evalCount }) else rescaled g s1) = _
    rw [rescaled_bd]
    split_ifs <;> rfl
  rw [hbd]
  generalize (if (s1.evalCount : ℝ) - s1.eigenEval > l / (cmaC1 d l + cmaCmu d l) / d / 10 then
      cmaUpdateBD eigh { s1 with eigenEval := s1.evalCount } else s1) = s2
  by_cases hlt : ((f (x (r 0)) : ℝ) : WithTop ℝ) < s2.fopt
  · rw [if_pos hlt, if_pos (show _ < (rescaled g s2).fopt from (rescaled_lt hg s2.fopt _).2 hlt)]
    rfl
  · rw [if_neg hlt, if_neg (show ¬_ < (rescaled g s2).fopt from fun h => hlt ((rescaled_lt hg s2.fopt _).1 h))]

/-- **C168, monotone transformations.**  Minimising `g (f x)` for a strictly increasing `g`, with the target on the same scale, gives after every number of
generations the same mean, step size, paths, matrices, best point, counters and flags as minimising `f`; only the best value is reported on the other scale. -/
theorem c168_order_only {g : ℝ → ℝ} (hg : StrictMono g) (hrank : ComparesOnly rank) (z : ℕ → Fin l → Fin d → ℝ) (start : Fin d → ℝ) (n : ℕ) :
    cmaEsRun lb ub sigma0 (g t) budget (fun x => g (f x)) rank eigh z start n = rescaled g (cmaEsRun lb ub sigma0 t budget f rank eigh z start n) := by
  induction n with
  | zero => rfl
  | succ n ih =>
    change cmaGeneration _ _ _ _ _ _ _ _ _ (cmaEsRun lb ub sigma0 (g t) budget (fun x => g (f x)) rank eigh z start n) = _
    rw [ih, rescaled_generation lb ub sigma0 t budget f rank eigh hg hrank]
    rfl

omit [NeZero l] in
private theorem sorted_unique {v : Fin l → ℝ} (hv : Function.Injective v) {r r' : Fin l → Fin l} (hr : Function.Bijective r)
    (hr' : Function.Bijective r') (hm : ∀ i j, i ≤ j → v (r i) ≤ v (r j)) (hm' : ∀ i j, i ≤ j → v (r' i) ≤ v (r' j)) : r = r' := by
  have h1 : StrictMono fun i => v (r i) := Monotone.strictMono_of_injective (fun i j h => hm i j h) (hv.comp hr.1)
  have h2 : StrictMono fun i => v (r' i) := Monotone.strictMono_of_injective (fun i j h => hm' i j h) (hv.comp hr'.1)
  have hrange : Set.range (fun i => v (r i)) = Set.range fun i => v (r' i) := by
    rw [show (fun i => v (r i)) = v ∘ r from rfl, show (fun i => v (r' i)) = v ∘ r' from rfl, Set.range_comp, Set.range_comp, hr.2.range_eq, hr'.2.range_eq]
  have := (StrictMono.range_inj h1 h2).1 hrange
  exact funext fun i => hv (congrFun this i)

/-- **C168, order of the draws.**  If the offspring have different values, the order in which they were drawn is irrelevant: permuted random numbers lead to the
same state, in every component. -/
theorem c168_draw_order (hrank : RanksValues rank) (z : Fin l → Fin d → ℝ) (s : CmaEsState d) (π : Equiv.Perm (Fin l))
    (hinj : Function.Injective fun j => f (cmaOffspring lb ub s z j)) :
    cmaGeneration lb ub sigma0 t budget f rank eigh (fun j => z (π j)) s = cmaGeneration lb ub sigma0 t budget f rank eigh z s := by
  have hx : cmaOffspring lb ub s (fun j => z (π j)) = fun j => cmaOffspring lb ub s z (π j) := rfl
  have hr : (fun i => π (rank (fun j => f (cmaOffspring lb ub s z (π j))) i)) = rank (fun j => f (cmaOffspring lb ub s z j)) := by
    obtain ⟨b1, m1⟩ := hrank fun j => f (cmaOffspring lb ub s z (π j))
    obtain ⟨b2, m2⟩ := hrank fun j => f (cmaOffspring lb ub s z j)
    exact sorted_unique hinj (π.bijective.comp b1) b2 m1 m2
  have hmean : ∀ (x : Fin l → Fin d → ℝ) (r : Fin l → Fin l), cmaMean (fun j => x (π j)) r = cmaMean x fun i => π (r i) := fun _ _ => rfl
  have hup : ∀ (x : Fin l → Fin d → ℝ) (r : Fin l → Fin l) (m : Fin d → ℝ) (n : ℕ),
      cmaUpdate s m (fun j => x (π j)) r n = cmaUpdate s m x (fun i => π (r i)) n := fun _ _ _ _ => rfl
  have hbest : π (rank (fun j => f (cmaOffspring lb ub s z (π j))) 0) = rank (fun j => f (cmaOffspring lb ub s z j)) 0 := congrFun hr 0
  unfold cmaGeneration
  simp only [hx, hmean, hup, hr, hbest]

omit [NeZero l] in
/-- The weights fall with the rank. -/
private theorem weight_antitone (hl : 2 ≤ l) : Antitone (rankWeight l) := by
  intro i j hij
  unfold rankWeight
  split_ifs with h1 h2 h2
  · rcases eq_or_lt_of_le hij with rfl | h
    · exact le_rfl
    · exact (cma_weight_anti hl h).le
  · exact absurd (lt_of_le_of_lt (show i.val ≤ j.val from hij) h1) h2
  · exact (cma_weight_pos hl h2).le
  · exact le_rfl

/-- **C168, selection.**  For a convex objective the new mean is at least as good as the average of the values of all offspring of the generation. -/
theorem c168_selection (hl : 2 ≤ l) (hf : ConvexOn ℝ Set.univ f) (hrank : RanksValues rank) (z : Fin l → Fin d → ℝ) (s : CmaEsState d) :
    f (cmaGeneration lb ub sigma0 t budget f rank eigh z s).wcm ≤ (∑ j, f (cmaOffspring lb ub s z j)) / l := by
  rw [generation_mean]
  set x := cmaOffspring lb ub s z
  obtain ⟨hb, hm⟩ := hrank fun j => f (x j)
  set r := rank fun j => f (x j)
  have hmean : cmaMean x r = ∑ j : Fin l, rankWeight l j • x (r j) := by
    funext i
    rw [Finset.sum_apply]
    unfold cmaMean rankWeight
    refine Finset.sum_congr rfl fun j _ => ?_
    split_ifs <;> simp
  have hw0 : ∀ j : Fin l, 0 ≤ rankWeight l j := fun j => by
    unfold rankWeight
    split_ifs with h
    · exact (cma_weight_pos hl h).le
    · exact le_rfl
  have h1 : f (cmaMean x r) ≤ ∑ j : Fin l, rankWeight l j * f (x (r j)) := by
    rw [hmean]
    exact hf.map_sum_le (fun j _ => hw0 j) (rankWeight_sum hl) fun _ _ => Set.mem_univ _
  have hanti : Antivary (rankWeight l) fun j => f (x (r j)) := by
    intro i j hij
    have : i ≤ j := by
      by_contra h
      exact absurd (hm j i (not_le.1 h).le) (not_le.2 hij)
    exact weight_antitone hl this
  have h2 := hanti.card_mul_sum_le_sum_mul_sum
  rw [rankWeight_sum hl, one_mul, Fintype.card_fin] at h2
  have h3 : ∑ j, f (x (r j)) = ∑ j, f (x j) := (Equiv.ofBijective r hb).sum_comp fun j => f (x j)
  rw [h3] at h2
  have hl0 : (0 : ℝ) < l := by exact_mod_cast (by omega : 0 < l)
  rw [le_div_iff₀ hl0]
  nlinarith

end Run

/-! ### A case -/

private theorem sort_compares : ComparesOnly (l := l) fun v => Tuple.sort v := by
  intro v w h
  have he : ∀ i j, v i = v j ↔ w i = w j := fun i j => by rw [le_antisymm_iff, le_antisymm_iff, h, h]
  have : Tuple.sort v = Tuple.sort w := by
    rw [Tuple.eq_sort_iff]
    obtain ⟨h1, h2⟩ := (Tuple.eq_sort_iff (f := v)).1 (rfl : Tuple.sort v = Tuple.sort v)
    exact ⟨fun i j hij => (h _ _).1 (h1 hij), fun i j hij hw => h2 i j hij ((he _ _).2 hw)⟩
  change (⇑(Tuple.sort v) : Fin l → Fin l) = ⇑(Tuple.sort w)
  rw [this]

/-- A search for the minimum of `|x|` finds the same points as one for the minimum of `exp |x|`, and its mean after the first generation is no worse than the
average offspring, in a generation with different values that can be drawn in any order. -/
example :
    let z : Fin 4 → Fin 1 → ℝ := fun j _ => j
    let s := cmaEsInit (fun _ : Fin 1 => (0 : ℝ)) 0.1
    (∀ n, (cmaEsRun (fun _ : Fin 1 => -1) (fun _ => 1) 0.1 (Real.exp 0) 100 (fun x => Real.exp |x 0|) (fun v => Tuple.sort v) (fun _ => (0, 0)) (fun _ => z)
      (fun _ => 0) n).xopt = (cmaEsRun (fun _ : Fin 1 => -1) (fun _ => 1) 0.1 0 100 (fun x => |x 0|) (fun v => Tuple.sort v) (fun _ => (0, 0)) (fun _ => z)
      (fun _ => 0) n).xopt) ∧
    (∀ π : Equiv.Perm (Fin 4), cmaGeneration (fun _ : Fin 1 => -1) (fun _ => 1) 0.1 0 100 (fun x => |x 0|) (fun v => Tuple.sort v) (fun _ => (0, 0))
      (fun j => z (π j)) s = cmaGeneration (fun _ : Fin 1 => -1) (fun _ => 1) 0.1 0 100 (fun x => |x 0|) (fun v => Tuple.sort v) (fun _ => (0, 0)) z s) ∧
    |(cmaGeneration (fun _ : Fin 1 => -1) (fun _ => 1) 0.1 0 100 (fun x => |x 0|) (fun v => Tuple.sort v) (fun _ => (0, 0)) z s).wcm 0| ≤
      (∑ j, |cmaOffspring (fun _ : Fin 1 => -1) (fun _ => 1) s z j 0|) / 4 := by
  intro z s
  have hr : RanksValues (l := 4) fun v => Tuple.sort v := fun v => ⟨(Tuple.sort v).bijective, fun _ _ h => Tuple.monotone_sort v h⟩
  have hx : ∀ j : Fin 4, cmaOffspring (fun _ : Fin 1 => -1) (fun _ => 1) s z j 0 = j / 10 := by
    intro j
    have hj : (j : ℝ) ≤ 3 := by exact_mod_cast Nat.lt_succ_iff.1 j.2
    have h0 : (0 : ℝ) ≤ j := Nat.cast_nonneg _
    change reflect (-1) 1 (0 + 0.1 * ((1 : Matrix (Fin 1) (Fin 1) ℝ) *ᵥ fun _ => 1 * (j : ℝ)) 0) = _
    rw [one_mulVec, reflect_inside (by norm_num)]
    · ring
    · rw [min_eq_left (by norm_num)]
      linarith
    · rw [max_eq_right (by norm_num)]
      linarith
  refine ⟨fun n => ?_, fun π => ?_, ?_⟩
  · have h := congrArg CmaEsState.xopt (c168_order_only (fun _ : Fin 1 => -1) (fun _ => 1) 0.1 0 100 (fun x => |x 0|) (fun v => Tuple.sort v)
      (fun _ => (0, 0)) Real.exp_strictMono sort_compares (fun _ => z) (fun _ => 0) n)
    exact h
  · refine c168_draw_order _ _ _ _ _ _ _ _ hr z s π fun i j hij => ?_
    have h0 : ∀ k : Fin 4, (0 : ℝ) ≤ (k : ℝ) / 10 := fun k => by positivity
    simp only [hx, abs_of_nonneg (h0 _)] at hij
    have : (i : ℝ) = j := by linarith
    exact Fin.ext (by exact_mod_cast this)
  · have hconv : ConvexOn ℝ Set.univ fun x : Fin 1 → ℝ => |x 0| := by
      refine ⟨convex_univ, fun x _ y _ a b ha hb _ => ?_⟩
      simp only [Pi.add_apply, Pi.smul_apply, smul_eq_mul]
      calc |a * x 0 + b * y 0| ≤ |a * x 0| + |b * y 0| := abs_add_le _ _
        _ = a * |x 0| + b * |y 0| := by rw [abs_mul, abs_mul, abs_of_nonneg ha, abs_of_nonneg hb]
    exact_mod_cast c168_selection (fun _ : Fin 1 => -1) (fun _ => 1) 0.1 0 100 (fun x => |x 0|) (fun v => Tuple.sort v) (fun _ => (0, 0)) (by norm_num)
      hconv hr z s

end Verif.Props
