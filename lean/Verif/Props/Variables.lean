import Verif.Proofs.Variables
import Mathlib.Tactic.NormNum

/-!
# Properties C19, C20, C56: rounding, scales, level lists of variables
-/
namespace Verif.Props
open Verif.Model Verif.Proofs

/-! ## C20: scales -/

/-- The set on which a scale is meant to be used: its forward function is defined there. -/
def scaleDomain : Scale → Set ℝ
  | .linear => Set.univ
  | .log => Set.Ioi 0
  | .log10 => Set.Ioi 0
  | .logit => Set.Ioc 0 1
  | .bilog => Set.univ

/-- Order of floats with `+inf` (`none`) on top. -/
def extLt : Ext → Ext → Prop
  | some a, some b => a < b
  | some _, none => True
  | none, _ => False

/-- C20: transforming to a scale and back gives the value again. -/
theorem c20_inverse (s : Scale) (x : ℝ) (hx : x ∈ scaleDomain s) : scaleInv s (scaleTrans s x) = x := by
  cases s with
  | linear => rfl
  | log => exact Real.exp_log hx
  | log10 => exact Real.rpow_logb (by norm_num) (by norm_num) hx
  | logit =>
    obtain ⟨h0, h1⟩ := hx
    simp only [scaleTrans]
    split_ifs with h
    · rw [h]; rfl
    · exact logitInv_logit h0 (lt_of_le_of_ne h1 h)
  | bilog => exact bilogInv_bilog x

/-- C20: every scale is strictly increasing, so bounds are mapped to bounds. -/
theorem c20_strictly_increasing (s : Scale) (x y : ℝ) (hx : x ∈ scaleDomain s) (hy : y ∈ scaleDomain s)
    (h : x < y) : extLt (scaleTrans s x) (scaleTrans s y) := by
  cases s with
  | linear => exact h
  | log => exact Real.log_lt_log hx h
  | log10 => exact Real.logb_lt_logb (by norm_num) hx h
  | logit =>
    obtain ⟨hx0, hx1⟩ := hx
    obtain ⟨hy0, hy1⟩ := hy
    have hxne : x ≠ 1 := by rintro rfl; linarith
    simp only [scaleTrans]
    rw [if_neg hxne]
    split_ifs with hy'
    · trivial
    · have hy1' : y < 1 := lt_of_le_of_ne hy1 hy'
      show Real.log (x / (1 - x)) < Real.log (y / (1 - y))
      apply Real.log_lt_log (div_pos hx0 (by linarith))
      rw [div_lt_div_iff₀ (by linarith) (by linarith)]
      nlinarith
  | bilog => exact bilog_strictMono h

/-- C20: the inverse is defined for every finite number and lands in the domain; going there and back is the
identity too. -/
theorem c20_inverse_right (s : Scale) (y : ℝ) :
    scaleInv s (some y) ∈ scaleDomain s ∧ scaleTrans s (scaleInv s (some y)) = some y := by
  cases s with
  | linear => exact ⟨trivial, rfl⟩
  | log => exact ⟨Real.exp_pos y, congrArg some (Real.log_exp y)⟩
  | log10 =>
    refine ⟨Real.rpow_pos_of_pos (by norm_num) y, congrArg some ?_⟩
    exact Real.logb_rpow (by norm_num) (by norm_num)
  | logit =>
    have h0 := logitInv_pos y
    have h1 := logitInv_lt_one y
    refine ⟨⟨h0, h1.le⟩, ?_⟩
    show scaleTrans .logit (logitInv y) = some y
    simp only [scaleTrans]
    rw [if_neg h1.ne]
    exact congrArg some (logitInv_strictMono.injective (logitInv_logit h0 h1))
  | bilog => exact ⟨trivial, congrArg some (bilog_bilogInv y)⟩

/-- The bounds of an accepted real variable are in the domain of its scale. -/
theorem c20_bounds_in_domain (w : Bool) (lo hi : ℝ) (d : Option ℝ) (p : Option ℤ) (s : Scale) (v : RealVar)
    (h : mkReal w lo hi d p s = .ok (v, d)) :
    v.lo ∈ scaleDomain s ∧ v.hi ∈ scaleDomain s ∧ v.scale = s ∧ v.precision = p := by
  unfold mkReal at h
  split_ifs at h
  split at h
  · cases h
  · rename_i b hb
    cases h
    unfold setScale at hb
    split at hb
    · cases hb
    · cases hb
      have h1 := tiny_pos
      have h2 := tiny_le_one
      have h3 := one_le_floatMax
      refine ⟨?_, ?_, rfl, rfl⟩
      · dsimp only
        split_ifs with hc
        · cases s <;> simp only [scaleDomain, workingRange, Set.mem_univ, Set.mem_Ioi, Set.mem_Ioc] <;>
            first | exact h1 | exact ⟨h1, h2⟩
        · unfold outside at hc
          push Not at hc
          cases s <;> simp only [scaleDomain, workingRange, Set.mem_univ, Set.mem_Ioi, Set.mem_Ioc] at hc ⊢ <;>
            first | exact lt_of_lt_of_le h1 hc.1 | exact ⟨lt_of_lt_of_le h1 hc.1, hc.2⟩
      · dsimp only
        split_ifs with hc
        · cases s <;> simp only [scaleDomain, workingRange, Set.mem_univ, Set.mem_Ioi, Set.mem_Ioc] <;>
            first | exact lt_of_lt_of_le one_pos h3 | exact ⟨one_pos, le_refl _⟩
        · unfold outside at hc
          push Not at hc
          cases s <;> simp only [scaleDomain, workingRange, Set.mem_univ, Set.mem_Ioi, Set.mem_Ioc] at hc ⊢ <;>
            first | exact lt_of_lt_of_le h1 hc.1 | exact ⟨lt_of_lt_of_le h1 hc.1, hc.2⟩

/-- Non-vacuity: a log-scaled learning rate in [1e-4, 1] is accepted. -/
example : ∃ v, mkReal true (1 / 10 ^ 4) 1 none (some 3) .log = .ok (v, none) := by
  have h3 := one_le_floatMax
  have h1 : ¬ outside (workingRange .log) (1 / 10 ^ 4) := by
    unfold outside workingRange
    push Not
    exact ⟨tiny_le 4 (by norm_num), le_trans (by norm_num) h3⟩
  have h2 : ¬ outside (workingRange .log) 1 := by
    unfold outside workingRange
    push Not
    exact ⟨tiny_le_one, h3⟩
  refine ⟨{ lo := 1 / 10 ^ 4, hi := 1, precision := some 3, scale := .log }, ?_⟩
  unfold mkReal
  rw [if_neg (by norm_num), if_neg (by simp)]
  unfold setScale
  rw [if_neg (by tauto), if_neg h1, if_neg h2]

/-- The bounds of a `log` variable may be replaced: `Real([-5, -2], scale="log")`, with warnings not turned
into errors, becomes the whole positive axis, and a default of `-3` is kept although it is outside. -/
theorem c20_default_outside_after_scaling :
    ∃ v, mkReal false (-5) (-2) (some (-3)) none .log = .ok (v, some (-3)) ∧
      v.lo = tiny ∧ v.hi = floatMax ∧ ¬ v.contains (-3) := by
  have h0 := tiny_pos
  have h1 : outside (workingRange .log) (-5) := Or.inl (by show (-5 : ℝ) < tiny; linarith)
  have h2 : outside (workingRange .log) (-2) := Or.inl (by show (-2 : ℝ) < tiny; linarith)
  refine ⟨{ lo := tiny, hi := floatMax, precision := none, scale := .log }, ?_, rfl, rfl, ?_⟩
  · unfold mkReal
    rw [if_neg (by norm_num), if_neg (by
      rintro ⟨d, hd, hn⟩
      cases hd
      exact hn (by norm_num))]
    unfold setScale
    rw [if_neg (by simp), if_pos h1, if_pos h2]
    rfl
  · unfold RealVar.contains
    rintro ⟨h, _⟩
    have h' : tiny ≤ -3 := h
    linarith

/-- With warnings turned into errors, as samplers.py does on import, a bound outside the working range makes
the constructor raise. -/
theorem c20_out_of_range_bound_raises (lo hi : ℝ) (d : Option ℝ) (p : Option ℤ) (s : Scale)
    (h : outside (workingRange s) lo ∨ outside (workingRange s) hi) :
    ∃ e, mkReal true lo hi d p s = .error e := by
  unfold mkReal
  have hs : setScale true s lo hi = .error .warning := by
    unfold setScale
    rw [if_pos ⟨h, rfl⟩]
  rw [hs]
  split_ifs <;> exact ⟨_, rfl⟩

/-! ## C19: rounding -/

/-- C19: the rounded value is within the bounds, for every number. -/
theorem c19_in_bounds (v : RealVar) (hv : v.lo ≤ v.hi) (p : ℤ) (hp : v.precision = some p) (x : ℝ) :
    v.contains (v.round x) := by
  unfold RealVar.round RealVar.contains
  rw [hp]
  exact clip_mem hv _

/-- C19: without a precision nothing changes. -/
theorem c19_no_precision (v : RealVar) (hp : v.precision = none) (x : ℝ) : v.round x = x := by
  unfold RealVar.round
  rw [hp]

/-- C19: for a value within the bounds the rounding error is at most half a unit of the last digit, and the
result is a decimal with `p` digits or one of the bounds. -/
theorem c19_nearest (v : RealVar) (p : ℤ) (hp : v.precision = some p) (x : ℝ)
    (hx : v.contains x) :
    |v.round x - x| ≤ 1 / 2 / (10 : ℝ) ^ p ∧
      ((∃ z : ℤ, v.round x = z / (10 : ℝ) ^ p) ∨ v.round x = v.lo ∨ v.round x = v.hi) := by
  obtain ⟨h1, h2⟩ := hx
  have hlh := le_trans h1 h2
  have hc := npRound_close p x
  unfold RealVar.round
  rw [hp]
  simp only []
  rcases le_total (npRound p x) v.lo with h | h
  · rw [clip_of_le hlh h]
    refine ⟨le_trans ?_ hc, Or.inr (Or.inl rfl)⟩
    rw [abs_of_nonpos (by linarith), abs_of_nonpos (by linarith)]
    linarith
  · rcases le_total (npRound p x) v.hi with h' | h'
    · rw [clip_of_mem h h']
      exact ⟨hc, Or.inl ⟨_, rfl⟩⟩
    · rw [clip_of_ge h']
      refine ⟨le_trans ?_ hc, Or.inr (Or.inr rfl)⟩
      rw [abs_of_nonneg (by linarith), abs_of_nonneg (by linarith)]
      linarith

/-- C19: if both bounds are decimals with `p` digits, so is every rounded value. -/
theorem c19_multiple (v : RealVar) (p : ℤ) (hp : v.precision = some p)
    (hlo : ∃ z : ℤ, v.lo = z / (10 : ℝ) ^ p) (hhi : ∃ z : ℤ, v.hi = z / (10 : ℝ) ^ p) (x : ℝ) :
    ∃ z : ℤ, v.round x = z / (10 : ℝ) ^ p := by
  unfold RealVar.round
  rw [hp]
  simp only [clip]
  rcases min_choice (max (npRound p x) v.lo) v.hi with h | h <;> rw [h]
  · rcases max_choice (npRound p x) v.lo with h' | h' <;> rw [h']
    · exact ⟨_, rfl⟩
    · exact hlo
  · exact hhi

/-- C19, partial: rounding twice is rounding once, for a value within the bounds, or for any value when the
bounds are decimals with `p` digits.  Missing: values outside bounds that are not such decimals, where it is
false (`c19_not_idempotent_outside`). -/
theorem c19_idempotent_partial (v : RealVar) (hv : v.lo ≤ v.hi) (x : ℝ)
    (h : v.contains x ∨ ∀ p, v.precision = some p →
      (∃ z : ℤ, v.lo = z / (10 : ℝ) ^ p) ∧ (∃ z : ℤ, v.hi = z / (10 : ℝ) ^ p)) :
    v.round (v.round x) = v.round x := by
  unfold RealVar.round
  cases hp : v.precision with
  | none => rfl
  | some p =>
    simp only []
    rcases le_total (npRound p x) v.lo with hl | hl
    · rw [clip_of_le hv hl]
      apply clip_of_le hv
      rcases h with h | h
      · exact le_trans (npRound_mono p h.1) hl
      · obtain ⟨⟨z, hz⟩, _⟩ := h p hp
        rw [hz, npRound_mult]
    · rcases le_total (npRound p x) v.hi with hh | hh
      · rw [clip_of_mem hl hh, npRound_idem, clip_of_mem hl hh]
      · rw [clip_of_ge hh]
        apply clip_of_ge
        rcases h with h | h
        · exact le_trans hh (npRound_mono p h.2)
        · obtain ⟨_, z, hz⟩ := h p hp
          rw [hz, npRound_mult]

/-- C19 is false in general: with bounds [0, 1.04] and one digit, `1.06` is rounded to `1.04` and that to `1`. -/
theorem c19_not_idempotent_outside :
    let v : RealVar := { lo := 0, hi := 104 / 100, precision := some 1 }
    v.round (106 / 100) = 104 / 100 ∧ v.round (v.round (106 / 100)) = 1 := by
  have hf1 : ⌊(106 / 100 * (10 : ℝ) ^ (1 : ℤ))⌋ = 10 := by
    rw [Int.floor_eq_iff]; norm_num
  have hf2 : ⌊(104 / 100 * (10 : ℝ) ^ (1 : ℤ))⌋ = 10 := by
    rw [Int.floor_eq_iff]; norm_num
  have h1 : npRound 1 (106 / 100) = 11 / 10 := by
    unfold npRound rint
    rw [hf1]
    norm_num
  have h2 : npRound 1 (104 / 100) = 1 := by
    unfold npRound rint
    rw [hf2]
    norm_num
  intro v
  have e1 : v.round (106 / 100) = 104 / 100 := by
    show clip 0 (104 / 100) (npRound 1 (106 / 100)) = 104 / 100
    rw [h1]
    exact clip_of_ge (by norm_num)
  refine ⟨e1, ?_⟩
  rw [e1]
  show clip 0 (104 / 100) (npRound 1 (104 / 100)) = 1
  rw [h2]
  exact clip_of_mem (by norm_num) (by norm_num)

/-- Non-vacuity of `c19_nearest`, `c19_multiple`: two digits in [0, 1]. -/
example : let v : RealVar := { lo := 0, hi := 1, precision := some 2 }
    v.contains (1 / 3) ∧ (∃ z : ℤ, v.hi = z / (10 : ℝ) ^ (2 : ℤ)) :=
  ⟨⟨by norm_num, by norm_num⟩, 100, by norm_num⟩

/-! ## C56: level lists -/

/-- C56: the stored levels of a categorical variable are the given values, each once, in order of first
occurrence. -/
theorem c56_levels (l : List Lvl) :
    (dedupLevels l).Nodup ∧ (∀ x, x ∈ dedupLevels l ↔ x ∈ l) ∧ (dedupLevels l).Sublist l ∧
    ∀ a, dedupLevels (l ++ [a]) = if a ∈ l then dedupLevels l else dedupLevels l ++ [a] :=
  ⟨dedupLevels_nodup l, mem_dedupLevels l, dedupLevels_sublist l, dedupLevels_snoc l⟩

/-- C56: a subset variable over distinct values ranges over exactly the non-empty sub-collections, each once;
there are `2^n - 1` of them. -/
theorem c56_subset_levels (l : List Base) :
    (∀ c, c ∈ subsetLevels l ↔ c ≠ [] ∧ c.Sublist l) ∧ (l.Nodup → (subsetLevels l).Nodup) ∧
    (subsetLevels l).length + 1 = 2 ^ l.length := by
  refine ⟨fun c => ?_, fun h => ?_, ?_⟩
  · unfold subsetLevels
    simp only [List.mem_flatMap, List.mem_range, mem_combinations]
    constructor
    · rintro ⟨r, _, h1, h2⟩
      refine ⟨?_, h1⟩
      rintro rfl
      simp at h2
    · rintro ⟨h1, h2⟩
      have := List.length_pos_iff.2 h1
      have := h2.length_le
      exact ⟨c.length - 1, by omega, h2, by omega⟩
  · unfold subsetLevels
    rw [List.nodup_flatMap]
    refine ⟨fun r _ => nodup_combinations l h _, ?_⟩
    refine List.Pairwise.imp ?_ List.nodup_range
    intro a b hab
    rw [Function.onFun, List.disjoint_left]
    intro c hc hc'
    rw [mem_combinations] at hc hc'
    omega
  · unfold subsetLevels
    rw [List.length_flatMap]
    have hs := Nat.sum_range_choose l.length
    rw [Finset.sum_range_succ'] at hs
    simp only [Nat.choose_zero_right] at hs
    rw [← hs]
    congr 1
    simp only [length_combinations]
    generalize l.length = n
    clear hs
    have : ∀ m, (List.map (fun r => n.choose (r + 1)) (List.range m)).sum =
        ∑ k ∈ Finset.range m, n.choose (k + 1) := by
      intro m
      induction m with
      | zero => simp
      | succ m ih => rw [List.range_succ, Finset.sum_range_succ, List.map_append, List.sum_append, ih]; simp
    exact this n

example : subsetLevels [.str "a", .str "b"] = [[.str "a"], [.str "b"], [.str "a", .str "b"]] := by decide

end Verif.Props
