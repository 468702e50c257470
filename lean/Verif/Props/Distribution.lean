import Mathlib.MeasureTheory.Measure.Lebesgue.Basic
import Verif.Props.Sampling
import Verif.Spec.Distribution

/-!
# Property C147: the distribution of samples

The draws of numpy's generator enter the model as the numbers `u ∈ [0, 1]` and the positions below a size.  With
these uniformly distributed, the theorems say how the sampled points are distributed.
-/
namespace Verif.Props
open Verif.Model Verif.Proofs Verif.Spec MeasureTheory

/-! ## Real variables -/

private theorem trans_axis (s : Scale) : ∃ c : ℝ, 0 < c ∧ ∀ x ∈ scaleDomain s, (s = .logit → x < 1) →
    scaleTrans s x = some (c * axis s x) := by
  cases s with
  | linear => exact ⟨1, one_pos, fun x _ _ => by simp [scaleTrans, axis]⟩
  | log => exact ⟨1, one_pos, fun x _ _ => by simp [scaleTrans, axis]⟩
  | log10 =>
    refine ⟨1 / Real.log 10, one_div_pos.2 (Real.log_pos (by norm_num)), fun x _ _ => ?_⟩
    simp only [scaleTrans, axis, Real.logb]
    rw [div_eq_mul_inv, one_div, mul_comm]
  | logit =>
    refine ⟨1, one_pos, fun x hx h1 => ?_⟩
    have h1 := h1 rfl
    simp only [scaleTrans, axis]
    rw [if_neg h1.ne, one_mul, Real.log_div hx.1.ne' (by linarith)]
  | bilog =>
    refine ⟨1, one_pos, fun x _ _ => ?_⟩
    simp only [scaleTrans, axis, bilog, one_mul, Option.some.injEq]
    rcases lt_trichotomy x 0 with h | h | h
    · rw [if_neg (not_le.2 h), Real.sign_of_neg h, abs_of_neg h]
      ring_nf
    · subst h; simp
    · rw [if_pos h.le, Real.sign_of_pos h, abs_of_pos h, one_mul]

theorem axis_lt {s : Scale} {x y : ℝ} (hx : x ∈ scaleDomain s) (hy : y ∈ scaleDomain s)
    (hy1 : s = .logit → y < 1) (h : x < y) : axis s x < axis s y := by
  obtain ⟨c, hc, ht⟩ := trans_axis s
  have := c20_strictly_increasing s x y hx hy h
  rw [ht x hx (fun hs => lt_trans h (hy1 hs)), ht y hy hy1] at this
  exact lt_of_mul_lt_mul_left this hc.le

private theorem dom_mem {v : RealVar} (hp : Proper (.real v)) {x : ℝ} (h1 : v.lo ≤ x) (h2 : x ≤ v.hi) :
    x ∈ scaleDomain v.scale := by
  obtain ⟨_, hlo, hhi⟩ := hp
  revert hlo hhi
  cases v.scale <;> intro hlo hhi
  · trivial
  · exact lt_of_lt_of_le hlo h1
  · exact lt_of_lt_of_le hlo h1
  · exact ⟨lt_of_lt_of_le hlo.1 h1, le_trans h2 hhi.2⟩
  · trivial

private theorem axis_le_iff {v : RealVar} (hp : Proper (.real v)) (hr : Regular (.real v)) {x y : ℝ}
    (hx : v.lo ≤ x ∧ x ≤ v.hi) (hy : v.lo ≤ y ∧ y ≤ v.hi) : axis v.scale x ≤ axis v.scale y ↔ x ≤ y := by
  have key : ∀ x y : ℝ, (v.lo ≤ x ∧ x ≤ v.hi) → (v.lo ≤ y ∧ y ≤ v.hi) → x < y →
      axis v.scale x < axis v.scale y := fun x y hx hy h =>
    axis_lt (dom_mem hp hx.1 hx.2) (dom_mem hp hy.1 hy.2) (fun hs => lt_of_le_of_lt hy.2 (hr hs)) h
  constructor
  · intro h
    by_contra hn
    exact absurd (key y x hy hx (not_le.1 hn)) (not_lt.2 h)
  · intro h
    rcases eq_or_lt_of_le h with rfl | h
    · exact le_refl _
    · exact (key x y hx hy h).le

/-- The point before rounding. -/
theorem sample_point {v : RealVar} (hp : Proper (.real v)) (hr : Regular (.real v)) {u : ℝ}
    (h0 : 0 ≤ u) (h1 : u ≤ 1) : ∃ x, (v.lo ≤ x ∧ x ≤ v.hi) ∧ v.sample u = some (v.round x) ∧
      axis v.scale x = axis v.scale v.lo + u * (axis v.scale v.hi - axis v.scale v.lo) := by
  obtain ⟨c, hc, ht⟩ := trans_axis v.scale
  have hlt := hp.1
  have hlo : scaleTrans v.scale v.lo = _ := ht v.lo hp.2.1 (fun hs => lt_trans hlt (hr hs))
  have hhi : scaleTrans v.scale v.hi = _ := ht v.hi hp.2.2 hr
  have hax := axis_lt hp.2.1 hp.2.2 hr hlt
  set y : ℝ := (c * axis v.scale v.hi - c * axis v.scale v.lo) * u + c * axis v.scale v.lo with hy
  obtain ⟨hd, hinv⟩ := c20_inverse_right v.scale y
  set x : ℝ := scaleInv v.scale (some y) with hx
  have hx1 : v.scale = .logit → x < 1 := by
    intro hs
    rw [hs] at hd hinv
    rcases eq_or_lt_of_le hd.2 with h | h
    · rw [h] at hinv
      simp [scaleTrans] at hinv
    · exact h
  have haxx : axis v.scale x = axis v.scale v.lo + u * (axis v.scale v.hi - axis v.scale v.lo) := by
    rw [ht x hd hx1] at hinv
    have := Option.some.inj hinv
    apply mul_left_cancel₀ hc.ne'
    rw [this, hy]
    ring
  refine ⟨x, ⟨?_, ?_⟩, ?_, haxx⟩
  · by_contra hn
    have := axis_lt hd hp.2.1 (fun hs => lt_trans hlt (hr hs)) (not_le.1 hn)
    rw [haxx] at this
    have := mul_nonneg h0 (sub_pos.2 hax).le
    linarith
  · by_contra hn
    have := axis_lt hp.2.2 hd hx1 (not_le.1 hn)
    rw [haxx] at this
    have := mul_le_mul_of_nonneg_right h1 (sub_pos.2 hax).le
    linarith
  · unfold RealVar.sample
    rw [hlo, hhi]
    simp only [affine, Option.map_some, RealVar.toLinear]
    rw [← hy, ← hx]

/-- The draws whose point before rounding lies in `[a, b]` (or, without the ends, in `(a, b)`). -/
private theorem measure_between {v : RealVar} (hp : Proper (.real v)) (hr : Regular (.real v)) (S : Set ℝ)
    {a b : ℝ} (ha : v.lo ≤ a) (hab : a ≤ b) (hb : b ≤ v.hi)
    (hsub : ∀ u ∈ S, 0 ≤ u ∧ u ≤ 1 ∧ ∀ x, (v.lo ≤ x ∧ x ≤ v.hi) →
      axis v.scale x = axis v.scale v.lo + u * (axis v.scale v.hi - axis v.scale v.lo) → a ≤ x ∧ x ≤ b)
    (hsup : ∀ u, 0 ≤ u → u ≤ 1 → ∀ x, (v.lo ≤ x ∧ x ≤ v.hi) →
      axis v.scale x = axis v.scale v.lo + u * (axis v.scale v.hi - axis v.scale v.lo) → a < x → x < b → u ∈ S) :
    volume S = ENNReal.ofReal (share v.scale v.lo v.hi a b) := by
  have hlt := hp.1
  have hax := axis_lt hp.2.1 hp.2.2 hr hlt
  set A := axis v.scale with hA
  have hD : 0 < A v.hi - A v.lo := sub_pos.2 hax
  have hca : v.lo ≤ a ∧ a ≤ v.hi := ⟨ha, hab.trans hb⟩
  have hcb : v.lo ≤ b ∧ b ≤ v.hi := ⟨ha.trans hab, hb⟩
  have hclo : v.lo ≤ v.lo ∧ v.lo ≤ v.hi := ⟨le_refl _, hlt.le⟩
  have hchi : v.lo ≤ v.hi ∧ v.hi ≤ v.hi := ⟨hlt.le, le_refl _⟩
  have hle : ∀ x y : ℝ, (v.lo ≤ x ∧ x ≤ v.hi) → (v.lo ≤ y ∧ y ≤ v.hi) → (A x ≤ A y ↔ x ≤ y) :=
    fun x y hx hy => axis_le_iff hp hr hx hy
  set p := (A a - A v.lo) / (A v.hi - A v.lo) with hpd
  set q := (A b - A v.lo) / (A v.hi - A v.lo) with hqd
  have hp0 : 0 ≤ p := div_nonneg (sub_nonneg.2 ((hle _ _ hclo hca).2 ha)) hD.le
  have hq1 : q ≤ 1 := (div_le_one hD).2 (by have := (hle _ _ hcb hchi).2 hb; linarith)
  have hlen : q - p = share v.scale v.lo v.hi a b := by
    rw [hqd, hpd, ← sub_div]
    unfold share
    congr 1
    ring
  have h1 : S ⊆ Set.Icc p q := by
    intro u hu
    obtain ⟨h0, h1, hx⟩ := hsub u hu
    obtain ⟨x, hxm, _, haxx⟩ := sample_point hp hr h0 h1
    obtain ⟨hax1, hxb⟩ := hx x hxm haxx
    constructor
    · rw [hpd, div_le_iff₀ hD]
      have := (hle _ _ hca hxm).2 hax1
      rw [hA, haxx] at this
      linarith
    · rw [hqd, le_div_iff₀ hD]
      have := (hle _ _ hxm hcb).2 hxb
      rw [hA, haxx] at this
      linarith
  have h2 : Set.Ioo p q ⊆ S := by
    intro u hu
    have h0 : 0 ≤ u := hp0.trans hu.1.le
    have h1 : u ≤ 1 := hu.2.le.trans hq1
    obtain ⟨x, hxm, _, haxx⟩ := sample_point hp hr h0 h1
    refine hsup u h0 h1 x hxm haxx ?_ ?_
    · by_contra hn
      have := (hle _ _ hxm hca).2 (not_lt.1 hn)
      have hu1 := hu.1
      rw [hpd, div_lt_iff₀ hD] at hu1
      rw [hA, haxx] at this
      linarith
    · by_contra hn
      have := (hle _ _ hcb hxm).2 (not_lt.1 hn)
      have hu1 := hu.2
      rw [hqd, lt_div_iff₀ hD] at hu1
      rw [hA, haxx] at this
      linarith
  rw [← hlen]
  apply le_antisymm
  · exact (measure_mono h1).trans_eq Real.volume_Icc
  · exact Real.volume_Ioo.symm.le.trans (measure_mono h2)

/-- C147 for one real variable without precision: for a uniform draw, the sampled value lies in `[a, b]` with a
probability equal to the share of `[a, b]` in the range, measured on the axis of the variable's scale. -/
theorem c147_real_share_partial (v : RealVar) (hp : Proper (.real v)) (hr : Regular (.real v))
    (hprec : v.precision = none) (a b : ℝ) (ha : v.lo ≤ a) (hab : a ≤ b) (hb : b ≤ v.hi) :
    volume {u : ℝ | 0 ≤ u ∧ u ≤ 1 ∧ ∃ x, v.sample u = some x ∧ a ≤ x ∧ x ≤ b} =
      ENNReal.ofReal (share v.scale v.lo v.hi a b) := by
  have hround : ∀ x, v.round x = x := fun x => by unfold RealVar.round; rw [hprec]
  apply measure_between hp hr _ ha hab hb
  · rintro u ⟨h0, h1, x, hx, hax, hxb⟩
    refine ⟨h0, h1, fun x' hx' haxx => ?_⟩
    obtain ⟨x'', hx'', hs, haxx'⟩ := sample_point hp hr h0 h1
    rw [hs, hround] at hx
    have hx := Option.some.inj hx
    rw [← hx] at hax hxb
    have : x' = x'' := le_antisymm ((axis_le_iff hp hr hx' hx'').1 (by rw [haxx, haxx']))
      ((axis_le_iff hp hr hx'' hx').1 (by rw [haxx, haxx']))
    rw [this]
    exact ⟨hax, hxb⟩
  · intro u h0 h1 x hx haxx hax hxb
    obtain ⟨x'', hx'', hs, haxx'⟩ := sample_point hp hr h0 h1
    have : x = x'' := le_antisymm ((axis_le_iff hp hr hx hx'').1 (by rw [haxx, haxx']))
      ((axis_le_iff hp hr hx'' hx).1 (by rw [haxx, haxx']))
    subst this
    exact ⟨h0, h1, x, by rw [hs, hround], hax.le, hxb.le⟩

/-- A generator whose uniform matrix is `U`. -/
def matrixRng {N d : ℕ} (U : Fin N → Fin d → ℝ) : Rng Unit where
  uniform _ _ _ := (fun i j => if h : i < N ∧ j < d then U ⟨i, h.1⟩ ⟨j, h.2⟩ else 0, ())
  randint _ _ _ := (fun _ => 0, ())
  seed _ := ()

/-- C147 for a space of real variables without precision: the `N` points of one call are independent and so are
their coordinates, each uniform on the axis of its variable: the probability that coordinate `j` of point `i` lies in
`[a i j, b i j]` for all `i` and `j` is the product of the shares. -/
theorem c147_real_joint_partial (vs : List RealVar) (hne : vs ≠ []) (hp : ∀ v ∈ vs, Proper (.real v))
    (hr : ∀ v ∈ vs, Regular (.real v)) (hprec : ∀ v ∈ vs, v.precision = none) (fresh : VType → Unit)
    (seed : Option ℕ) (N : ℕ) (a b : Fin N → Fin vs.length → ℝ)
    (hab : ∀ i j, vs[j].lo ≤ a i j ∧ a i j ≤ b i j ∧ b i j ≤ vs[j].hi) :
    volume {U : Fin N → Fin vs.length → ℝ | (∀ i j, 0 ≤ U i j ∧ U i j ≤ 1) ∧
        ∀ (i : Fin N) (j : Fin vs.length), ∃ x,
          ((sampleRaw (matrixRng U) fresh seed (vs.map Kind.real) N ()).1[i.1]?).bind (fun row => row[j.1]?) =
            some (some (.real x)) ∧ a i j ≤ x ∧ x ≤ b i j} =
      ∏ i, ∏ j, ENNReal.ofReal (share vs[j].scale vs[j].lo vs[j].hi (a i j) (b i j)) := by
  have hpure : pureType (vs.map Kind.real) = some .real := by
    cases vs with
    | nil => exact absurd rfl hne
    | cons v vs =>
      have : (vs.map Kind.real).all (fun k' => k'.vtype == (Kind.real v).vtype) = true := by
        rw [List.all_eq_true]
        intro k hk
        obtain ⟨w, _, rfl⟩ := List.mem_map.1 hk
        rfl
      exact if_pos this
  have hset : {U : Fin N → Fin vs.length → ℝ | (∀ i j, 0 ≤ U i j ∧ U i j ≤ 1) ∧
        ∀ (i : Fin N) (j : Fin vs.length), ∃ x,
          ((sampleRaw (matrixRng U) fresh seed (vs.map Kind.real) N ()).1[i.1]?).bind (fun row => row[j.1]?) =
            some (some (.real x)) ∧ a i j ≤ x ∧ x ≤ b i j} =
      Set.pi Set.univ (fun i => Set.pi Set.univ (fun j =>
        {u : ℝ | 0 ≤ u ∧ u ≤ 1 ∧ ∃ x, vs[j].sample u = some x ∧ a i j ≤ x ∧ x ≤ b i j})) := by
    ext U
    simp only [Set.mem_ofPred_eq, Set.mem_pi, Set.mem_univ, true_imp_iff]
    have hcell : ∀ (i : Fin N) (j : Fin vs.length),
        ((sampleRaw (matrixRng U) fresh seed (vs.map Kind.real) N ()).1[i.1]?).bind (fun row => row[j.1]?) =
          some ((vs[j].sample (U i j)).map Val.real) := by
      intro i j
      have hk : (vs.map Kind.real)[j.1]? = some (.real vs[j]) := by simp
      rw [(c55_real_draws_partial (matrixRng U) fresh seed _ hpure N ()).2 i.1 j.1 _ i.2 hk]
      simp [matrixRng, Kind.ofUniform]
    constructor
    · rintro ⟨h1, h2⟩ i j
      obtain ⟨x, hx, h3⟩ := h2 i j
      rw [hcell] at hx
      refine ⟨(h1 i j).1, (h1 i j).2, x, ?_, h3⟩
      cases hs : vs[j].sample (U i j) with
      | none => rw [hs] at hx; simp at hx
      | some y => rw [hs] at hx; simp at hx; rw [hx]
    · intro h
      refine ⟨fun i j => ⟨(h i j).1, (h i j).2.1⟩, fun i j => ?_⟩
      obtain ⟨_, _, x, hx, h3⟩ := h i j
      exact ⟨x, by rw [hcell, hx]; rfl, h3⟩
  rw [hset, volume_pi_pi]
  refine Finset.prod_congr rfl fun i _ => ?_
  rw [volume_pi_pi]
  refine Finset.prod_congr rfl fun j _ => ?_
  have hm : vs[j] ∈ vs := List.getElem_mem j.2
  exact c147_real_share_partial vs[j] (hp _ hm) (hr _ hm) (hprec _ hm) _ _ (hab i j).1 (hab i j).2.1 (hab i j).2.2

/-! ## Real variables with a precision -/

private theorem rint_close (y : ℝ) : |y - rint y| ≤ 1 / 2 := by
  rw [abs_sub_comm]
  exact rint_spec y

private theorem rint_of_close {y : ℝ} {n : ℤ} (h : |y - n| < 1 / 2) : rint y = n := by
  have h1 := rint_close y
  have : |((rint y : ℤ) : ℝ) - n| < 1 := by
    calc |((rint y : ℤ) : ℝ) - n| = |(y - n) - (y - rint y)| := by ring_nf
      _ ≤ |y - n| + |y - rint y| := abs_sub _ _
      _ < 1 := by linarith
  have h3 : |rint y - n| < 1 := by exact_mod_cast this
  have := Int.abs_lt_one_iff.1 h3
  omega

/-- C147 for a real variable with precision `p` whose bounds are on the grid of that precision: a value `r` of the
grid is drawn with the share of the numbers of the range that are nearest to it. -/
theorem c147_precision_share_partial (v : RealVar) (hp : Proper (.real v)) (hr : Regular (.real v)) (p : ℤ)
    (hprec : v.precision = some p) (l h n : ℤ) (hl : v.lo = l / (10 : ℝ) ^ p) (hh : v.hi = h / (10 : ℝ) ^ p)
    (hn : l ≤ n ∧ n ≤ h) :
    volume {u : ℝ | 0 ≤ u ∧ u ≤ 1 ∧ v.sample u = some (n / (10 : ℝ) ^ p)} =
      ENNReal.ofReal (share v.scale v.lo v.hi
        (max v.lo ((n - 1 / 2) / (10 : ℝ) ^ p)) (min v.hi ((n + 1 / 2) / (10 : ℝ) ^ p))) := by
  have hT : (0 : ℝ) < (10 : ℝ) ^ p := zpow_pos (by norm_num) p
  set T := (10 : ℝ) ^ p with hTd
  have hround : ∀ x, v.round x = clip v.lo v.hi ((rint (x * T) : ℝ) / T) := fun x => by
    unfold RealVar.round npRound; rw [hprec]
  have hln : (l : ℝ) ≤ n := by exact_mod_cast hn.1
  have hnh : (n : ℝ) ≤ h := by exact_mod_cast hn.2
  have hlh : (l : ℝ) / T < h / T := by rw [← hl, ← hh]; exact hp.1
  have key : ∀ x, v.lo ≤ x → x ≤ v.hi → (l ≤ rint (x * T) ∧ rint (x * T) ≤ h) ∧
      v.round x = (rint (x * T) : ℝ) / T := by
    intro x h1 h2
    have hc := abs_le.1 (rint_close (x * T))
    have h1' : (l : ℝ) ≤ x * T := by rw [hl, div_le_iff₀ hT] at h1; exact h1
    have h2' : x * T ≤ (h : ℝ) := by rw [hh, le_div_iff₀ hT] at h2; exact h2
    have h3 : l ≤ rint (x * T) := by
      by_contra hc'
      have : (rint (x * T) : ℝ) ≤ l - 1 := by exact_mod_cast (by omega : rint (x * T) ≤ l - 1)
      linarith
    have h4 : rint (x * T) ≤ h := by
      by_contra hc'
      have : (h : ℝ) + 1 ≤ rint (x * T) := by exact_mod_cast (by omega : h + 1 ≤ rint (x * T))
      linarith
    refine ⟨⟨h3, h4⟩, ?_⟩
    rw [hround]
    unfold clip
    have h5 : v.lo ≤ (rint (x * T) : ℝ) / T := by
      rw [hl]; exact div_le_div_of_nonneg_right (by exact_mod_cast h3) hT.le
    have h6 : (rint (x * T) : ℝ) / T ≤ v.hi := by
      rw [hh]; exact div_le_div_of_nonneg_right (by exact_mod_cast h4) hT.le
    rw [max_eq_left h5, min_eq_left h6]
  have hmm : max v.lo ((n - 1 / 2) / T) ≤ min v.hi ((n + 1 / 2) / T) := by
    rw [hl, hh]
    refine max_le (le_min hlh.le ?_) (le_min ?_ ?_) <;> apply div_le_div_of_nonneg_right _ hT.le <;> linarith
  have huniq : ∀ {u x x' : ℝ}, (v.lo ≤ x ∧ x ≤ v.hi) → (v.lo ≤ x' ∧ x' ≤ v.hi) →
      axis v.scale x = axis v.scale v.lo + u * (axis v.scale v.hi - axis v.scale v.lo) →
      axis v.scale x' = axis v.scale v.lo + u * (axis v.scale v.hi - axis v.scale v.lo) → x = x' := by
    intro u x x' hx hx' h1 h2
    exact le_antisymm ((axis_le_iff hp hr hx hx').1 (by rw [h1, h2]))
      ((axis_le_iff hp hr hx' hx).1 (by rw [h1, h2]))
  apply measure_between hp hr _ (le_max_left _ _) hmm (min_le_left _ _)
  · rintro u ⟨h0, h1, hs⟩
    refine ⟨h0, h1, fun x hx haxx => ?_⟩
    obtain ⟨x', hx', hs', haxx'⟩ := sample_point hp hr h0 h1
    have := huniq hx hx' haxx haxx'
    subst this
    rw [hs', (key x hx.1 hx.2).2] at hs
    have hq := Option.some.inj hs
    rw [div_left_inj' hT.ne'] at hq
    have hc := abs_le.1 (rint_close (x * T))
    rw [hq] at hc
    refine ⟨max_le hx.1 ?_, le_min hx.2 ?_⟩
    · rw [div_le_iff₀ hT]; linarith
    · rw [le_div_iff₀ hT]; linarith
  · intro u h0 h1 x hx haxx h2 h3
    obtain ⟨x', hx', hs', haxx'⟩ := sample_point hp hr h0 h1
    have := huniq hx hx' haxx haxx'
    subst this
    refine ⟨h0, h1, ?_⟩
    have h4 := (le_max_right v.lo ((n - 1 / 2) / T)).trans_lt h2
    have h5 := h3.trans_le (min_le_right v.hi ((n + 1 / 2) / T))
    rw [div_lt_iff₀ hT] at h4
    rw [lt_div_iff₀ hT] at h5
    have : |x * T - n| < 1 / 2 := by rw [abs_lt]; constructor <;> linarith
    rw [hs', (key x hx.1 hx.2).2, rint_of_close this]

/-- C147 is false for a variable with a precision: of the three values 0, 1, 2 of a variable on `[0, 2]` with
precision 0, the one in the middle is drawn with probability 1/2, each end with probability 1/4. -/
theorem c147_precision_ends_half :
    let v : RealVar := { lo := 0, hi := 2, precision := some 0 }
    volume {u : ℝ | 0 ≤ u ∧ u ≤ 1 ∧ v.sample u = some 0} = ENNReal.ofReal (1 / 4) ∧
    volume {u : ℝ | 0 ≤ u ∧ u ≤ 1 ∧ v.sample u = some 1} = ENNReal.ofReal (1 / 2) ∧
    volume {u : ℝ | 0 ≤ u ∧ u ≤ 1 ∧ v.sample u = some 2} = ENNReal.ofReal (1 / 4) := by
  intro v
  have hp : Proper (.real v) := ⟨by norm_num [v], trivial, trivial⟩
  have hr : Regular (.real v) := fun h => by cases h
  have key := fun (n : ℤ) hn => c147_precision_share_partial v hp hr 0 rfl 0 2 n (by simp [v]) (by simp [v]) hn
  have h0 := key 0 (by norm_num)
  have h1 := key 1 (by norm_num)
  have h2 := key 2 (by norm_num)
  refine ⟨?_, ?_, ?_⟩
  · rw [show (0 : ℝ) = ((0 : ℤ) : ℝ) / (10 : ℝ) ^ (0 : ℤ) by norm_num]
    refine Eq.trans ?_ (h0.trans ?_)
    · norm_num
    · congr 1; norm_num [share, axis, v]
  · rw [show (1 : ℝ) = ((1 : ℤ) : ℝ) / (10 : ℝ) ^ (0 : ℤ) by norm_num]
    refine Eq.trans ?_ (h1.trans ?_)
    · norm_num
    · congr 1; norm_num [share, axis, v]
  · rw [show (2 : ℝ) = ((2 : ℤ) : ℝ) / (10 : ℝ) ^ (0 : ℤ) by norm_num]
    refine Eq.trans ?_ (h2.trans ?_)
    · norm_num
    · congr 1; norm_num [share, axis, v]

/-! ## Integer and categorical variables -/

/-- What the next theorems ask of a variable: an integer step, and no level twice. -/
def Plain : Kind → Prop
  | .integer v => ∃ z : ℤ, v.step = z
  | .ordinal l => l.Nodup
  | .discrete l => l.Nodup
  | _ => True

private theorem once_of_nodup {l : List Lvl} (hl : l.Nodup) {x : Lvl} (hx : x ∈ l) :
    ∃! i, i < l.length ∧ (l[i]?).map Val.lvl = some (.lvl x) := by
  obtain ⟨i, hi, rfl⟩ := List.mem_iff_getElem.1 hx
  refine ⟨i, ⟨hi, by rw [List.getElem?_eq_getElem hi]; rfl⟩, ?_⟩
  rintro j ⟨hj, h⟩
  rw [List.getElem?_eq_getElem hj] at h
  simp only [Option.map_some, Option.some.injEq, Val.lvl.injEq] at h
  exact (List.Nodup.getElem_inj_iff hl).1 h

private theorem levels_mem {k : Kind} {x : Lvl} (hk : k.vtype ≠ .real) (hi : k.vtype ≠ .integer) :
    Possible k (.lvl x) ↔ x ∈ k.levels := by
  cases k with
  | real v => exact absurd rfl hk
  | integer v => exact absurd rfl hi
  | ordinal l => rfl
  | discrete l => rfl
  | bool => simp [Possible, Kind.levels]
  | subset b =>
    simp only [Possible, Kind.levels]
    rw [mem_dedupLevels, List.mem_map]
    constructor
    · rintro ⟨t, rfl, h1, h2⟩
      exact ⟨t, ((c56_subset_levels b).1 t).2 ⟨h1, h2⟩, rfl⟩
    · rintro ⟨t, h, rfl⟩
      obtain ⟨h1, h2⟩ := ((c56_subset_levels b).1 t).1 h
      exact ⟨t, rfl, h1, h2⟩

private theorem levels_nodup {k : Kind} (h : Plain k) (hk : k.vtype ≠ .real) (hi : k.vtype ≠ .integer) :
    k.levels.Nodup := by
  cases k with
  | real v => exact absurd rfl hk
  | integer v => exact absurd rfl hi
  | ordinal l => exact h
  | discrete l => exact h
  | bool => simp [Kind.levels]
  | subset b => exact dedupLevels_nodup _

/-- C147 for one integer or categorical variable: each possible value belongs to exactly one of the positions
`0, …, size - 1` from which numpy draws, and each position to a possible value.  All values are therefore equally
likely. -/
theorem c147_value_once_partial (k : Kind) (hk : k.vtype ≠ .real) (hp : Proper k) (hr : Regular k) (hpl : Plain k) :
    (∀ x, Possible k x → ∃! i, i < k.size ∧ k.ofDraw i = some x) ∧
    ∀ i < k.size, ∃ x, k.ofDraw i = some x ∧ Possible k x := by
  have hlev : k.vtype ≠ .integer → k.size = k.levels.length ∧ ∀ i, k.ofDraw i = (k.levels[i]?).map Val.lvl := by
    intro hi
    cases k with
    | real v => exact absurd rfl hk
    | integer v => exact absurd rfl hi
    | ordinal l => exact ⟨rfl, fun _ => rfl⟩
    | discrete l => exact ⟨rfl, fun _ => rfl⟩
    | bool => exact ⟨rfl, fun _ => rfl⟩
    | subset b => exact ⟨rfl, fun _ => rfl⟩
  by_cases hi : k.vtype = .integer
  · cases k with
    | integer v =>
      obtain ⟨hlt, hs⟩ := hp
      obtain ⟨⟨lo, hlo⟩, h, hhi⟩ := hr
      obtain ⟨st, hst⟩ := hpl
      have hst0 : 0 < st := by rw [hst] at hs; exact_mod_cast hs
      have hq : 0 ≤ (v.hi - v.lo) / v.step := div_nonneg (by linarith) hs.le
      have hpos : 0 < v.size := by
        unfold IntVar.size
        have := Int.floor_nonneg.2 hq
        omega
      have htr : ∀ i : ℕ, v.sample i = some (lo + i * st) := by
        intro i
        unfold IntVar.sample
        rw [if_pos hpos, hlo, hst]
        congr 1
        have : (lo : ℝ) + ((i : ℤ) : ℝ) * (st : ℝ) = ((lo + i * st : ℤ) : ℝ) := by push_cast; ring
        rw [this]
        unfold trunc
        split_ifs
        · exact Int.floor_intCast _
        · exact Int.ceil_intCast _
      have hsize : ∀ i : ℕ, i < v.size.toNat ↔ v.lo + i * v.step ≤ v.hi := by
        intro i
        have : i < v.size.toNat ↔ (i : ℤ) ≤ ⌊(v.hi - v.lo) / v.step⌋ := by
          unfold IntVar.size at hpos ⊢
          omega
        rw [this, Int.le_floor, le_div_iff₀ hs]
        push_cast
        constructor <;> intro h <;> linarith
      constructor
      · intro x hx
        cases x with
        | int z =>
          obtain ⟨n, hn, hz⟩ := hx
          have hzn : z = lo + n * st := by rw [hlo, hst] at hn; exact_mod_cast hn
          refine ⟨n, ⟨(hsize n).2 (by rw [← hn]; exact hz), ?_⟩, ?_⟩
          · show (v.sample n).map Val.int = _
            rw [htr, hzn]
            rfl
          · rintro j ⟨_, hj⟩
            have hj : (v.sample j).map Val.int = _ := hj
            rw [htr] at hj
            simp only [Option.map_some, Option.some.injEq, Val.int.injEq] at hj
            rw [hzn] at hj
            have : (j : ℤ) * st = n * st := by linarith
            have := mul_right_cancel₀ hst0.ne' this
            exact_mod_cast this
        | real _ => exact absurd hx (by simp [Possible])
        | lvl _ => exact absurd hx (by simp [Possible])
      · intro i hi
        refine ⟨.int (lo + i * st), ?_, i, ?_, ?_⟩
        · show (v.sample i).map Val.int = _
          rw [htr]
          rfl
        · rw [hlo, hst]; push_cast; ring
        · have := (hsize i).1 hi
          rw [hlo, hst] at this
          push_cast
          exact this
    | _ => cases hi
  · obtain ⟨h1, h2⟩ := hlev hi
    rw [h1]
    constructor
    · intro x hx
      cases x with
      | lvl x =>
        simp only [h2]
        exact once_of_nodup (levels_nodup hpl hk hi) ((levels_mem hk hi).1 hx)
      | real _ => cases k <;> simp [Possible] at hx
      | int _ =>
        cases k with
        | integer v => exact absurd rfl hi
        | _ => simp [Possible] at hx
    · intro i hi'
      refine ⟨.lvl k.levels[i], ?_, (levels_mem hk hi).2 (List.getElem_mem hi')⟩
      rw [h2, List.getElem?_eq_getElem hi']
      rfl

/-- A generator whose successive calls of `randint` return the columns of `D`. -/
def columnRng (D : ℕ → ℕ → ℕ) : Rng ℕ where
  uniform g _ _ := (fun _ _ => 0, g)
  randint g _ _ := (fun i => D i g, g + 1)
  seed _ := 0

private theorem after_column (D : ℕ → ℕ → ℕ) (N : ℕ) : ∀ (l : List ℕ) (g : ℕ),
    afterDraws (columnRng D) g N l = g + l.length
  | [], g => rfl
  | _ :: l, g => by
    have := after_column D N l (g + 1)
    show afterDraws (columnRng D) (g + 1) N l = _
    rw [this, List.length_cons]
    omega

/-- C147 for a space of variables of one integer or categorical type: every table of `N` points with possible values
comes from exactly one table of draws.  All such tables are therefore equally likely: the points are independent,
their coordinates are independent, and every value of a variable has the same probability. -/
theorem c147_discrete_joint_partial (ks : List Kind) (τ : VType) (hpure : pureType ks = some τ) (hτ : τ ≠ .real)
    (hk : ∀ k ∈ ks, k.vtype = τ ∧ Proper k ∧ Regular k ∧ Plain k) (fresh : VType → ℕ) (seed : Option ℕ) (N : ℕ)
    (T : Fin N → Fin ks.length → Val) (hT : ∀ i j, Possible ks[j] (T i j)) :
    ∃! D : Fin N → (j : Fin ks.length) → Fin ks[j].size, ∀ (i : Fin N) (j : Fin ks.length),
      ((sampleRaw (columnRng fun i' j' => if h : i' < N ∧ j' < ks.length then (D ⟨i', h.1⟩ ⟨j', h.2⟩).1 else 0)
        fresh seed ks N 0).1[i.1]?).bind (fun row => row[j.1]?) = some (some (T i j)) := by
  have hcell : ∀ (D : Fin N → (j : Fin ks.length) → Fin ks[j].size) (i : Fin N) (j : Fin ks.length),
      ((sampleRaw (columnRng fun i' j' => if h : i' < N ∧ j' < ks.length then (D ⟨i', h.1⟩ ⟨j', h.2⟩).1 else 0)
        fresh seed ks N 0).1[i.1]?).bind (fun row => row[j.1]?) = some (ks[j].ofDraw (D i j).1) := by
    intro D i j
    have hg : ks[j.1]? = some ks[j] := List.getElem?_eq_getElem j.2
    rw [(c55_discrete_draws_partial (columnRng _) fresh seed ks τ hpure hτ N 0).2 i.1 j.1 _ i.2 hg]
    rw [after_column]
    have : ((ks.take j.1).map Kind.size).length = j.1 := by simp
    rw [this]
    simp [columnRng]
  have honce : ∀ (i : Fin N) (j : Fin ks.length), ∃! n, n < ks[j].size ∧ ks[j].ofDraw n = some (T i j) := by
    intro i j
    obtain ⟨h1, h2, h3, h4⟩ := hk ks[j] (List.getElem_mem j.2)
    exact (c147_value_once_partial ks[j] (by rw [h1]; exact hτ) h2 h3 h4).1 _ (hT i j)
  choose f hf huniq using honce
  refine ⟨fun i j => ⟨f i j, (hf i j).1⟩, ?_, ?_⟩
  · intro i j
    refine (hcell (fun i j => ⟨f i j, (hf i j).1⟩) i j).trans ?_
    exact congrArg some (hf i j).2
  · intro D hD
    funext i j
    apply Fin.ext
    refine huniq i j _ ⟨(D i j).2, ?_⟩
    have := hD i j
    rw [hcell] at this
    exact Option.some.inj this

/-! ## Mixed spaces with a seed -/

/-- C147 is false for a space that has a seed and variables of two types: each type starts again from the seed, so an
integer and an ordinal variable with the same number of values always stand at the same position.  Of the `n²`
combinations only `n` can occur, whatever the seed and the generator. -/
theorem c147_seeded_types_linked {G : Type*} (rng : Rng G) (fresh : VType → G) (s : ℕ) (v : IntVar) (l : List Lvl)
    (hsize : v.size.toNat = l.length) (N : ℕ) (g : G) (row : List (Option Val))
    (hrow : row ∈ (sampleRaw rng fresh (some s) [.integer v, .ordinal l] N g).1) :
    ∃ n : ℕ, row = [(v.sample n).map Val.int, (l[n]?).map Val.lvl] := by
  have hp : pureType [.integer v, .ordinal l] = none := by
    unfold pureType
    simp [Kind.vtype]
  have hids : ∀ τ, typeIds [.integer v, .ordinal l] τ =
      if τ = .integer then [0] else if τ = .ordinal then [1] else [] := by
    intro τ
    cases τ <;> simp [typeIds, List.range_succ, Kind.vtype]
  unfold sampleRaw at hrow
  rw [hp] at hrow
  simp only [List.isEmpty_cons, Bool.false_eq_true, if_false] at hrow
  simp only [supportedTypes, List.foldl_cons, List.foldl_nil, groupStep, hids, reduceCtorEq, if_false, if_true,
    List.isEmpty_nil, List.isEmpty_cons, Bool.false_eq_true] at hrow
  unfold toRows at hrow
  obtain ⟨i, _, rfl⟩ := List.mem_map.1 hrow
  refine ⟨(rng.randint (rng.seed s) l.length (max N 1)).1 i, ?_⟩
  simp [List.range_succ, assignCols, sampleGroup, discCols, reseed, Kind.ofDraw, Kind.size, Kind.levels, hsize]

/-! ## Cases that meet the hypotheses -/

/-- A log-scaled variable on `[1, 100]`: half of the samples lie below 10. -/
example : volume {u : ℝ | 0 ≤ u ∧ u ≤ 1 ∧ ∃ x,
    ({ lo := 1, hi := 100, scale := .log10 } : RealVar).sample u = some x ∧ 1 ≤ x ∧ x ≤ 10} =
      ENNReal.ofReal (1 / 2) := by
  rw [c147_real_share_partial { lo := 1, hi := 100, scale := .log10 }
    ⟨by norm_num, by simp [scaleDomain], by simp [scaleDomain]⟩ (fun h => by cases h) rfl 1 10 (le_refl _)
    (by norm_num) (by norm_num)]
  congr 1
  have h10 : Real.log 10 ≠ 0 := (Real.log_pos (by norm_num)).ne'
  have : Real.log 100 = 2 * Real.log 10 := by
    rw [show (100 : ℝ) = 10 ^ 2 by norm_num, Real.log_pow]
    norm_num
  simp only [share, axis, this, Real.log_one, sub_zero]
  field_simp

/-- Two real variables on different scales. -/
example : ∀ v ∈ ([{ lo := -5, hi := 5 }, { lo := 1, hi := 100, scale := .log10 }] : List RealVar),
    Proper (.real v) ∧ Regular (.real v) ∧ v.precision = none := by
  intro v hv
  simp only [List.mem_cons, List.not_mem_nil, or_false] at hv
  rcases hv with rfl | rfl
  · exact ⟨⟨by norm_num, trivial, trivial⟩, (fun h => by cases h), rfl⟩
  · exact ⟨⟨by norm_num, by simp [scaleDomain], by simp [scaleDomain]⟩, (fun h => by cases h), rfl⟩

/-- Two integer variables, one with step 2. -/
example : pureType [.integer { lo := 0, hi := 5 }, .integer { lo := -4, hi := 4, step := 2 }] = some .integer ∧
    ∀ k ∈ ([.integer { lo := 0, hi := 5 }, .integer { lo := -4, hi := 4, step := 2 }] : List Kind),
      k.vtype = .integer ∧ Proper k ∧ Regular k ∧ Plain k := by
  refine ⟨by simp [pureType, Kind.vtype], ?_⟩
  intro k hk
  simp only [List.mem_cons, List.not_mem_nil, or_false] at hk
  rcases hk with rfl | rfl
  · exact ⟨rfl, ⟨by norm_num, by norm_num⟩, ⟨⟨0, by norm_num⟩, 5, by norm_num⟩, 1, by norm_num⟩
  · exact ⟨rfl, ⟨by norm_num, by norm_num⟩, ⟨⟨-4, by norm_num⟩, 4, by norm_num⟩, 2, by norm_num⟩

/-- An integer variable with three values beside an ordinal one with three levels. -/
example : ({ lo := 0, hi := 2 } : IntVar).size.toNat =
    [Lvl.one (.str "a"), Lvl.one (.str "b"), Lvl.one (.str "c")].length := by
  simp [IntVar.size]

end Verif.Props
