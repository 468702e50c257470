import Verif.Model.Kernels
import Verif.Spec.Kernels
import Verif.Proofs.PosDefKernel
import Mathlib.Analysis.Calculus.Deriv.Abs

/-!
# Lemmas for the correlation functions
-/
namespace Verif.Proofs

open Verif.Model Verif.Spec

variable {n N : ℕ}

theorem weightedSum_eq {theta : List ℝ} {g : Fin n → ℝ} {s : ℝ} (h : weightedSum theta g = some s) :
    s = ∑ k : Fin n, thetaAt theta k.val * g k := by
  unfold weightedSum at h
  unfold thetaAt
  split_ifs at h with h1 h2
  · simp only [h1, if_true]
    rw [← Finset.mul_sum]
    exact (Option.some.inj h).symm
  · simp only [h1, if_false]
    exact (Option.some.inj h).symm

theorem weightedSum_isSome {theta : List ℝ} {g : Fin n → ℝ} :
    (weightedSum theta g).isSome ↔ theta.length = 1 ∨ theta.length = n := by
  unfold weightedSum
  split_ifs with h1 h2 <;> simp [*]

theorem getD_nonneg {theta : List ℝ} (h : ∀ t ∈ theta, 0 < t) (k : ℕ) : 0 ≤ theta.getD k 0 := by
  rw [List.getD_eq_getElem?_getD]
  cases e : theta[k]? with
  | none => simp
  | some v => simpa using (h v (List.mem_of_getElem? e)).le

theorem getD_pos {theta : List ℝ} (h : ∀ t ∈ theta, 0 < t) {k : ℕ} (hk : k < theta.length) : 0 < theta.getD k 0 := by
  rw [List.getD_eq_getElem?_getD, List.getElem?_eq_getElem hk]
  exact h _ (List.getElem_mem hk)

theorem thetaAt_nonneg {theta : List ℝ} (h : ∀ t ∈ theta, 0 < t) (k : ℕ) : 0 ≤ thetaAt theta k := by
  unfold thetaAt
  split_ifs
  · exact getD_nonneg h 0
  · exact getD_nonneg h k

theorem thetaAt_pos {theta : List ℝ} (h : ∀ t ∈ theta, 0 < t) (hl : theta.length = 1 ∨ theta.length = n) (k : Fin n) :
    0 < thetaAt theta k.val := by
  unfold thetaAt
  split_ifs with h1
  · exact getD_pos h (by omega)
  · exact getD_pos h (by have := k.2; omega)

/-! ### Values -/

theorem matern32_anti {a b : ℝ} (ha : 0 ≤ a) (hab : a ≤ b) : (1 + b) * Real.exp (-b) ≤ (1 + a) * Real.exp (-a) := by
  have h := Real.add_one_le_exp (b - a)
  have e : Real.exp (-a) = Real.exp (b - a) * Real.exp (-b) := by rw [← Real.exp_add]; congr 1; ring
  rw [e, ← mul_assoc]
  refine mul_le_mul_of_nonneg_right ?_ (Real.exp_pos _).le
  nlinarith [mul_le_mul_of_nonneg_left h (by linarith : (0 : ℝ) ≤ 1 + a), mul_nonneg ha (sub_nonneg.2 hab)]

theorem matern52_anti {a b : ℝ} (ha : 0 ≤ a) (hab : a ≤ b) :
    (1 + b + b ^ 2 / 3) * Real.exp (-b) ≤ (1 + a + a ^ 2 / 3) * Real.exp (-a) := by
  have hh : 0 ≤ b - a := sub_nonneg.2 hab
  have h := Real.quadratic_le_exp_of_nonneg hh
  have e : Real.exp (-a) = Real.exp (b - a) * Real.exp (-b) := by rw [← Real.exp_add]; congr 1; ring
  rw [e, ← mul_assoc]
  refine mul_le_mul_of_nonneg_right ?_ (Real.exp_pos _).le
  have h1 := mul_le_mul_of_nonneg_left h (by positivity : (0 : ℝ) ≤ 1 + a + a ^ 2 / 3)
  refine le_trans ?_ h1
  obtain ⟨t, rfl⟩ : ∃ t, b = a + t := ⟨b - a, by ring⟩
  have ht : 0 ≤ t := by linarith
  have : (1 + a + a ^ 2 / 3) * (1 + (a + t - a) + (a + t - a) ^ 2 / 2) - (1 + (a + t) + (a + t) ^ 2 / 3) =
      t ^ 2 / 6 + a * t / 3 + a * t ^ 2 / 2 + a ^ 2 / 3 * (t + t ^ 2 / 2) := by ring
  have : 0 ≤ t ^ 2 / 6 + a * t / 3 + a * t ^ 2 / 2 + a ^ 2 / 3 * (t + t ^ 2 / 2) := by positivity
  linarith

theorem maternValue_anti (nu : MaternNu) {a b : ℝ} (ha : 0 ≤ a) (hab : a ≤ b) : maternValue nu b ≤ maternValue nu a := by
  cases nu with
  | half => exact Real.exp_le_exp.2 (by linarith)
  | threeHalves => exact matern32_anti (by positivity) (mul_le_mul_of_nonneg_right hab (Real.sqrt_nonneg _))
  | fiveHalves => exact matern52_anti (by positivity) (mul_le_mul_of_nonneg_right hab (Real.sqrt_nonneg _))

theorem maternValue_zero (nu : MaternNu) : maternValue nu 0 = 1 := by
  cases nu <;> simp [maternValue]

theorem maternValue_nonneg (nu : MaternNu) {a : ℝ} (ha : 0 ≤ a) : 0 ≤ maternValue nu a := by
  cases nu <;> simp only [maternValue] <;> positivity

theorem cubicFactor_anti {a b : ℝ} (ha : 0 ≤ a) (hab : a ≤ b) : cubicFactor b ≤ cubicFactor a := by
  have key : ∀ s t : ℝ, 0 ≤ s → s ≤ t → t ≤ 1 → 1 - t ^ 2 * (3 - 2 * t) ≤ 1 - s ^ 2 * (3 - 2 * s) := by
    intro s t hs hst ht
    have e : t ^ 2 * (3 - 2 * t) - s ^ 2 * (3 - 2 * s) = (t - s) * (3 * (t + s) - 2 * (t ^ 2 + t * s + s ^ 2)) := by ring
    have h1 : 0 ≤ 3 * (t + s) - 2 * (t ^ 2 + t * s + s ^ 2) := by
      nlinarith [mul_nonneg hs (by linarith : (0:ℝ) ≤ 1 - s), mul_nonneg (le_trans hs hst) (by linarith : (0:ℝ) ≤ 1 - t),
        mul_nonneg hs (by linarith : (0:ℝ) ≤ 1 - t), mul_nonneg (le_trans hs hst) (by linarith : (0:ℝ) ≤ 1 - s)]
    have := mul_nonneg (sub_nonneg.2 hst) h1
    linarith
  unfold cubicFactor
  simp only
  split_ifs with h1 h2 h2
  · exact le_refl _
  · exact key a 1 ha (by linarith) (le_refl 1)
  · linarith
  · exact key a b ha hab (by linarith)

theorem cubicFactor_zero : cubicFactor 0 = 1 := by simp [cubicFactor]

theorem cubicFactor_nonneg {a : ℝ} (ha : 0 ≤ a) : 0 ≤ cubicFactor a := by
  have h := cubicFactor_anti ha (le_max_left a 2)
  have : cubicFactor (max a 2) = 0 := by
    unfold cubicFactor
    rw [if_pos (lt_of_lt_of_le (by norm_num) (le_max_right a 2))]
    norm_num
  linarith

/-- The value as a function of the parameters after broadcasting. -/
noncomputable def corrValue (name : CorrName) (theta : List ℝ) (d : Fin n → ℝ) : ℝ :=
  match name with
  | .absoluteExponential => Real.exp (-∑ k : Fin n, thetaAt theta k.val * |d k|)
  | .squaredExponential => Real.exp (-∑ k : Fin n, thetaAt theta k.val * d k ^ 2)
  | .generalizedExponential => Real.exp (-∑ k : Fin n, theta.getD k.val 0 * |d k| ^ (theta.getD n 0))
  | .cubic => ∏ k : Fin n, cubicFactor (|d k| * thetaAt theta k.val)
  | .matern nu => maternValue nu (Real.sqrt (∑ k : Fin n, thetaAt theta k.val * d k ^ 2))

theorem corr_eq {name : CorrName} {theta : List ℝ} {d : Fin n → ℝ} {v : ℝ} (h : corr name theta d = some v) :
    v = corrValue name theta d := by
  cases name with
  | absoluteExponential =>
    obtain ⟨s, hs, rfl⟩ := Option.map_eq_some_iff.1 h
    rw [weightedSum_eq hs]; rfl
  | squaredExponential =>
    obtain ⟨s, hs, rfl⟩ := Option.map_eq_some_iff.1 h
    rw [weightedSum_eq hs]; rfl
  | generalizedExponential =>
    simp only [corr, generalizedExponential] at h
    split_ifs at h
    exact (Option.some.inj h).symm
  | cubic =>
    simp only [corr, cubicValue] at h
    unfold corrValue thetaAt
    split_ifs at h with h1 h2
    · simp only [h1, if_true]; exact (Option.some.inj h).symm
    · simp only [h1, if_false]; exact (Option.some.inj h).symm
  | matern nu =>
    obtain ⟨s, hs, rfl⟩ := Option.map_eq_some_iff.1 h
    rw [weightedSum_eq hs]; rfl

/-- The number of parameters a correlation function takes for `n` coordinates. -/
theorem corr_isSome {name : CorrName} {theta : List ℝ} {d : Fin n → ℝ} :
    (corr name theta d).isSome ↔
      if name = .generalizedExponential then theta.length = n + 1 ∧ ¬ (1 < n ∧ theta.length = 2)
      else theta.length = 1 ∨ theta.length = n := by
  cases name with
  | absoluteExponential => simp [corr, weightedSum_isSome]
  | squaredExponential => simp [corr, weightedSum_isSome]
  | generalizedExponential =>
    simp only [corr, generalizedExponential, if_true]
    split_ifs with h1 h2 <;> simp_all
  | cubic =>
    simp only [corr, cubicValue, reduceCtorEq, if_false]
    split_ifs with h1 h2 <;> simp_all
  | matern nu => simp [corr, weightedSum_isSome]

theorem corrValue_anti (name : CorrName) {theta : List ℝ} (hp : ∀ t ∈ theta, 0 < t) {d e : Fin n → ℝ}
    (h : ∀ k, |d k| ≤ |e k|) : corrValue name theta e ≤ corrValue name theta d := by
  have hsq : ∀ k, d k ^ 2 ≤ e k ^ 2 := fun k => sq_le_sq.2 (h k)
  have hsum : ∑ k : Fin n, thetaAt theta k.val * d k ^ 2 ≤ ∑ k : Fin n, thetaAt theta k.val * e k ^ 2 :=
    Finset.sum_le_sum fun k _ => mul_le_mul_of_nonneg_left (hsq k) (thetaAt_nonneg hp _)
  cases name with
  | absoluteExponential =>
    exact Real.exp_le_exp.2 (neg_le_neg (Finset.sum_le_sum fun k _ => mul_le_mul_of_nonneg_left (h k) (thetaAt_nonneg hp _)))
  | squaredExponential => exact Real.exp_le_exp.2 (neg_le_neg hsum)
  | generalizedExponential =>
    refine Real.exp_le_exp.2 (neg_le_neg (Finset.sum_le_sum fun k _ => mul_le_mul_of_nonneg_left ?_ (getD_nonneg hp _)))
    exact Real.rpow_le_rpow (abs_nonneg _) (h k) (getD_nonneg hp _)
  | cubic =>
    refine Finset.prod_le_prod (fun k _ => cubicFactor_nonneg (mul_nonneg (abs_nonneg _) (thetaAt_nonneg hp _))) fun k _ => ?_
    exact cubicFactor_anti (mul_nonneg (abs_nonneg _) (thetaAt_nonneg hp _))
      (mul_le_mul_of_nonneg_right (h k) (thetaAt_nonneg hp _))
  | matern nu => exact maternValue_anti nu (Real.sqrt_nonneg _) (Real.sqrt_le_sqrt hsum)

theorem corrValue_zero (name : CorrName) {theta : List ℝ}
    (hp : name = .generalizedExponential → theta.getD n 0 ≠ 0) : corrValue (n := n) name theta 0 = 1 := by
  cases name with
  | generalizedExponential =>
    have : ∀ k : Fin n, theta.getD k.val 0 * |(0 : Fin n → ℝ) k| ^ theta.getD n 0 = 0 := by
      intro k
      rw [Pi.zero_apply, abs_zero, Real.zero_rpow (hp rfl), mul_zero]
    simp only [corrValue, this, Finset.sum_const_zero, neg_zero, Real.exp_zero]
  | absoluteExponential => simp [corrValue]
  | squaredExponential => simp [corrValue]
  | cubic => simp [corrValue, cubicFactor_zero]
  | matern nu => simp [corrValue, maternValue_zero]

theorem corrValue_nonneg (name : CorrName) {theta : List ℝ} (hp : ∀ t ∈ theta, 0 < t) (d : Fin n → ℝ) :
    0 ≤ corrValue name theta d := by
  cases name with
  | cubic => exact Finset.prod_nonneg fun k _ => cubicFactor_nonneg (mul_nonneg (abs_nonneg _) (thetaAt_nonneg hp _))
  | matern nu => exact maternValue_nonneg nu (Real.sqrt_nonneg _)
  | absoluteExponential => exact (Real.exp_pos _).le
  | squaredExponential => exact (Real.exp_pos _).le
  | generalizedExponential => exact (Real.exp_pos _).le

/-! ### The matrix -/

open Classical in
theorem foldl_setEntry {α : Type*} (f g : α → Fin N) (v : α → ℝ) (val : Fin N → Fin N → ℝ) (l : List α)
    (h : ∀ p ∈ l, v p = val (f p) (g p)) (R : Fin N → Fin N → ℝ) (a b : Fin N) :
    l.foldl (fun R p => setEntry R (f p) (g p) (v p)) R a b = if ∃ p ∈ l, f p = a ∧ g p = b then val a b else R a b := by
  induction l generalizing R with
  | nil => simp
  | cons p l ih =>
    rw [List.foldl_cons]
    have := ih (fun q hq => h q (List.mem_cons_of_mem _ hq)) (setEntry R (f p) (g p) (v p))
    rw [this]
    by_cases h1 : ∃ q ∈ l, f q = a ∧ g q = b
    · rw [if_pos h1, if_pos]
      obtain ⟨q, hq, e⟩ := h1
      exact ⟨q, List.mem_cons_of_mem _ hq, e⟩
    · rw [if_neg h1]
      by_cases h2 : f p = a ∧ g p = b
      · rw [if_pos ⟨p, List.mem_cons_self, h2⟩]
        obtain ⟨rfl, rfl⟩ := h2
        simp [setEntry, h p List.mem_cons_self]
      · rw [if_neg]
        · simp only [setEntry]
          rw [if_neg]
          rintro ⟨rfl, rfl⟩
          exact h2 ⟨rfl, rfl⟩
        · rintro ⟨q, hq, e⟩
          rcases List.mem_cons.1 hq with rfl | hq
          · exact h2 e
          · exact h1 ⟨q, hq, e⟩

theorem mem_crossPairs {p : Fin N × Fin N} : p ∈ crossPairs N ↔ p.1 < p.2 := by
  obtain ⟨i, j⟩ := p
  simp [crossPairs]

theorem correlationMatrix_apply (c : (Fin n → ℝ) → ℝ) (X : Fin N → Fin n → ℝ) (i j : Fin N) :
    correlationMatrix c X i j = if i = j then 1 else c (absDiff (X i) (X j)) := by
  classical
  have hsym : ∀ a b, c (absDiff (X a) (X b)) = c (absDiff (X b) (X a)) := by
    intro a b
    congr 1
    funext k
    exact abs_sub_comm _ _
  unfold correlationMatrix
  rw [foldl_setEntry (fun q : (Fin N × Fin N) × ℝ => q.1.2) (fun q => q.1.1) (fun q => q.2)
    (fun a b => c (absDiff (X a) (X b))), foldl_setEntry (fun q : (Fin N × Fin N) × ℝ => q.1.1) (fun q => q.1.2) (fun q => q.2)
    (fun a b => c (absDiff (X a) (X b)))]
  · rcases lt_trichotomy i j with h | h | h
    · rw [if_neg, if_pos, if_neg h.ne]
      · exact ⟨((i, j), _), List.mem_map.2 ⟨(i, j), mem_crossPairs.2 h, rfl⟩, rfl, rfl⟩
      · rintro ⟨q, hq, e1, e2⟩
        obtain ⟨p, hp, rfl⟩ := List.mem_map.1 hq
        have := mem_crossPairs.1 hp
        simp only at e1 e2
        rw [e1, e2] at this
        exact absurd h this.asymm
    · subst h
      rw [if_neg, if_neg]
      · rw [if_pos rfl, if_pos rfl]
      · rintro ⟨q, hq, e1, e2⟩
        obtain ⟨p, hp, rfl⟩ := List.mem_map.1 hq
        have := mem_crossPairs.1 hp
        simp only at e1 e2
        rw [e1, e2] at this
        exact lt_irrefl _ this
      · rintro ⟨q, hq, e1, e2⟩
        obtain ⟨p, hp, rfl⟩ := List.mem_map.1 hq
        have := mem_crossPairs.1 hp
        simp only at e1 e2
        rw [e1, e2] at this
        exact lt_irrefl _ this
    · rw [if_pos, if_neg h.ne']
      exact ⟨((j, i), _), List.mem_map.2 ⟨(j, i), mem_crossPairs.2 h, rfl⟩, rfl, rfl⟩
  · intro q hq
    obtain ⟨p, _, rfl⟩ := List.mem_map.1 hq
    rfl
  · intro q hq
    obtain ⟨p, _, rfl⟩ := List.mem_map.1 hq
    exact hsym _ _

/-! ### Positive semidefiniteness of the exponential and Matérn families -/

theorem sum_eq_sqDist (theta : List ℝ) (x y : Fin n → ℝ) :
    ∑ k : Fin n, thetaAt theta k.val * absDiff x y k ^ 2 = sqDist (fun k : Fin n => thetaAt theta k.val) x y := by
  unfold sqDist absDiff
  simp only [sq_abs]

theorem cnd_abs_rpow {ι : Type*} [Fintype ι] (z : ι → ℝ) {p : ℝ} (h0 : 0 < p) (h2 : p < 2) :
    Cnd (fun i j => |z i - z j| ^ p) := by
  have := cnd_dist (n := 1) (th := fun _ => 1) (fun _ => zero_le_one) (fun i _ => z i) (α := p / 2) (by linarith) (by linarith)
    (le_refl 0)
  have e : (fun i j => (sqDist (fun _ : Fin 1 => (1 : ℝ)) (fun _ => z i) (fun _ => z j) + 0) ^ (p / 2)) =
      fun i j => |z i - z j| ^ p := by
    funext i j
    simp only [sqDist, Finset.univ_unique, Fin.default_eq_zero, Finset.sum_singleton, one_mul, add_zero]
    rw [← sq_abs, ← Real.rpow_natCast, ← Real.rpow_mul (abs_nonneg _)]
    congr 1
    push_cast
    ring
  rwa [e] at this

theorem psd_corr {name : CorrName} {theta : List ℝ} (hp : ∀ t ∈ theta, 0 < t) (hc : name ≠ .cubic)
    (hg : name = .generalizedExponential → theta.length = n + 1 ∧ theta.getD n 0 ≤ 2) (X : Fin N → Fin n → ℝ) :
    Psd (fun i j => corrValue name theta (absDiff (X i) (X j))) := by
  have hnn : ∀ k : Fin n, 0 ≤ (fun k : Fin n => thetaAt theta k.val) k := fun k => thetaAt_nonneg hp _
  cases name with
  | cubic => exact absurd rfl hc
  | squaredExponential =>
    refine (psd_gauss hnn X (s := 1) zero_le_one).congr fun i j => ?_
    simp only [corrValue, sum_eq_sqDist, one_mul]
  | absoluteExponential =>
    refine (cnd_sum Finset.univ (fun k _ => (cnd_abs_rpow (fun i => X i k) (p := 1) (by norm_num) (by norm_num)).smul
      (hnn k))).exp_neg.congr fun i j => ?_
    simp only [corrValue, absDiff, abs_abs, Real.rpow_one]
  | generalizedExponential =>
    obtain ⟨hl, h2⟩ := hg rfl
    have h0 : 0 < theta.getD n 0 := getD_pos hp (by omega)
    have hk : ∀ k : Fin n, 0 ≤ theta.getD k.val 0 := fun k => getD_nonneg hp _
    rcases h2.lt_or_eq with h2 | h2
    · refine (cnd_sum Finset.univ (fun k _ => (cnd_abs_rpow (fun i => X i k) h0 h2).smul (hk k))).exp_neg.congr fun i j => ?_
      simp only [corrValue, absDiff, abs_abs]
    · refine (psd_gauss hk X (s := 1) zero_le_one).congr fun i j => ?_
      simp only [corrValue, absDiff, abs_abs, h2, one_mul, sqDist]
      congr 2
      refine Finset.sum_congr rfl fun k _ => ?_
      rw [Real.rpow_two, sq_abs]
  | matern nu =>
    have e3 : ∀ u : ℝ, 0 ≤ u → ∀ a : ℝ, 0 ≤ a → Real.sqrt u * Real.sqrt a = Real.sqrt (u * a) := fun u hu a _ =>
      (Real.sqrt_mul hu a).symm
    have hs : ∀ a : ℝ, ∀ i j, sqDist (fun k : Fin n => thetaAt theta k.val) (X i) (X j) * a =
        sqDist (fun k : Fin n => thetaAt theta k.val * a) (X i) (X j) := by
      intro a i j
      unfold sqDist
      rw [Finset.sum_mul]
      exact Finset.sum_congr rfl fun k _ => by ring
    cases nu with
    | half =>
      refine (psd_exp_sqrt hnn X (v := 0) (le_refl 0)).congr fun i j => ?_
      simp only [corrValue, maternValue, sum_eq_sqDist, add_zero]
    | threeHalves =>
      refine (psd_matern32 (th := fun k : Fin n => thetaAt theta k.val * 3) (fun k => mul_nonneg (hnn k) (by norm_num)) X
        (v := 0) (le_refl 0)).congr fun i j => ?_
      simp only [corrValue, maternValue, sum_eq_sqDist, add_zero]
      rw [← hs, e3 _ (sqDist_nonneg hnn _ _) 3 (by norm_num)]
    | fiveHalves =>
      refine (psd_matern52 (th := fun k : Fin n => thetaAt theta k.val * 5) (fun k => mul_nonneg (hnn k) (by norm_num)) X).congr
        fun i j => ?_
      simp only [corrValue, maternValue, sum_eq_sqDist]
      rw [← hs, e3 _ (sqDist_nonneg hnn _ _) 5 (by norm_num)]

/-! ### Derivatives -/

theorem hasDerivAt_scaledSum (theta : List ℝ) (x y : Fin n → ℝ) (k : Fin n) :
    HasDerivAt (fun t => ∑ l : Fin n, thetaAt theta l.val * absDiff (Function.update x k t) y l ^ 2)
      (2 * (thetaAt theta k.val * (x k - y k))) (x k) := by
  have h : ∀ l ∈ Finset.univ, HasDerivAt (fun t => thetaAt theta l.val * absDiff (Function.update x k t) y l ^ 2)
      (if l = k then 2 * (thetaAt theta k.val * (x k - y k)) else 0) (x k) := by
    intro l _
    simp only [absDiff, sq_abs]
    by_cases e : l = k
    · subst e
      simp only [Function.update_self, if_true]
      have := (((hasDerivAt_id (x l)).sub_const (y l)).pow 2).const_mul (thetaAt theta l.val)
      refine this.congr_deriv ?_
      simp; ring
    · simp only [Function.update_of_ne e, if_neg e]
      exact hasDerivAt_const _ _
  have := HasDerivAt.fun_sum h
  simpa using this

theorem hasDerivAt_matern32 {s : ℝ} (hs : 0 < s) :
    HasDerivAt (fun s => maternValue .threeHalves (Real.sqrt s)) (-(3 / 2) * Real.exp (-(Real.sqrt 3 * Real.sqrt s))) s := by
  have h3 : Real.sqrt 3 * Real.sqrt 3 = 3 := Real.mul_self_sqrt (by norm_num)
  have hr : Real.sqrt s ≠ 0 := (Real.sqrt_pos.2 hs).ne'
  have h1 := ((hasDerivAt_id s).sqrt hs.ne').mul_const (Real.sqrt 3)
  have := (h1.const_add 1).mul h1.neg.exp
  unfold maternValue
  refine this.congr_deriv ?_
  simp only [id, Pi.neg_apply]
  rw [mul_comm (Real.sqrt 3) (Real.sqrt s)]
  field_simp
  linear_combination (-Real.sqrt s) * h3

end Verif.Proofs
