import Verif.Model.Scores
import Verif.Spec.Scores
import Mathlib.Algebra.BigOperators.Ring.List
import Mathlib.Algebra.Order.BigOperators.Group.List
import Mathlib.Tactic.LinearCombination
import Mathlib.Tactic.FieldSimp

/-!
# C131: accuracy scores
-/
namespace Verif.Props

open Verif.Model Verif.Spec

private theorem scoreMean_eq {l : List ℝ} (h : l ≠ []) : scoreMean l = some (average l) := by
  simp [scoreMean, average, h]

private theorem scoreVar_eq {l : List ℝ} (h : l ≠ []) : scoreVar l = some (populationVariance l) := by
  simp only [scoreVar, scoreMean_eq h, Option.bind_some, populationVariance]
  exact scoreMean_eq (by simpa using h)

private theorem sum_nonneg' {l : List ℝ} (h : ∀ x ∈ l, 0 ≤ x) : 0 ≤ l.sum := List.sum_nonneg h

private theorem sum_eq_zero' {l : List ℝ} (h : ∀ x ∈ l, 0 ≤ x) (hs : l.sum = 0) : ∀ x ∈ l, x = 0 := by
  induction l with
  | nil => simp
  | cons a l ih =>
    have h1 : 0 ≤ a := h a (by simp)
    have h2 := List.sum_nonneg (l := l) fun x hx => h x (by simp [hx])
    rw [List.sum_cons] at hs
    intro x hx
    rcases List.mem_cons.1 hx with rfl | hx
    · linarith
    · exact ih (fun y hy => h y (by simp [hy])) (by linarith) x hx

private theorem length_pos' {l : List ℝ} (h : l ≠ []) : (0 : ℝ) < l.length := by
  exact_mod_cast List.length_pos_of_ne_nil h

private theorem notConstant_ne_nil {l : List ℝ} (h : NotConstant l) : l ≠ [] := by
  obtain ⟨a, ha, -⟩ := h
  exact List.ne_nil_of_mem ha

private theorem variance_pos {l : List ℝ} (h : NotConstant l) : 0 < populationVariance l := by
  have hn : ∀ x ∈ l.map fun y => (y - average l) ^ 2, 0 ≤ x := by
    intro x hx
    obtain ⟨y, -, rfl⟩ := List.mem_map.1 hx
    positivity
  have hl := length_pos' (notConstant_ne_nil h)
  unfold populationVariance
  have h0 : 0 ≤ average (l.map fun y => (y - average l) ^ 2) := by
    unfold average
    exact div_nonneg (List.sum_nonneg hn) (Nat.cast_nonneg _)
  refine lt_of_le_of_ne h0 fun e => ?_
  have hs : (l.map fun y => (y - average l) ^ 2).sum = 0 := by
    have e' := e.symm
    unfold average at e'
    rw [List.length_map] at e'
    rcases div_eq_zero_iff.1 e' with h | h
    · exact h
    · exact absurd h hl.ne'
  have hz := sum_eq_zero' hn hs
  obtain ⟨a, ha, b, hb, hab⟩ := h
  have e1 := hz _ (List.mem_map_of_mem (f := fun y => (y - average l) ^ 2) ha)
  have e2 := hz _ (List.mem_map_of_mem (f := fun y => (y - average l) ^ 2) hb)
  have e1' : a - average l = 0 := by simpa using e1
  have e2' : b - average l = 0 := by simpa using e2
  exact hab (by linarith)

private theorem squaredErrors_eq {test pred : List ℝ} (h : test.length ≤ pred.length) :
    squaredErrors test pred = some (List.zipWith (fun t p => (p - t) ^ 2) test pred) := by
  induction test generalizing pred with
  | nil => simp [squaredErrors]
  | cons t ts ih =>
    cases pred with
    | nil => simp at h
    | cons p ps => simp [squaredErrors, ih (by simpa using h)]

private theorem smse_eq {test pred : List ℝ} (hc : NotConstant test) (hl : test.length = pred.length) :
    smse test pred = some (averageSquaredError test pred / populationVariance test) := by
  have hn := (notConstant_ne_nil hc)
  have hz : List.zipWith (fun t p : ℝ => (p - t) ^ 2) test pred ≠ [] := by
    intro e
    have := congrArg List.length e
    rw [List.length_zipWith, ← hl, Nat.min_self] at this
    exact hn (List.length_eq_zero_iff.1 this)
  simp only [smse, scoreVar_eq hn, squaredErrors_eq hl.le, scoreMean_eq hz, Option.bind_some, scoreDiv,
    if_neg (variance_pos hc).ne', averageSquaredError]

private theorem zip_sq_zero {test pred : List ℝ} (hl : test.length = pred.length) :
    (∀ x ∈ List.zipWith (fun t p : ℝ => (p - t) ^ 2) test pred, x = 0) ↔ pred = test := by
  induction test generalizing pred with
  | nil => cases pred <;> simp_all
  | cons t ts ih =>
    cases pred with
    | nil => simp at hl
    | cons p ps =>
      simp only [List.zipWith_cons_cons, List.mem_cons, forall_eq_or_imp, ih (by simpa using hl), List.cons.injEq]
      simp [sub_eq_zero]

/-- **C131, SMSE.**  For targets that are not all equal the score is the mean squared error divided by the variance of the targets.  It is never
negative, and zero exactly for predictions without error. -/
theorem c131_smse (test pred : List ℝ) (hc : NotConstant test) (hl : test.length = pred.length) :
    ∃ s, smse test pred = some s ∧ s = averageSquaredError test pred / populationVariance test ∧ 0 ≤ s ∧ (s = 0 ↔ pred = test) := by
  have hz : ∀ x ∈ List.zipWith (fun t p : ℝ => (p - t) ^ 2) test pred, 0 ≤ x := by
    intro x hx
    obtain ⟨i, hi⟩ := List.mem_iff_getElem?.1 hx
    rw [List.getElem?_zipWith] at hi
    cases ht : test[i]? with
    | none => simp [ht] at hi
    | some t =>
      cases hq : pred[i]? with
      | none => simp [ht, hq] at hi
      | some p =>
        simp only [ht, hq, Option.some.injEq] at hi
        rw [← hi]; positivity
  have hv := variance_pos hc
  have hlen : (List.zipWith (fun t p : ℝ => (p - t) ^ 2) test pred).length = test.length := by
    rw [List.length_zipWith, ← hl, Nat.min_self]
  have h0 : 0 ≤ averageSquaredError test pred := by
    unfold averageSquaredError average
    exact div_nonneg (List.sum_nonneg hz) (Nat.cast_nonneg _)
  refine ⟨_, smse_eq hc hl, rfl, div_nonneg h0 hv.le, ?_⟩
  rw [div_eq_zero_iff, or_iff_left hv.ne', ← zip_sq_zero hl]
  unfold averageSquaredError average
  rw [hlen, div_eq_zero_iff, or_iff_left (length_pos' (notConstant_ne_nil hc)).ne']
  exact ⟨sum_eq_zero' hz, fun h => List.sum_eq_zero h⟩

private theorem sum_shift (l : List ℝ) (m b : ℝ) :
    (l.map fun y => (b - y) ^ 2).sum = (l.map fun y => (y - m) ^ 2).sum + 2 * (m - b) * (l.sum - l.length * m) + l.length * (b - m) ^ 2 := by
  induction l with
  | nil => simp
  | cons a l ih => simp only [List.map_cons, List.sum_cons, ih, List.length_cons]; push_cast; ring

private theorem zipWith_const (f : ℝ → ℝ → ℝ) (l : List ℝ) (b : ℝ) :
    List.zipWith f l (List.replicate l.length b) = l.map fun y => f y b := by
  induction l with
  | nil => rfl
  | cons a l ih => simp [List.replicate_succ, ih]

/-- **C131, SMSE is standardised.**  Predicting one number for every target scores one plus its squared distance from the mean of the targets in
units of their variance: one for the mean, more for any other number. -/
theorem c131_smse_constant (test : List ℝ) (hc : NotConstant test) (b : ℝ) :
    smse test (List.replicate test.length b) = some (1 + (b - average test) ^ 2 / populationVariance test) ∧
      (smse test (List.replicate test.length b) = some 1 ↔ b = average test) := by
  have hv := variance_pos hc
  have hl := length_pos' (notConstant_ne_nil hc)
  have h1 : smse test (List.replicate test.length b) = some (1 + (b - average test) ^ 2 / populationVariance test) := by
    rw [smse_eq hc (by simp)]
    congr 1
    have e : averageSquaredError test (List.replicate test.length b) = populationVariance test + (b - average test) ^ 2 := by
      unfold averageSquaredError populationVariance
      rw [zipWith_const]
      have hm : test.sum - test.length * average test = 0 := by
        unfold average; field_simp; ring
      have := sum_shift test (average test) b
      rw [hm, mul_zero, add_zero] at this
      generalize average test = m at this ⊢
      unfold average
      rw [List.length_map, List.length_map, this, add_div, mul_div_cancel_left₀ _ hl.ne']
    rw [e]
    field_simp
  refine ⟨h1, ?_⟩
  rw [h1, Option.some.injEq]
  constructor
  · intro h
    have : (b - average test) ^ 2 / populationVariance test = 0 := by linarith
    rcases div_eq_zero_iff.1 this with h | h
    · have := pow_eq_zero_iff (two_ne_zero) |>.1 h; linarith
    · exact absurd h hv.ne'
  · intro h; simp [h]

private theorem average_map (l : List ℝ) (h : l ≠ []) (a b : ℝ) : average (l.map fun y => a * y + b) = a * average l + b := by
  have hl := length_pos' h
  have : (l.map fun y => a * y + b).sum = a * l.sum + l.length * b := by
    clear h hl
    induction l with
    | nil => simp
    | cons c l ih => simp only [List.map_cons, List.sum_cons, ih, List.length_cons]; push_cast; ring
  unfold average
  rw [List.length_map, this]
  field_simp

private theorem average_scale (l : List ℝ) (a : ℝ) : average (l.map fun y => a * y) = a * average l := by
  unfold average
  rw [List.length_map, List.sum_map_mul_left, List.map_id', mul_div_assoc]

private theorem variance_map (l : List ℝ) (h : l ≠ []) (a b : ℝ) :
    populationVariance (l.map fun y => a * y + b) = a ^ 2 * populationVariance l := by
  unfold populationVariance
  rw [average_map l h, List.map_map, ← average_scale (l.map fun y => (y - average l) ^ 2), List.map_map]
  congr 1
  refine List.map_congr_left fun y _ => ?_
  simp only [Function.comp]
  ring

private theorem notConstant_map {l : List ℝ} (h : NotConstant l) {a : ℝ} (ha : a ≠ 0) (b : ℝ) : NotConstant (l.map fun y => a * y + b) := by
  obtain ⟨u, hu, v, hv, huv⟩ := h
  refine ⟨_, List.mem_map_of_mem hu, _, List.mem_map_of_mem hv, fun e => huv ?_⟩
  have : a * u = a * v := by linarith
  exact mul_left_cancel₀ ha this

/-- **C131, SMSE does not depend on the units** of the target. -/
theorem c131_smse_units (test pred : List ℝ) (hc : NotConstant test) (hl : test.length = pred.length) (a b : ℝ) (ha : a ≠ 0) :
    smse (test.map fun y => a * y + b) (pred.map fun y => a * y + b) = smse test pred := by
  rw [smse_eq hc hl, smse_eq (notConstant_map hc ha b) (by simpa using hl), variance_map _ (notConstant_ne_nil hc)]
  have : averageSquaredError (test.map fun y => a * y + b) (pred.map fun y => a * y + b) = a ^ 2 * averageSquaredError test pred := by
    unfold averageSquaredError
    rw [← average_scale]
    congr 1
    clear hc
    induction test generalizing pred with
    | nil => simp
    | cons t ts ih =>
      cases pred with
      | nil => simp
      | cons p ps =>
        simp only [List.map_cons, List.zipWith_cons_cons, ih ps (by simpa using hl)]
        congr 1
        ring
  have hv := (variance_pos hc).ne'
  rw [this]
  congr 1
  have : a ^ 2 ≠ 0 := pow_ne_zero 2 ha
  field_simp

private theorem loss_eq (m V t p v : ℝ) (hV : 0 < V) (hv : 0 < v) : lossDifference m V t p v = logLoss p v t - logLoss m V t := by
  have key : ∀ q w : ℝ, 0 < w → logLoss q w t = 1 / 2 * Real.log (2 * Real.pi * w) + (t - q) ^ 2 / (2 * w) := by
    intro q w hw
    have hp : 0 < 2 * Real.pi * w := by have := Real.pi_pos; positivity
    unfold logLoss normalDensity
    rw [Real.log_mul (inv_ne_zero (Real.sqrt_pos.2 hp).ne') (Real.exp_pos _).ne', Real.log_inv, Real.log_exp, Real.log_sqrt hp.le]
    ring
  rw [lossDifference, key p v hv, key m V hV]

private theorem msllLoop_eq (m V : ℝ) (hV : 0 < V) (test pred variances : List ℝ) (h1 : variances.length ≤ test.length)
    (h2 : variances.length ≤ pred.length) (hp : ∀ v ∈ variances, 0 < v) :
    msllLoop m V test pred variances =
      (some (List.zipWith (fun t q => logLoss q.1 q.2 t - logLoss m V t) test (pred.zip variances)), variances) := by
  induction variances generalizing test pred with
  | nil => simp [msllLoop]
  | cons v vs ih =>
    cases test with
    | nil => simp at h1
    | cons t ts =>
      cases pred with
      | nil => simp at h2
      | cons p ps =>
        have hv := hp v (by simp)
        have hh : hackedVariance v = v := if_neg hv.ne'
        simp only [msllLoop, hh, ih ts ps (by simpa using h1) (by simpa using h2) fun w hw => hp w (by simp [hw]), Option.map_some,
          List.zip_cons_cons, List.zipWith_cons_cons, loss_eq m V t p v hV hv]

private theorem msll_eq (train test pred variances : List ℝ) (hc : NotConstant train) (hn : variances ≠ []) (h1 : variances.length ≤ test.length)
    (h2 : variances.length ≤ pred.length) (hp : ∀ v ∈ variances, 0 < v) :
    msll train test pred variances = (some (average (List.zipWith (fun t q => logLoss q.1 q.2 t - logLoss (average train) (populationVariance train) t)
      test (pred.zip variances))), variances) := by
  have hV := variance_pos hc
  have hz : List.zipWith (fun t q => logLoss q.1 q.2 t - logLoss (average train) (populationVariance train) t) test (pred.zip variances) ≠ [] := by
    intro e
    have := congrArg List.length e
    rw [List.length_zipWith, List.length_zip] at this
    have := List.length_pos_of_ne_nil hn
    simp only [List.length_nil] at *
    omega
  simp only [msll, scoreMean_eq (notConstant_ne_nil hc), scoreVar_eq (notConstant_ne_nil hc), msllLoop_eq _ _ hV test pred variances h1 h2 hp, if_neg hV.ne',
    Option.bind_some, scoreMean_eq hz]

/-- **C131, MSLL.**  For training targets that are not all equal and positive variances the score is the average over the targets of the log loss of the
predicted normal distribution less that of the normal distribution with the mean and variance of the training targets; the variances
are left as they were. -/
theorem c131_msll_partial (train test pred variances : List ℝ) (hc : NotConstant train) (hn : variances ≠ []) (h1 : variances.length = test.length)
    (h2 : variances.length = pred.length) (hp : ∀ v ∈ variances, 0 < v) :
    msll train test pred variances = (some (average (List.zipWith (fun t q => logLoss q.1 q.2 t - logLoss (average train) (populationVariance train) t)
      test (pred.zip variances))), variances) :=
  msll_eq train test pred variances hc hn h1.le h2.le hp

/-- **C131, MSLL is standardised.**  Predicting the mean and variance of the training targets everywhere scores zero. -/
theorem c131_msll_trivial (train test : List ℝ) (hc : NotConstant train) (hn : test ≠ []) :
    (msll train test (List.replicate test.length (average train)) (List.replicate test.length (populationVariance train))).1 = some 0 := by
  rw [msll_eq train test _ _ hc (by simpa using hn) (by simp) (by simp) (by simp [variance_pos hc])]
  have : List.zipWith (fun t (q : ℝ × ℝ) => logLoss q.1 q.2 t - logLoss (average train) (populationVariance train) t) test
      ((List.replicate test.length (average train)).zip (List.replicate test.length (populationVariance train))) = test.map fun _ => 0 := by
    clear hn
    generalize average train = m
    generalize populationVariance train = V
    induction test with
    | nil => rfl
    | cons t ts ih =>
      simp only [List.length_cons, List.replicate_succ, List.zip_cons_cons, List.zipWith_cons_cons, List.map_cons, ih, sub_self]
  rw [this]
  simp [average]

private theorem best_variance {e v : ℝ} (he : e ≠ 0) (hv : 0 < v) (t p : ℝ) (h : t - p = e) : logLoss p (e ^ 2) t ≤ logLoss p v t := by
  have he2 : 0 < e ^ 2 := by positivity
  have key : ∀ w : ℝ, 0 < w → logLoss p w t = 1 / 2 * Real.log (2 * Real.pi * w) + e ^ 2 / (2 * w) := by
    intro w hw
    have hp : 0 < 2 * Real.pi * w := by have := Real.pi_pos; positivity
    unfold logLoss normalDensity
    rw [Real.log_mul (inv_ne_zero (Real.sqrt_pos.2 hp).ne') (Real.exp_pos _).ne', Real.log_inv, Real.log_exp, Real.log_sqrt hp.le, h]
    ring
  rw [key _ he2, key _ hv]
  have h2p : (2 * Real.pi : ℝ) ≠ 0 := by have := Real.pi_pos; positivity
  rw [Real.log_mul h2p he2.ne', Real.log_mul h2p hv.ne']
  have hl := Real.log_le_sub_one_of_pos (div_pos he2 hv)
  rw [Real.log_div he2.ne' hv.ne'] at hl
  have e1 : e ^ 2 / (2 * e ^ 2) = 1 / 2 := by field_simp
  have e2 : e ^ 2 / (2 * v) = 1 / 2 * (e ^ 2 / v) := by field_simp
  rw [e1, e2]
  linarith

private theorem zipWith_sum_le {β γ : Type*} (f : ℝ → β → ℝ) (g : ℝ → γ → ℝ) (test : List ℝ) (l : List β) (l' : List γ) (hl : l.length = l'.length)
    (h : ∀ (i : ℕ) (t : ℝ) (b : β) (c : γ), test[i]? = some t → l[i]? = some b → l'[i]? = some c → f t b ≤ g t c) :
    (List.zipWith f test l).sum ≤ (List.zipWith g test l').sum := by
  induction test generalizing l l' with
  | nil => simp
  | cons t ts ih =>
    cases l with
    | nil => cases l' <;> simp_all
    | cons b bs =>
      cases l' with
      | nil => simp at hl
      | cons c cs =>
        simp only [List.zipWith_cons_cons, List.sum_cons]
        exact add_le_add (h 0 t b c rfl rfl rfl) (ih bs cs (by simpa using hl) fun i t' b' c' h1 h2 h3 => h (i + 1) t' b' c' h1 h2 h3)

/-- **C131, MSLL rewards accuracy and honest variances.**  With the same variances, predictions that are at least as close to every target do not
score more; with the same predictions, no variances score less than the squared errors (where these are not zero). -/
theorem c131_msll_order (train test pred variances : List ℝ) (hc : NotConstant train) (hn : variances ≠ []) (h1 : variances.length = test.length)
    (h2 : variances.length = pred.length) (hp : ∀ v ∈ variances, 0 < v) :
    (∀ pred', pred'.length = pred.length → (∀ (i : ℕ) t p p', test[i]? = some t → pred[i]? = some p → pred'[i]? = some p' → |t - p'| ≤ |t - p|) →
      ∃ s s', (msll train test pred variances).1 = some s ∧ (msll train test pred' variances).1 = some s' ∧ s' ≤ s) ∧
    ((∀ (i : ℕ) t p, test[i]? = some t → pred[i]? = some p → t ≠ p) →
      ∃ s s', (msll train test pred variances).1 = some s ∧
        (msll train test pred (List.zipWith (fun t p => (t - p) ^ 2) test pred)).1 = some s' ∧ s' ≤ s) := by
  have hlen : ∀ {β : Type} (f : ℝ → β → ℝ) (l : List β), l.length = test.length → (List.zipWith f test l).length = test.length := by
    intro β f l hl
    rw [List.length_zipWith, hl, Nat.min_self]
  have havg : ∀ l l' : List ℝ, l.length = l'.length → l.sum ≤ l'.sum → average l ≤ average l' := by
    intro l l' hl hs
    unfold average
    rw [hl]
    exact div_le_div_of_nonneg_right hs (Nat.cast_nonneg _)
  constructor
  · intro pred' hl' hcl
    rw [msll_eq train test pred variances hc hn h1.le h2.le hp, msll_eq train test pred' variances hc hn h1.le (by omega) hp]
    refine ⟨_, _, rfl, rfl, havg _ _ ?_ (zipWith_sum_le _ _ _ _ _ ?_ ?_)⟩
    · rw [hlen _ _ (by rw [List.length_zip]; omega), hlen _ _ (by rw [List.length_zip]; omega)]
    · rw [List.length_zip, List.length_zip]; omega
    · intro i t b b' ht hb hb'
      obtain ⟨q, w⟩ := b
      obtain ⟨q', w'⟩ := b'
      rw [List.getElem?_zip_eq_some] at hb hb'
      have hw : w = w' := Option.some.inj (hb.2.symm.trans hb'.2)
      subst hw
      have hwp := hp w (List.mem_of_getElem? hb.2)
      have hq : |t - q| ≤ |t - q'| := hcl i t q' q ht hb'.1 hb.1
      have hsq : (t - q) ^ 2 ≤ (t - q') ^ 2 := sq_le_sq.2 hq
      have key : ∀ z : ℝ, logLoss z w t = 1 / 2 * Real.log (2 * Real.pi * w) + (t - z) ^ 2 / (2 * w) := by
        intro z
        have hp : 0 < 2 * Real.pi * w := by have := Real.pi_pos; positivity
        unfold logLoss normalDensity
        rw [Real.log_mul (inv_ne_zero (Real.sqrt_pos.2 hp).ne') (Real.exp_pos _).ne', Real.log_inv, Real.log_exp, Real.log_sqrt hp.le]
        ring
      simp only [key]
      have : (t - q) ^ 2 / (2 * w) ≤ (t - q') ^ 2 / (2 * w) := by gcongr
      linarith
  · intro hne
    have hsq : ∀ v ∈ List.zipWith (fun t p : ℝ => (t - p) ^ 2) test pred, 0 < v := by
      intro v hv
      obtain ⟨i, hi⟩ := List.mem_iff_getElem?.1 hv
      rw [List.getElem?_zipWith] at hi
      cases ht : test[i]? with
      | none => simp [ht] at hi
      | some t =>
        cases hq : pred[i]? with
        | none => simp [ht, hq] at hi
        | some p =>
          simp only [ht, hq, Option.some.injEq] at hi
          have := sub_ne_zero.2 (hne i t p ht hq)
          rw [← hi]; positivity
    have hl2 : (List.zipWith (fun t p : ℝ => (t - p) ^ 2) test pred).length = variances.length := by
      rw [List.length_zipWith]; omega
    have hn2 : List.zipWith (fun t p : ℝ => (t - p) ^ 2) test pred ≠ [] := by
      intro e
      rw [e] at hl2
      exact hn (List.length_eq_zero_iff.1 hl2.symm)
    rw [msll_eq train test pred variances hc hn h1.le h2.le hp, msll_eq train test pred _ hc hn2 (by omega) (by omega) hsq]
    refine ⟨_, _, rfl, rfl, havg _ _ ?_ (zipWith_sum_le _ _ _ _ _ ?_ ?_)⟩
    · rw [hlen _ _ (by rw [List.length_zip]; omega), hlen _ _ (by rw [List.length_zip]; omega)]
    · rw [List.length_zip, List.length_zip]; omega
    · intro i t b b' ht hb hb'
      obtain ⟨q, w⟩ := b
      obtain ⟨q', w'⟩ := b'
      rw [List.getElem?_zip_eq_some] at hb hb'
      have hq : q = q' := Option.some.inj (hb.1.symm.trans hb'.1)
      subst hq
      have hw : w = (t - q) ^ 2 := by
        have := hb.2
        simp only [List.getElem?_zipWith, ht, hb.1, Option.some.injEq] at this
        exact this.symm
      subst hw
      have := best_variance (sub_ne_zero.2 (hne i t q ht hb.1)) (hp w' (List.mem_of_getElem? hb'.2)) t q rfl
      simp only
      linarith

/-- **C131, refuted.**  A predicted variance of zero is overwritten in the array of the caller. -/
theorem c131_variances_refuted : (msll [0, 1] [0] [0] [0]).2 = [1 / 10000000] := by
  have h1 : scoreMean [0, 1] = some (1 / 2) := by rw [scoreMean_eq (by simp)]; norm_num [average]
  have h2 : scoreVar [0, 1] = some (1 / 4) := by rw [scoreVar_eq (by simp)]; norm_num [populationVariance, average]
  simp only [msll, h1, h2, msllLoop, hackedVariance]
  norm_num

/-- **C131, refuted.**  A predicted variance of zero makes the score depend on the units: in units ten times smaller, the same predictions
score differently. -/
theorem c131_units_refuted : ∃ s s', (msll [0, 1] [0] [0] [0]).1 = some s ∧ (msll [0, 10] [0] [0] [0]).1 = some s' ∧ s ≠ s' := by
  have h1 : scoreMean [0, 1] = some (1 / 2) := by rw [scoreMean_eq (by simp)]; norm_num [average]
  have h2 : scoreVar [0, 1] = some (1 / 4) := by rw [scoreVar_eq (by simp)]; norm_num [populationVariance, average]
  have h3 : scoreMean [0, 10] = some 5 := by rw [scoreMean_eq (by simp)]; norm_num [average]
  have h4 : scoreVar [0, 10] = some 25 := by rw [scoreVar_eq (by simp)]; norm_num [populationVariance, average]
  refine ⟨lossDifference (1 / 2) (1 / 4) 0 0 (1 / 10000000), lossDifference 5 25 0 0 (1 / 10000000), ?_, ?_, fun e => ?_⟩
  · simp only [msll, h1, h2, msllLoop, hackedVariance]; norm_num [scoreMean]
  · simp only [msll, h3, h4, msllLoop, hackedVariance]; norm_num [scoreMean]
  · unfold lossDifference at e
    have hpi := Real.pi_pos
    have hlt : Real.log (2 * Real.pi * (1 / 4)) < Real.log (2 * Real.pi * 25) :=
      Real.log_lt_log (by positivity) (by nlinarith)
    norm_num at e
    norm_num at hlt
    linarith

/-- Non-vacuity: targets that are not all equal, and positive variances. -/
example : NotConstant [0, 1, 3] ∧ ∀ v ∈ ([1, 2] : List ℝ), 0 < v := ⟨⟨0, by simp, 1, by simp, by norm_num⟩, by simp⟩

end Verif.Props
