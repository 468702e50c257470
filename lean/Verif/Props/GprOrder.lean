import Verif.Proofs.GprOrder
import Verif.Proofs.QrExists
import Verif.Props.Likelihood
import Verif.Props.Trend

/-!
# C177: the Gaussian process does not depend on how the data are written down
-/
namespace Verif.Props

open Matrix Verif.Model Verif.Spec Verif.Proofs

variable {n N k : ℕ}

/-! ### The basis functions of the trend -/

private noncomputable def pad (x : Fin n → ℝ) : ℕ → ℝ := fun i => (List.ofFn x).getD i 0

private theorem pad_lt (x : Fin n → ℝ) {i : ℕ} (h : i < n) : pad x i = x ⟨i, h⟩ := by
  simp [pad, h]

private theorem basis_monomials (kind : TrendKind) (n : ℕ) :
    ∃ ms : Fin (trendDim kind n) → Monomial, Function.Injective ms ∧ (∀ p, (ms p).belongs kind n) ∧
      (∀ m, m.belongs kind n → ∃ p, ms p = m) ∧ ∀ (x : Fin n → ℝ) p, trendBasis kind x p = (ms p).eval (pad x) := by
  obtain ⟨l, hnd, hmem, hlen, hrow⟩ := c41_basis (K := ℝ) kind n
  refine ⟨fun p => l.get (p.cast hlen.symm), fun p q h => ?_, fun p => (hmem _).1 (List.get_mem _ _), fun m hm => ?_, fun x p => ?_⟩
  · have := (List.nodup_iff_injective_get.1 hnd) h
    exact Fin.cast_injective _ this
  · obtain ⟨i, hi⟩ := List.get_of_mem ((hmem m).2 hm)
    exact ⟨i.cast hlen, hi⟩
  · have h1 := hrow ⟨1, n, [List.ofFn x]⟩ ⟨rfl, rfl, by simp⟩
    have h2 : trendRow kind n (List.ofFn x) = l.map (Monomial.eval (fun i => (List.ofFn x).getD i 0)) := by
      simpa [trendF, checkInput] using h1
    have hp : p.val < l.length := by rw [hlen]; exact p.isLt
    unfold trendBasis
    rw [h2, List.getD_eq_getElem?_getD, List.getElem?_map, List.getElem?_eq_getElem hp]
    rfl

/-- The coefficient of a monomial, from values of the polynomial. -/
private noncomputable def coefficientOf (m : Monomial) (g : (ℕ → ℝ) → ℝ) : ℝ :=
  match m with
  | .one => g 0
  | .lin i => (g (Pi.single i 1) - g (Pi.single i (-1))) / 2
  | .quad i j => if i = j then (g (Pi.single i 1) + g (Pi.single i (-1))) / 2 - g 0
      else g (Pi.single i 1 + Pi.single j 1) - g (Pi.single i 1) - g (Pi.single j 1) + g 0

private theorem coefficient_sum {d : ℕ} (m : Monomial) (c : Fin d → ℝ) (g : Fin d → (ℕ → ℝ) → ℝ) :
    coefficientOf m (fun x => ∑ p, c p * g p x) = ∑ p, c p * coefficientOf m (g p) := by
  cases m with
  | one => rfl
  | lin i =>
    simp only [coefficientOf]
    rw [← Finset.sum_sub_distrib, Finset.sum_div]
    exact Finset.sum_congr rfl fun p _ => by ring
  | quad i j =>
    simp only [coefficientOf]
    split_ifs
    · rw [← Finset.sum_add_distrib, Finset.sum_div, ← Finset.sum_sub_distrib]
      exact Finset.sum_congr rfl fun p _ => by ring
    · rw [← Finset.sum_sub_distrib, ← Finset.sum_sub_distrib, ← Finset.sum_add_distrib]
      exact Finset.sum_congr rfl fun p _ => by ring

private theorem coefficient_monomial (kind : TrendKind) (n : ℕ) (m m' : Monomial) (hm : m.belongs kind n) (hm' : m'.belongs kind n) :
    coefficientOf m (fun x => m'.eval x) = if m' = m then 1 else 0 := by
  cases m with
  | one => cases m' <;> simp [coefficientOf, Monomial.eval]
  | lin i =>
    cases m' with
    | one => simp [coefficientOf, Monomial.eval]
    | lin a =>
      by_cases h : a = i
      · subst h; simp [coefficientOf, Monomial.eval]
      · simp [coefficientOf, Monomial.eval, h]
    | quad a b =>
      simp only [coefficientOf, Monomial.eval, Pi.single_apply]
      split_ifs <;> simp_all
  | quad i j =>
    have hij : i ≤ j := hm.2.1
    cases m' with
    | one => simp only [coefficientOf, Monomial.eval]; split_ifs <;> simp_all
    | lin a =>
      simp only [coefficientOf, Monomial.eval, Pi.single_apply, Pi.add_apply, Pi.zero_apply]
      split_ifs <;> simp_all
    | quad a b =>
      have hab : a ≤ b := hm'.2.1
      simp only [coefficientOf, Monomial.eval, Pi.single_apply, Pi.add_apply, Pi.zero_apply, Monomial.quad.injEq]
      split_ifs <;> first | omega | norm_num

private theorem basis_independent (kind : TrendKind) (n : ℕ) (c : Fin (trendDim kind n) → ℝ)
    (h : ∀ x : Fin n → ℝ, c ⬝ᵥ trendBasis kind x = 0) : c = 0 := by
  obtain ⟨ms, hinj, hbel, -, hev⟩ := basis_monomials kind n
  funext q
  have hz : ∀ x : ℕ → ℝ, ∑ p, c p * (ms p).eval x = 0 := by
    intro x
    rw [← h (fun i => x i.val)]
    refine Finset.sum_congr rfl fun p _ => ?_
    rw [hev]
    congr 1
    have hb := hbel p
    cases hm : ms p with
    | one => rfl
    | lin i =>
      rw [hm] at hb
      simp only [Monomial.eval, pad_lt _ hb.2]
    | quad i j =>
      rw [hm] at hb
      simp only [Monomial.eval, pad_lt _ hb.2.2, pad_lt _ (lt_of_le_of_lt hb.2.1 hb.2.2)]
  have h1 := coefficient_sum (ms q) c (fun p x => (ms p).eval x)
  rw [Finset.sum_eq_single q] at h1
  · rw [coefficient_monomial kind n _ _ (hbel q) (hbel q), if_pos rfl, mul_one] at h1
    rw [← h1]
    have e : (fun x => ∑ p, c p * (ms p).eval x) = fun _ => (0 : ℝ) := funext hz
    rw [e]
    cases ms q <;> simp [coefficientOf]
  · intro p _ hp
    rw [coefficient_monomial kind n _ _ (hbel q) (hbel p), if_neg (fun h => hp (hinj h)), mul_zero]
  · simp

private theorem basis_span (kind : TrendKind) (m : Monomial) (hm : m.belongs kind n) (τ : Equiv.Perm (Fin n)) (s t : Fin n → ℝ) :
    ∃ c : Fin (trendDim kind n) → ℝ, ∀ x : Fin n → ℝ, m.eval (pad (inCoordinates τ s t x)) = c ⬝ᵥ trendBasis kind x := by
  obtain ⟨ms, hinj, hbel, hall, hev⟩ := basis_monomials kind n
  have hmono : ∀ m' : Monomial, m'.belongs kind n → ∃ c : Fin (trendDim kind n) → ℝ,
      ∀ x : Fin n → ℝ, m'.eval (pad x) = c ⬝ᵥ trendBasis kind x := by
    intro m' hm'
    obtain ⟨p, rfl⟩ := hall m' hm'
    exact ⟨Pi.single p 1, fun x => by rw [single_dotProduct, one_mul, hev]⟩
  obtain ⟨c1, h1⟩ := hmono .one trivial
  have hone : ∀ x : Fin n → ℝ, c1 ⬝ᵥ trendBasis kind x = 1 := fun x => (h1 x).symm
  have hlin : kind ≠ .constant → ∀ i : Fin n, ∃ c : Fin (trendDim kind n) → ℝ, ∀ x : Fin n → ℝ, x i = c ⬝ᵥ trendBasis kind x := by
    intro hk i
    obtain ⟨c, hc⟩ := hmono (.lin i.val) ⟨hk, i.isLt⟩
    exact ⟨c, fun x => by rw [← hc]; simp only [Monomial.eval, pad_lt x i.isLt]⟩
  have hquad : kind = .quadratic → ∀ i j : Fin n, ∃ c : Fin (trendDim kind n) → ℝ,
      ∀ x : Fin n → ℝ, x i * x j = c ⬝ᵥ trendBasis kind x := by
    intro hk i j
    rcases le_total i j with hij | hij
    · obtain ⟨c, hc⟩ := hmono (.quad i.val j.val) ⟨hk, hij, j.isLt⟩
      exact ⟨c, fun x => by rw [← hc]; simp only [Monomial.eval, pad_lt x i.isLt, pad_lt x j.isLt]⟩
    · obtain ⟨c, hc⟩ := hmono (.quad j.val i.val) ⟨hk, hij, i.isLt⟩
      exact ⟨c, fun x => by rw [← hc]; simp only [Monomial.eval, pad_lt x i.isLt, pad_lt x j.isLt]; ring⟩
  cases m with
  | one => exact ⟨c1, fun x => (hone x).symm⟩
  | lin i =>
    obtain ⟨c, hc⟩ := hlin hm.1 (τ ⟨i, hm.2⟩)
    refine ⟨s ⟨i, hm.2⟩ • c + t ⟨i, hm.2⟩ • c1, fun x => ?_⟩
    simp only [Monomial.eval, pad_lt _ hm.2, inCoordinates]
    rw [add_dotProduct, smul_dotProduct, smul_dotProduct, ← hc, hone]
    simp
  | quad i j =>
    have hj : j < n := hm.2.2
    have hi : i < n := lt_of_le_of_lt hm.2.1 hj
    have hk : kind ≠ .constant := by rw [hm.1]; decide
    obtain ⟨ci, hci⟩ := hlin hk (τ ⟨i, hi⟩)
    obtain ⟨cj, hcj⟩ := hlin hk (τ ⟨j, hj⟩)
    obtain ⟨cq, hcq⟩ := hquad hm.1 (τ ⟨i, hi⟩) (τ ⟨j, hj⟩)
    refine ⟨(s ⟨i, hi⟩ * s ⟨j, hj⟩) • cq + (s ⟨i, hi⟩ * t ⟨j, hj⟩) • ci + (t ⟨i, hi⟩ * s ⟨j, hj⟩) • cj +
      (t ⟨i, hi⟩ * t ⟨j, hj⟩) • c1, fun x => ?_⟩
    simp only [Monomial.eval, pad_lt _ hi, pad_lt _ hj, inCoordinates]
    rw [add_dotProduct, add_dotProduct, add_dotProduct, smul_dotProduct, smul_dotProduct, smul_dotProduct, smul_dotProduct, ← hci, ← hcj,
      ← hcq, hone]
    simp only [smul_eq_mul]
    ring

private theorem basis_matrix (kind : TrendKind) (τ : Equiv.Perm (Fin n)) (s t : Fin n → ℝ) :
    ∃ C : Matrix (Fin (trendDim kind n)) (Fin (trendDim kind n)) ℝ,
      ∀ x : Fin n → ℝ, trendBasis kind (inCoordinates τ s t x) = C *ᵥ trendBasis kind x := by
  obtain ⟨ms, hinj, hbel, hall, hev⟩ := basis_monomials kind n
  choose c hc using fun p => basis_span kind (ms p) (hbel p) τ s t
  refine ⟨of c, fun x => ?_⟩
  funext p
  rw [hev, hc]
  rfl

private theorem coordinates_back (τ : Equiv.Perm (Fin n)) (s t : Fin n → ℝ) (hs : ∀ i, s i ≠ 0) (x : Fin n → ℝ) :
    inCoordinates τ s t (inCoordinates τ⁻¹ (fun i => (s (τ⁻¹ i))⁻¹) (fun i => -(t (τ⁻¹ i) / s (τ⁻¹ i))) x) = x := by
  funext i
  have := hs i
  have e : τ⁻¹ (τ i) = i := by simp
  simp only [inCoordinates, e]
  field_simp
  ring

private theorem basis_change (kind : TrendKind) (τ : Equiv.Perm (Fin n)) (s t : Fin n → ℝ) (hs : ∀ i, s i ≠ 0) :
    ∃ A B : Matrix (Fin (trendDim kind n)) (Fin (trendDim kind n)) ℝ, A * B = 1 ∧
      ∀ x : Fin n → ℝ, trendBasis kind (inCoordinates τ s t x) = Aᵀ *ᵥ trendBasis kind x := by
  obtain ⟨C, hC⟩ := basis_matrix kind τ s t
  obtain ⟨D, hD⟩ := basis_matrix kind τ⁻¹ (fun i => (s (τ⁻¹ i))⁻¹) (fun i => -(t (τ⁻¹ i) / s (τ⁻¹ i)))
  have hCD : C * D = 1 := by
    ext p q
    have h0 := basis_independent kind n ((C * D - 1) p) (fun x => by
      have h1 : (C * D) *ᵥ trendBasis kind x = trendBasis kind x := by
        rw [← mulVec_mulVec, ← hD, ← hC, coordinates_back τ s t hs]
      have h2 : ((C * D - 1) *ᵥ trendBasis kind x) p = 0 := by rw [sub_mulVec, h1, one_mulVec, sub_self]; rfl
      exact h2)
    have := congrFun h0 q
    rw [Matrix.sub_apply, Pi.zero_apply, sub_eq_zero] at this
    exact this
  refine ⟨Cᵀ, Dᵀ, ?_, fun x => by rw [transpose_transpose, hC]⟩
  rw [← transpose_mul, mul_eq_one_comm.1 hCD, transpose_one]

/-! ### The correlations -/

private theorem absDiff_coordinates (τ : Equiv.Perm (Fin n)) (s t x y : Fin n → ℝ) (i : Fin n) :
    absDiff (inCoordinates τ s t x) (inCoordinates τ s t y) i = |s i| * absDiff x y (τ i) := by
  simp only [absDiff, inCoordinates]
  rw [← abs_mul]
  congr 1
  ring

private theorem weightedSum_eq (theta : List ℝ) (g : Fin n → ℝ) :
    weightedSum theta g = if theta.length = 1 ∨ theta.length = n then some (∑ i : Fin n, parameterOf theta i.val * g i) else none := by
  unfold weightedSum parameterOf
  split_ifs <;> simp_all [Finset.mul_sum]

private theorem cubicValue_eq (theta : List ℝ) (d : Fin n → ℝ) :
    cubicValue theta d =
      if theta.length = 1 ∨ theta.length = n then some (∏ i : Fin n, cubicFactor (|d i| * parameterOf theta i.val)) else none := by
  unfold cubicValue parameterOf
  split_ifs <;> simp_all

private theorem weighted_same {theta theta' : List ℝ} (hl : theta'.length = theta.length) (τ : Equiv.Perm (Fin n)) {g g' : Fin n → ℝ}
    (h : ∀ i, parameterOf theta' i.val * g' i = parameterOf theta (τ i).val * g (τ i)) : weightedSum theta' g' = weightedSum theta g := by
  rw [weightedSum_eq, weightedSum_eq, hl, Finset.sum_congr rfl fun i _ => h i,
    Equiv.sum_comp τ (fun i => parameterOf theta i.val * g i)]

private theorem corr_same {name : CorrName} {τ : Equiv.Perm (Fin n)} {s : Fin n → ℝ} {theta theta' : List ℝ}
    (h : SameScales name τ s theta theta') {d d' : Fin n → ℝ} (hd : ∀ i, d' i = |s i| * d (τ i)) :
    corr name theta' d' = corr name theta d := by
  have hsq : name ≠ .generalizedExponential → (∀ th, distancePower n name th = 2) → ∀ i,
      parameterOf theta' i.val * d' i ^ 2 = parameterOf theta (τ i).val * d (τ i) ^ 2 := by
    intro _ h2 i
    rw [h.parameter i, h2, Real.rpow_two, hd]; ring
  have h1 : (∀ th, distancePower n name th = 1) → ∀ i, parameterOf theta' i.val * |d' i| = parameterOf theta (τ i).val * |d (τ i)| := by
    intro h1 i
    rw [h.parameter i, h1, Real.rpow_one, hd, abs_mul, abs_abs]; ring
  cases name with
  | absoluteExponential => simp only [corr]; rw [weighted_same (g := fun i => |d i|) h.length τ (h1 fun _ => rfl)]
  | squaredExponential =>
    simp only [corr]
    rw [weighted_same (g := fun i => d i ^ 2) h.length τ (hsq (by simp) fun _ => rfl)]
  | matern nu =>
    simp only [corr]
    rw [weighted_same (g := fun i => d i ^ 2) h.length τ (hsq (by simp) fun _ => rfl)]
  | cubic =>
    simp only [corr]
    rw [cubicValue_eq, cubicValue_eq, h.length]
    have e : ∀ i, |d' i| * parameterOf theta' i.val = |d (τ i)| * parameterOf theta (τ i).val := fun i => by
      rw [mul_comm, h1 (fun _ => rfl) i, mul_comm]
    simp only [e]
    rw [Equiv.prod_comp τ (fun i => cubicFactor (|d i| * parameterOf theta i.val))]
  | generalizedExponential =>
    simp only [corr, generalizedExponential, h.length]
    have hx : theta'.getD n 0 = theta.getD n 0 := h.exponent.resolve_right (by simp)
    split_ifs with h2 h3
    · rfl
    · rfl
    · rw [hx]
      congr 3
      have hlen : theta.length = n + 1 := not_not.1 h3
      have e : ∀ i : Fin n, theta'.getD i.val 0 * |d' i| ^ theta.getD n 0 =
          theta.getD (τ i).val 0 * |d (τ i)| ^ theta.getD n 0 := by
        intro i
        have hn : theta.length ≠ 1 := by have := i.isLt; omega
        have hp := h.parameter i
        simp only [parameterOf, h.length, if_neg hn, distancePower] at hp
        rw [hp, hd, abs_mul, abs_abs, Real.mul_rpow (abs_nonneg _) (abs_nonneg _)]
        ring
      rw [Finset.sum_congr rfl fun i _ => e i]
      exact Equiv.sum_comp τ (fun i => theta.getD i.val 0 * |d i| ^ theta.getD n 0)

/-! ### C177 -/

section
variable {kind : TrendKind} {chol : Matrix (Fin N) (Fin N) ℝ → Option (Matrix (Fin N) (Fin N) ℝ)}
  {qr : Matrix (Fin N) (Fin (trendDim kind n)) ℝ → Matrix (Fin N) (Fin (trendDim kind n)) ℝ × Matrix (Fin (trendDim kind n)) (Fin (trendDim kind n)) ℝ}

private theorem data_perm (σ : Equiv.Perm (Fin N)) {τ : Equiv.Perm (Fin n)} {s t : Fin n → ℝ} {name : CorrName} {theta theta' : List ℝ}
    (hth : SameScales name τ s theta theta') {c c' : (Fin n → ℝ) → ℝ} (hc : ∀ d, corr name theta d = some (c d))
    (hc' : ∀ d, corr name theta' d = some (c' d)) (X : Fin N → Fin n → ℝ) :
    of (correlationMatrix c' fun i => inCoordinates τ s t (X (σ i))) = (of (correlationMatrix c X)).submatrix σ σ ∧
    ∀ x, corrVector c' (fun i => inCoordinates τ s t (X (σ i))) (inCoordinates τ s t x) = corrVector c X x ∘ σ := by
  have e : ∀ x y, c' (absDiff (inCoordinates τ s t x) (inCoordinates τ s t y)) = c (absDiff x y) := fun x y => by
    have := corr_same hth (absDiff_coordinates τ s t x y)
    rw [hc, hc'] at this
    exact Option.some.inj this
  refine ⟨?_, fun x => ?_⟩
  · ext i j
    rw [submatrix_apply, of_apply, of_apply, correlationMatrix_apply, correlationMatrix_apply, e]
    simp only [σ.injective.eq_iff]
  · funext i
    exact e x (X (σ i))

/-- **C177.**  Take any data, write them down in another order (`σ`), number the variables differently (`τ`) and measure them in
other units, in the opposite direction or from another origin (`s`, `t`).  With the same parameters in the new units and, if the
coefficients of the trend are given, coefficients (`B b`) of the same trend in the new coordinates, the model gives the same mean and the
same mean squared error at every point as before, or fails as before - for every correlation function, constant, linear and quadratic
trends, every estimation mode and all exact factorisation routines. -/
theorem c177_same_predictions (hc : CholeskyRoutine chol) (hcc : CompleteCholesky chol) (hq : QrRoutine qr)
    (σ : Equiv.Perm (Fin N)) (τ : Equiv.Perm (Fin n)) (s t : Fin n → ℝ) (hs : ∀ i, s i ≠ 0) (name : CorrName) (theta theta' : List ℝ)
    (hth : SameScales name τ s theta theta') (c c' : (Fin n → ℝ) → ℝ) (hcorr : ∀ d, corr name theta d = some (c d))
    (hcorr' : ∀ d, corr name theta' d = some (c' d)) :
    ∃ B : Matrix (Fin (trendDim kind n)) (Fin (trendDim kind n)) ℝ,
      (∀ b x, trendBasis kind (inCoordinates τ s t x) ⬝ᵥ (B *ᵥ b) = trendBasis kind x ⬝ᵥ b) ∧
      ∀ (mode : GpMode) (X : Fin N → Fin n → ℝ) (beta : Option (Fin (trendDim kind n) → ℝ)) (sigma2 : ℝ) (y : Fin N → ℝ) (x : Fin n → ℝ),
        (beta = none → FullRank (of fun i => trendBasis kind (X i))) →
        gpPredict chol qr mode (of (correlationMatrix c' fun i => inCoordinates τ s t (X (σ i))))
            (of fun i => trendBasis kind (inCoordinates τ s t (X (σ i)))) (beta.map (B *ᵥ ·)) sigma2 (fun i => y (σ i))
            (trendBasis kind (inCoordinates τ s t x)) (corrVector c' (fun i => inCoordinates τ s t (X (σ i))) (inCoordinates τ s t x)) =
          gpPredict chol qr mode (of (correlationMatrix c X)) (of fun i => trendBasis kind (X i)) beta sigma2 y (trendBasis kind x)
            (corrVector c X x) := by
  obtain ⟨A, B, hAB, hA⟩ := basis_change kind τ s t hs
  refine ⟨B, fun b x => by rw [hA, transpose_dot, mulVec_mulVec, hAB, one_mulVec], fun mode X beta sigma2 y x hF => ?_⟩
  obtain ⟨e1, e2⟩ := data_perm (t := t) σ hth hcorr hcorr' X
  have e3 : (of fun i => trendBasis kind (inCoordinates τ s t (X (σ i)))) = ((of fun i => trendBasis kind (X i)) * A).submatrix σ id := by
    ext i p
    rw [of_apply, hA, mulVec_transpose]
    rfl
  rw [e1, e2, e3, hA x]
  exact predict_perm hc hcc σ hAB mode _ _ beta (fun _ => hq) hF sigma2 y _ _

/-- **C177.**  The likelihood is the same too, and with it the estimates of the variances: the search for the parameters has the same
values to compare. -/
theorem c177_same_likelihood (hc : CholeskyRoutine chol) (hcc : CompleteCholesky chol) (hq : QrRoutine qr)
    (σ : Equiv.Perm (Fin N)) (τ : Equiv.Perm (Fin n)) (s t : Fin n → ℝ) (hs : ∀ i, s i ≠ 0) (name : CorrName) (theta theta' : List ℝ)
    (hth : SameScales name τ s theta theta') (c c' : (Fin n → ℝ) → ℝ) (hcorr : ∀ d, corr name theta d = some (c d))
    (hcorr' : ∀ d, corr name theta' d = some (c' d)) :
    ∃ B : Matrix (Fin (trendDim kind n)) (Fin (trendDim kind n)) ℝ,
      (∀ b x, trendBasis kind (inCoordinates τ s t x) ⬝ᵥ (B *ᵥ b) = trendBasis kind x ⬝ᵥ b) ∧
      ∀ (mode : GpMode) (X : Fin N → Fin n → ℝ) (beta : Option (Fin (trendDim kind n) → ℝ)) (y : Fin N → ℝ),
        (beta = none → FullRank (of fun i => trendBasis kind (X i))) →
        (llfConcentrated chol qr mode (of (correlationMatrix c' fun i => inCoordinates τ s t (X (σ i))))
            (of fun i => trendBasis kind (inCoordinates τ s t (X (σ i)))) (beta.map (B *ᵥ ·)) (fun i => y (σ i))).map
            (fun q => (q.1, q.2.sigma2, q.2.noiseVar)) =
          (llfConcentrated chol qr mode (of (correlationMatrix c X)) (of fun i => trendBasis kind (X i)) beta y).map
            (fun q => (q.1, q.2.sigma2, q.2.noiseVar)) := by
  obtain ⟨A, B, hAB, hA⟩ := basis_change kind τ s t hs
  refine ⟨B, fun b x => by rw [hA, transpose_dot, mulVec_mulVec, hAB, one_mulVec], fun mode X beta y hF => ?_⟩
  obtain ⟨e1, -⟩ := data_perm (t := t) σ hth hcorr hcorr' X
  have e3 : (of fun i => trendBasis kind (inCoordinates τ s t (X (σ i)))) = ((of fun i => trendBasis kind (X i)) * A).submatrix σ id := by
    ext i p
    rw [of_apply, hA, mulVec_transpose]
    rfl
  rw [e1, e3]
  exact llf_perm hc hcc σ hAB mode _ _ beta (fun _ => hq) hF y

end

/-! The hypotheses can be met: two points in two dimensions, a constant trend, squared exponential correlations; the two variables are
exchanged, one is measured in another unit and the other one in the opposite direction from another origin. -/

private theorem example_scales :
    SameScales .squaredExponential (Equiv.swap (0 : Fin 2) 1) ![2, -1] [1, 4] [1, 1] := by
  refine ⟨rfl, Or.inr (by simp), fun i => ?_⟩
  fin_cases i
  · simp [parameterOf, distancePower]; norm_num
  · simp [parameterOf, distancePower]

private noncomputable def exampleCorr (a b : ℝ) (d : Fin 2 → ℝ) : ℝ := Real.exp (-(a * d 0 ^ 2 + b * d 1 ^ 2))

private theorem exampleCorr_eq (a b : ℝ) (d : Fin 2 → ℝ) : corr .squaredExponential [a, b] d = some (exampleCorr a b d) := by
  simp [corr, weightedSum, exampleCorr, Fin.sum_univ_two]

private def examplePoints : Fin 2 → Fin 2 → ℝ := ![![0, 0], ![1, 1]]

private theorem example_trend : FullRank (of fun i => trendBasis .constant (examplePoints i)) := by
  intro b hb
  funext p
  have h := congrFun hb 0
  have e : ∀ q : Fin (trendDim .constant 2), q = p := fun q => by
    have h1 := q.isLt
    have h2 := p.isLt
    simp only [trendDim] at h1 h2
    exact Fin.ext (by omega)
  have h3 : ∑ q, trendBasis .constant (examplePoints 0) q * b q = 0 := h
  rw [Finset.sum_eq_single p (fun q _ hq => absurd (e q) hq) (by simp)] at h3
  have h4 : trendBasis .constant (examplePoints 0) p = 1 := by
    have h5 : p.val = 0 := by have := p.isLt; simp only [trendDim] at this; omega
    simp [trendBasis, trendRow, h5]
  rwa [h4, one_mul] at h3

private theorem example_chol : (idealChol (of (correlationMatrix (exampleCorr 1 4) examplePoints))).isSome := by
  have hlt : exampleCorr 1 4 (absDiff (examplePoints 0) (examplePoints 1)) < 1 := by
    simp only [exampleCorr, absDiff, examplePoints]
    rw [Real.exp_lt_one_iff]
    norm_num
  have hpos : 0 < exampleCorr 1 4 (absDiff (examplePoints 0) (examplePoints 1)) := Real.exp_pos _
  have hsym : absDiff (examplePoints 1) (examplePoints 0) = absDiff (examplePoints 0) (examplePoints 1) := by
    funext i; simp only [absDiff]; rw [abs_sub_comm]
  generalize hρ : exampleCorr 1 4 (absDiff (examplePoints 0) (examplePoints 1)) = ρ at hlt hpos
  have e : ∀ i j, of (correlationMatrix (exampleCorr 1 4) examplePoints) i j = if i = j then 1 else ρ := by
    intro i j
    rw [of_apply, correlationMatrix_apply]
    fin_cases i <;> fin_cases j <;> simp [hsym, hρ]
  refine idealChol_all _ (fun i j => by rw [e, e]; simp only [eq_comm]) fun w hw => ?_
  simp only [dotProduct, mulVec, Fin.sum_univ_two, e]
  simp only [if_true, zero_ne_one, one_ne_zero, if_false]
  have hne : w 0 ≠ 0 ∨ w 1 ≠ 0 := by
    by_contra h
    push Not at h
    exact hw (by funext i; fin_cases i <;> simp [h.1, h.2])
  have h2 : 0 < w 0 ^ 2 + w 1 ^ 2 := by rcases hne with h | h <;> positivity
  nlinarith [sq_nonneg (w 0 + w 1), sq_nonneg (w 0 - w 1)]

example : ∃ p, gpPredict idealChol idealQr .noiseless
    (of (correlationMatrix (exampleCorr 1 1) fun i =>
      inCoordinates (Equiv.swap (0 : Fin 2) 1) ![2, -1] ![0, 5] (examplePoints (Equiv.swap (0 : Fin 2) 1 i))))
    (of fun i => trendBasis .constant (inCoordinates (Equiv.swap (0 : Fin 2) 1) ![2, -1] ![0, 5] (examplePoints (Equiv.swap (0 : Fin 2) 1 i))))
    none 1 (fun i => ![3, 7] (Equiv.swap (0 : Fin 2) 1 i)) (trendBasis .constant (inCoordinates (Equiv.swap (0 : Fin 2) 1) ![2, -1] ![0, 5] ![2, 0]))
    (corrVector (exampleCorr 1 1) (fun i =>
      inCoordinates (Equiv.swap (0 : Fin 2) 1) ![2, -1] ![0, 5] (examplePoints (Equiv.swap (0 : Fin 2) 1 i)))
      (inCoordinates (Equiv.swap (0 : Fin 2) 1) ![2, -1] ![0, 5] ![2, 0])) = some p ∧
    gpPredict idealChol idealQr .noiseless (of (correlationMatrix (exampleCorr 1 4) examplePoints))
      (of fun i => trendBasis .constant (examplePoints i)) none 1 ![3, 7] (trendBasis .constant ![2, 0])
      (corrVector (exampleCorr 1 4) examplePoints ![2, 0]) = some p := by
  have hs : ∀ i : Fin 2, (![2, -1] : Fin 2 → ℝ) i ≠ 0 := fun i => by fin_cases i <;> simp
  obtain ⟨B, -, h⟩ := c177_same_predictions (kind := .constant) (idealChol_routine (N := 2)) idealChol_all (idealQr_routine (by decide))
    (Equiv.swap (0 : Fin 2) 1) (Equiv.swap (0 : Fin 2) 1) ![2, -1] ![0, 5] hs .squaredExponential [1, 4] [1, 1] example_scales
    (exampleCorr 1 4) (exampleCorr 1 1) (exampleCorr_eq 1 4) (exampleCorr_eq 1 1)
  have h1 := h .noiseless examplePoints none 1 ![3, 7] ![2, 0] (fun _ => example_trend)
  obtain ⟨L, hL⟩ := Option.isSome_iff_exists.1 example_chol
  have h2 : ∃ p, gpPredict idealChol idealQr .noiseless (of (correlationMatrix (exampleCorr 1 4) examplePoints))
      (of fun i => trendBasis .constant (examplePoints i)) none 1 ![3, 7] (trendBasis .constant ![2, 0])
      (corrVector (exampleCorr 1 4) examplePoints ![2, 0]) = some p := by
    unfold gpPredict computeAux
    simp only [gpMatrix, hL, Option.map_some]
    exact ⟨_, rfl⟩
  obtain ⟨p, hp⟩ := h2
  exact ⟨p, h1.trans hp, hp⟩

end Verif.Props
