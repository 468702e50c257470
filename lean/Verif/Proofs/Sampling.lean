import Verif.Model.Sampling
import Verif.Proofs.Variables

/-! # Lemmas about sampling -/
namespace Verif.Proofs
open Verif.Model

theorem scaleInv_mono (s : Scale) {a b : ℝ} (h : a ≤ b) : scaleInv s (some a) ≤ scaleInv s (some b) := by
  cases s with
  | linear => exact h
  | log => exact Real.exp_le_exp.2 h
  | log10 => exact Real.rpow_le_rpow_of_exponent_le (by norm_num) h
  | logit => exact logitInv_strictMono.monotone h
  | bilog => exact bilogInv_strictMono.monotone h

/-- A real value in bounds stays in bounds when rounded. -/
theorem round_contains (v : RealVar) (hv : v.lo ≤ v.hi) {x : ℝ} (hx : v.contains x) : v.contains (v.round x) := by
  unfold RealVar.round
  cases v.precision with
  | none => exact hx
  | some p => exact clip_mem hv _

theorem realSample_of_finite (v : RealVar) {l h : ℝ} (hl : scaleTrans v.scale v.lo = some l)
    (hh : scaleTrans v.scale v.hi = some h) (hlo : scaleInv v.scale (some l) = v.lo)
    (hhi : scaleInv v.scale (some h) = v.hi) (hlh : l ≤ h) (hv : v.lo ≤ v.hi) {u : ℝ} (hu0 : 0 ≤ u)
    (hu1 : u ≤ 1) : ∃ x, v.sample u = some x ∧ v.contains x := by
  refine ⟨v.round (scaleInv v.scale (some ((h - l) * u + l))), ?_, ?_⟩
  · unfold RealVar.sample affine
    rw [hl, hh]
    rfl
  · apply round_contains v hv
    constructor
    · rw [← hlo]
      exact scaleInv_mono _ (by nlinarith)
    · rw [← hhi]
      exact scaleInv_mono _ (by nlinarith)

theorem intSample_spec (v : IntVar) {lo hi : ℤ} (hlo : v.lo = lo) (hhi : v.hi = hi) (hlt : v.lo < v.hi)
    (hs : 0 < v.step) {i : ℕ} (hi' : i < v.size.toNat) :
    ∃ z : ℤ, v.sample i = some z ∧ v.contains z ∧ z = trunc (v.lo + i * v.step) := by
  have hsz : 0 < v.size := by
    unfold IntVar.size
    have : 0 ≤ (v.hi - v.lo) / v.step := div_nonneg (by linarith) hs.le
    have := Int.floor_nonneg.2 this
    omega
  refine ⟨trunc (v.lo + i * v.step), ?_, ?_, rfl⟩
  · unfold IntVar.sample
    rw [if_pos hsz]
    norm_num
  · have h1 : (lo : ℝ) ≤ v.lo + i * v.step := by
      rw [hlo]
      have : (0 : ℝ) ≤ i * v.step := by positivity
      linarith
    have h2 : v.lo + i * v.step ≤ (hi : ℝ) := by
      have hle : (i : ℤ) ≤ ⌊(v.hi - v.lo) / v.step⌋ := by
        unfold IntVar.size at hi' hsz
        omega
      have h3 : ((i : ℤ) : ℝ) ≤ (v.hi - v.lo) / v.step := by
        have := Int.le_floor.1 hle
        exact this
      rw [le_div_iff₀ hs] at h3
      rw [← hhi]
      push_cast at h3
      linarith
    have t1 := le_trunc h1
    have t2 := trunc_le h2
    refine ⟨?_, ?_⟩
    · refine le_trans hlo.le ?_
      exact_mod_cast t1
    · refine le_trans ?_ hhi.ge
      exact_mod_cast t2

section
variable {G : Type*} (rng : Rng G)

theorem discCols_get (hrng : rng.Valid) (Q : Kind → Prop)
    (hQ : ∀ k, Q k → ∀ i < k.size, ∃ v, k.ofDraw i = some v ∧ k.contains v)
    (hpos : ∀ k, Q k → 0 < k.size) :
    ∀ (ks : List Kind), (∀ k ∈ ks, Q k) → ∀ (g : G) (N : ℕ) (c : ℕ) (k : Kind), ks[c]? = some k →
      ∃ col, (discCols rng g ks N).1[c]? = some col ∧ ∀ i, ∃ v, col i = some v ∧ k.contains v := by
  intro ks
  induction ks with
  | nil => intro _ g N c k h; simp at h
  | cons a as ih =>
    intro hall g N c k h
    cases c with
    | zero =>
      simp only [List.getElem?_cons_zero, Option.some.injEq] at h
      subst h
      refine ⟨_, rfl, fun i => ?_⟩
      exact hQ a (hall a (by simp)) _ (hrng.2 _ _ _ _ (hpos a (hall a (by simp))))
    | succ c =>
      simp only [List.getElem?_cons_succ] at h
      exact ih (fun k hk => hall k (by simp [hk])) _ N c k h

theorem realCols_get (Q : Kind → Prop) (hrng : rng.Valid)
    (hQ : ∀ k, Q k → ∀ u, 0 ≤ u → u ≤ 1 → ∃ v, k.ofUniform u = some v ∧ k.contains v)
    (ks : List Kind) (hall : ∀ k ∈ ks, Q k) (g : G) (N : ℕ) (c : ℕ) (k : Kind) (h : ks[c]? = some k) :
    ∃ col, (realCols rng g ks N).1[c]? = some col ∧ ∀ i, ∃ v, col i = some v ∧ k.contains v := by
  refine ⟨fun i => k.ofUniform ((rng.uniform g N ks.length).1 i c), ?_, fun i => ?_⟩
  · unfold realCols
    simp [h]
  · obtain ⟨h0, h1⟩ := hrng.1 g N ks.length i c
    exact hQ k (hall k (List.mem_of_getElem? h)) _ h0 h1

end

theorem mem_typeIds {ks : List Kind} {τ : VType} {j : ℕ} :
    j ∈ typeIds ks τ ↔ ∃ k, ks[j]? = some k ∧ k.vtype = τ := by
  unfold typeIds
  simp only [List.mem_filter, List.mem_range]
  constructor
  · rintro ⟨hj, h⟩
    rw [List.getElem?_eq_getElem hj] at h ⊢
    exact ⟨_, rfl, by simpa using h⟩
  · rintro ⟨k, hk, hτ⟩
    exact ⟨(List.getElem?_eq_some_iff.1 hk).1, by simp [hk, hτ]⟩

theorem filterMap_get {α : Type*} (ks : List α) : ∀ (ids : List ℕ), (∀ j ∈ ids, j < ks.length) →
    ∀ c : ℕ, (ids.filterMap (fun j => ks[j]?))[c]? = (ids[c]?).bind (fun j => ks[j]?) := by
  intro ids
  induction ids with
  | nil => intro _ c; simp
  | cons a as ih =>
    intro h c
    have ha : a < ks.length := h a (by simp)
    rw [List.filterMap_cons, List.getElem?_eq_getElem ha]
    cases c with
    | zero => simp [List.getElem?_eq_getElem ha]
    | succ c => simpa using ih (fun j hj => h j (by simp [hj])) c

theorem pureType_spec {ks : List Kind} {τ : VType} (h : pureType ks = some τ) :
    ks ≠ [] ∧ ∀ k ∈ ks, k.vtype = τ := by
  unfold pureType at h
  split at h
  · cases h
  · rename_i k rest
    split at h
    · rename_i hall
      cases h
      refine ⟨by simp, ?_⟩
      simp only [List.all_eq_true, beq_iff_eq] at hall
      simpa using hall
    · cases h

end Verif.Proofs
