import Verif.Spec.Gpr
import Mathlib.Analysis.InnerProductSpace.GramSchmidtOrtho

/-!
# Every matrix with at least as many rows as columns has a QR decomposition
-/
namespace Verif.Proofs

open Matrix Verif.Spec InnerProductSpace

variable {N k : ℕ}

theorem qr_exists (hk : k ≤ N) (A : Matrix (Fin N) (Fin k) ℝ) :
    ∃ (Q : Matrix (Fin N) (Fin k) ℝ) (G : Matrix (Fin k) (Fin k) ℝ), IsQr A Q G ∧ ∀ i j, j < i → G i j = 0 := by
  let f : Fin N → EuclideanSpace ℝ (Fin N) := fun j => if h : j.1 < k then WithLp.toLp 2 (fun i => A i ⟨j, h⟩) else 0
  have hcard : Module.finrank ℝ (EuclideanSpace ℝ (Fin N)) = Fintype.card (Fin N) := by simp
  let b := gramSchmidtOrthonormalBasis hcard f
  let c : Fin k → Fin N := Fin.castLE hk
  have hf : ∀ (j : Fin k) (i : Fin N), f (c j) i = A i j := fun j i => by
    have : (c j).1 < k := j.2
    simp only [f, this, dif_pos]
    rfl
  have htri : ∀ (i j : Fin N), j < i → inner ℝ (b i) (f j) = 0 := fun i j hij => gramSchmidtOrthonormalBasis_inv_triangular hcard f hij
  refine ⟨of fun i j => b (c j) i, of fun i j => inner ℝ (b (c i)) (f (c j)), ⟨?_, ?_⟩, fun i j hij => htri _ _ (by exact hij)⟩
  · ext i j
    rw [← hf j i, mul_apply]
    have h1 := b.sum_repr' (f (c j))
    have h2 : f (c j) i = ∑ l, inner ℝ (b l) (f (c j)) * b l i := by
      conv_lhs => rw [← h1]
      simp
    rw [h2]
    have h3 : ∑ l ∈ Finset.univ.map (Fin.castLEEmb hk), inner ℝ (b l) (f (c j)) * b l i = ∑ l, inner ℝ (b l) (f (c j)) * b l i := by
      refine Finset.sum_subset (Finset.subset_univ _) fun l _ hl => ?_
      have : c j < l := by
        by_contra hle
        refine hl (Finset.mem_map.2 ⟨⟨l, ?_⟩, Finset.mem_univ _, rfl⟩)
        have h5 : l.1 ≤ j.1 := not_lt.1 hle
        have := j.2
        omega
      rw [htri _ _ this, zero_mul]
    rw [← h3, Finset.sum_map]
    refine Finset.sum_congr rfl fun l _ => ?_
    simp only [of_apply, c, Fin.castLEEmb_apply]
    ring
  · ext i j
    have h1 := orthonormal_iff_ite.1 b.orthonormal (c j) (c i)
    rw [mul_apply, one_apply]
    simp only [transpose_apply, of_apply]
    have h2 : inner ℝ (b (c j)) (b (c i)) = ∑ l, b (c i) l * b (c j) l := by
      rw [PiLp.inner_apply]
      rfl
    rw [← h2, h1]
    have : c j = c i ↔ i = j := by
      rw [eq_comm]; exact (Fin.castLE_injective hk).eq_iff
    simp only [this]

open Classical in
/-- The exact QR decomposition, with an upper triangular factor. -/
noncomputable def idealQr (A : Matrix (Fin N) (Fin k) ℝ) : Matrix (Fin N) (Fin k) ℝ × Matrix (Fin k) (Fin k) ℝ :=
  if h : ∃ p : Matrix (Fin N) (Fin k) ℝ × Matrix (Fin k) (Fin k) ℝ, IsQr A p.1 p.2 ∧ ∀ i j, j < i → p.2 i j = 0 then h.choose else (0, 0)

theorem idealQr_spec (hk : k ≤ N) (A : Matrix (Fin N) (Fin k) ℝ) :
    IsQr A (idealQr A).1 (idealQr A).2 ∧ ∀ i j, j < i → (idealQr A).2 i j = 0 := by
  obtain ⟨Q, G, h⟩ := qr_exists hk A
  have hex : ∃ p : Matrix (Fin N) (Fin k) ℝ × Matrix (Fin k) (Fin k) ℝ, IsQr A p.1 p.2 ∧ ∀ i j, j < i → p.2 i j = 0 := ⟨(Q, G), h⟩
  unfold idealQr
  rw [dif_pos hex]
  exact hex.choose_spec

theorem idealQr_routine (hk : k ≤ N) : QrRoutine (idealQr (N := N) (k := k)) := fun A => (idealQr_spec hk A).1

end Verif.Proofs
