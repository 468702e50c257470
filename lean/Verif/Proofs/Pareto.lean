import Verif.Model.Pareto
import Verif.Spec.Dominance
import Mathlib.Data.List.Sort
import Mathlib.Data.List.Nodup
import Mathlib.Tactic.Push

/-! Helper lemmas for the Pareto-front properties. -/
namespace Verif.Proofs
open Verif.Model Verif.Spec

variable {m : ℕ} {K : Type*} [LinearOrder K]

section compress
variable {α : Type*}

theorem compress_map (l : List α) (g : α → Bool) : compress l (l.map g) = l.filter g := by
  induction l with
  | nil => rfl
  | cons a l ih =>
    simp only [List.map_cons, compress, List.filter_cons, ih]

theorem compress_append (l₁ l₂ : List α) (b₁ b₂ : List Bool) (h : l₁.length = b₁.length) :
    compress (l₁ ++ l₂) (b₁ ++ b₂) = compress l₁ b₁ ++ compress l₂ b₂ := by
  induction l₁ generalizing b₁ with
  | nil => cases b₁ with
    | nil => simp [compress]
    | cons => simp at h
  | cons a l ih => cases b₁ with
    | nil => simp at h
    | cons b bs =>
      simp only [List.length_cons, Nat.add_right_cancel_iff] at h
      simp only [List.cons_append, compress, ih bs h]
      split <;> simp

end compress

theorem effMask_split (pre post : List (ℕ × (Fin m → K))) (p : ℕ × (Fin m → K)) :
    effMask (pre ++ p :: post) pre.length p.2 =
      pre.map (fun q => anyLess q.2 p.2) ++ true :: post.map (fun q => anyLess q.2 p.2) := by
  unfold effMask
  apply List.ext_getElem?
  intro i
  rw [List.getElem?_mapIdx]
  rcases lt_trichotomy i pre.length with h | h | h
  · rw [List.getElem?_append_left h, List.getElem?_append_left (by simpa using h)]
    have hne : (i == pre.length) = false := by simpa using Nat.ne_of_lt h
    simp [List.getElem?_map, hne]
  · subst h
    simp
  · rw [List.getElem?_append_right h.le, List.getElem?_append_right (by simpa using h.le)]
    obtain ⟨k, rfl⟩ : ∃ k, i = pre.length + (k + 1) := ⟨i - pre.length - 1, by omega⟩
    have hne : (pre.length + (k + 1) == pre.length) = false := by simp
    simp only [hne, Bool.false_or]
    simp

/-- One pass of the loop in zipper form. -/
theorem effLoop_step (fuel : ℕ) (pre post : List (ℕ × (Fin m → K))) (p : ℕ × (Fin m → K)) :
    effLoop (fuel + 1) (pre ++ p :: post) pre.length =
      effLoop fuel ((pre.filter (fun q => anyLess q.2 p.2) ++ [p]) ++
          post.filter (fun q => anyLess q.2 p.2))
        (pre.filter (fun q => anyLess q.2 p.2) ++ [p]).length := by
  have hget : (pre ++ p :: post)[pre.length]? = some p := by simp
  have hmask := effMask_split pre post p
  have htake : ((effMask (pre ++ p :: post) pre.length p.2).take pre.length)
      = pre.map (fun q => anyLess q.2 p.2) := by
    rw [hmask]; simp
  have hcount : (pre.map (fun q => anyLess q.2 p.2)).count true
      = (pre.filter (fun q => anyLess q.2 p.2)).length := by
    rw [List.count_eq_length_filter, List.filter_map, List.length_map]
    congr 1
    apply List.filter_congr
    intro q _
    simp
  have hcomp : compress (pre ++ p :: post) (effMask (pre ++ p :: post) pre.length p.2)
      = (pre.filter (fun q => anyLess q.2 p.2) ++ [p]) ++
          post.filter (fun q => anyLess q.2 p.2) := by
    rw [hmask, compress_append _ _ _ _ (by simp), compress_map]
    simp [compress, compress_map]
  conv_lhs => rw [effLoop]
  simp only [hget, htake, hcount, hcomp]
  simp

theorem effLoop_done (fuel : ℕ) (pre : List (ℕ × (Fin m → K))) :
    effLoop fuel pre pre.length = pre := by
  cases fuel with
  | zero => rfl
  | succ n => simp [effLoop]

/-- `p` beats `q`: at least as good everywhere, and different or listed earlier. -/
def Beats (p q : ℕ × (Fin m → K)) : Prop :=
  (∀ k, p.2 k ≤ q.2 k) ∧ (p.2 ≠ q.2 ∨ p.1 < q.1)

theorem Beats.trans {p q r : ℕ × (Fin m → K)} (h₁ : Beats p q) (h₂ : Beats q r) : Beats p r := by
  refine ⟨fun k => (h₁.1 k).trans (h₂.1 k), ?_⟩
  by_cases hpr : p.2 = r.2
  · have hpq : p.2 = q.2 := by
      funext k
      exact le_antisymm (h₁.1 k) (by rw [hpr]; exact h₂.1 k)
    have hqr : q.2 = r.2 := by rw [← hpq, hpr]
    rcases h₁.2 with h | h
    · exact absurd hpq h
    · rcases h₂.2 with h' | h'
      · exact absurd hqr h'
      · exact Or.inr (h.trans h')
  · exact Or.inl hpr

/-- Loop invariant relative to the original list `O`. -/
structure EffInv (O pre post : List (ℕ × (Fin m → K))) : Prop where
  sub : ∀ q, q ∈ pre ++ post → q ∈ O
  sorted : (pre ++ post).Pairwise (fun a b => a.1 < b.1)
  sep : ∀ p ∈ pre, ∀ q ∈ pre ++ post, q ≠ p → ∃ k, q.2 k < p.2 k
  cover : ∀ q ∈ O, q ∈ pre ++ post ∨ ∃ p ∈ pre ++ post, Beats p q

theorem anyLess_iff (q p : Fin m → K) : anyLess q p = true ↔ ∃ k, q k < p k := by
  simp [anyLess]

theorem EffInv.step {O pre post : List (ℕ × (Fin m → K))} {p : ℕ × (Fin m → K)}
    (h : EffInv O pre (p :: post)) :
    EffInv O (pre.filter (fun q => anyLess q.2 p.2) ++ [p])
      (post.filter (fun q => anyLess q.2 p.2)) := by
  have hmem : ∀ q, q ∈ (pre.filter (fun q => anyLess q.2 p.2) ++ [p]) ++
      post.filter (fun q => anyLess q.2 p.2) → q ∈ pre ++ p :: post := by
    intro q hq
    simp only [List.mem_append, List.mem_filter, List.mem_cons] at hq ⊢
    tauto
  have hmem' : ∀ q, q ∈ pre ++ p :: post → (∃ k, q.2 k < p.2 k) →
      q ∈ (pre.filter (fun q => anyLess q.2 p.2) ++ [p]) ++
      post.filter (fun q => anyLess q.2 p.2) := by
    intro q hq hk
    simp only [List.mem_append, List.mem_filter, List.mem_cons, anyLess_iff] at hq ⊢
    tauto
  have hp : p ∈ (pre.filter (fun q => anyLess q.2 p.2) ++ [p]) ++
      post.filter (fun q => anyLess q.2 p.2) := by simp
  refine ⟨fun q hq => h.sub q (hmem q hq), ?_, ?_, ?_⟩
  · refine h.sorted.sublist ?_
    have : (pre.filter (fun q => anyLess q.2 p.2) ++ [p]) ++
      post.filter (fun q => anyLess q.2 p.2) = pre.filter (fun q => anyLess q.2 p.2) ++
        (p :: post.filter (fun q => anyLess q.2 p.2)) := by simp
    rw [this]
    exact List.filter_sublist.append (List.filter_sublist.cons_cons p)
  · intro a ha q hq hne
    rw [List.mem_append, List.mem_singleton] at ha
    rcases ha with ha | rfl
    · exact h.sep a (List.mem_of_mem_filter ha) q (hmem q hq) hne
    · simp only [List.mem_append, List.mem_filter, List.mem_singleton, anyLess_iff] at hq
      rcases hq with (hq | hq) | hq
      · exact hq.2
      · exact absurd hq hne
      · exact hq.2
  · -- every original point is kept or beaten
    have key : ∀ q ∈ pre ++ p :: post, q ∈ (pre.filter (fun q => anyLess q.2 p.2) ++ [p]) ++
      post.filter (fun q => anyLess q.2 p.2) ∨ Beats p q := by
      intro q hq
      by_cases hk : ∃ k, q.2 k < p.2 k
      · exact Or.inl (hmem' q hq hk)
      · by_cases hqp : q = p
        · subst hqp; exact Or.inl hp
        · right
          push Not at hk
          refine ⟨hk, ?_⟩
          by_cases heq : p.2 = q.2
          · right
            rw [List.mem_append, List.mem_cons] at hq
            rcases hq with hq | hq | hq
            · obtain ⟨k, hk'⟩ := h.sep q hq p (by simp) (fun e => hqp e.symm)
              rw [heq] at hk'
              exact absurd hk' (lt_irrefl _)
            · exact absurd hq hqp
            · have hs := h.sorted
              rw [List.pairwise_append] at hs
              exact (List.pairwise_cons.1 hs.2.1).1 q hq
          · exact Or.inl heq
    intro q hq
    rcases h.cover q hq with hin | ⟨r, hr, hb⟩
    · rcases key q hin with h1 | h1
      · exact Or.inl h1
      · exact Or.inr ⟨p, hp, h1⟩
    · rcases key r hr with h1 | h1
      · exact Or.inr ⟨r, h1, hb⟩
      · exact Or.inr ⟨p, hp, h1.trans hb⟩

theorem effLoop_inv {O : List (ℕ × (Fin m → K))} (fuel : ℕ) (pre post : List (ℕ × (Fin m → K)))
    (hf : post.length ≤ fuel) (h : EffInv O pre post) :
    EffInv O (effLoop fuel (pre ++ post) pre.length) [] := by
  induction fuel generalizing pre post with
  | zero =>
    have : post = [] := List.length_eq_zero_iff.1 (Nat.le_zero.1 hf)
    subst this
    simpa [effLoop] using h
  | succ n ih =>
    cases post with
    | nil => rw [List.append_nil, effLoop_done]; exact h
    | cons p post =>
      rw [effLoop_step]
      apply ih _ _ _ h.step
      have := List.length_filter_le (fun q => anyLess q.2 p.2) post
      simp only [List.length_cons] at hf
      omega

omit [LinearOrder K] in
theorem mem_mapIdx_pair (F : List (Fin m → K)) (q : ℕ × (Fin m → K)) :
    q ∈ F.mapIdx (fun i v => (i, v)) ↔ F[q.1]? = some q.2 := by
  rw [List.mem_mapIdx]
  constructor
  · rintro ⟨i, hi, rfl⟩
    simp [hi]
  · intro h
    obtain ⟨hi, he⟩ := List.getElem?_eq_some_iff.1 h
    exact ⟨q.1, hi, by simp [he]⟩

theorem effInv_init (F : List (Fin m → K)) :
    EffInv (F.mapIdx (fun i v => (i, v))) [] (F.mapIdx (fun i v => (i, v))) := by
  refine ⟨fun q h => h, ?_, by simp, fun q h => Or.inl h⟩
  rw [List.nil_append, List.pairwise_iff_getElem]
  intro i j hi hj hij
  simpa using hij

theorem effLoop_result (F : List (Fin m → K)) :
    EffInv (F.mapIdx (fun i v => (i, v)))
      (effLoop F.length (F.mapIdx (fun i v => (i, v))) 0) [] := by
  have := effLoop_inv F.length [] (F.mapIdx (fun i v => (i, v))) (by simp) (effInv_init F)
  simpa using this

theorem mem_idx_iff (F : List (Fin m → K)) (i : ℕ) :
    i ∈ isParetoEfficientIdx F ↔ NonDominatedAt F i ∧ FirstOccurrence F i := by
  have inv := effLoop_result F
  have hmemO := mem_mapIdx_pair F
  unfold isParetoEfficientIdx
  rw [List.mem_map]
  constructor
  · rintro ⟨q, hq, rfl⟩
    have hqO := inv.sub q (by simpa using hq)
    have hFq := (hmemO q).1 hqO
    -- nothing original beats q
    have hnb : ∀ r ∈ F.mapIdx (fun i v => (i, v)), ¬ Beats r q := by
      intro r hr hb
      have hcontra : ∀ s ∈ effLoop F.length (F.mapIdx (fun i v => (i, v))) 0, ¬ Beats s q := by
        intro s hs hsb
        by_cases hqs : q = s
        · subst hqs
          rcases hsb.2 with h | h
          · exact h rfl
          · exact lt_irrefl _ h
        · obtain ⟨k, hk⟩ := inv.sep s hs q (by simpa using hq) hqs
          exact absurd (hsb.1 k) (not_le.2 hk)
      rcases inv.cover r hr with h | ⟨s, hs, hsb⟩
      · exact hcontra r (by simpa using h) hb
      · exact hcontra s (by simpa using hs) (hsb.trans hb)
    refine ⟨⟨q.2, hFq, ?_⟩, ?_, ?_⟩
    · intro v hv hd
      obtain ⟨j, hj⟩ := List.mem_iff_getElem?.1 hv
      refine hnb (j, v) ((hmemO _).2 hj) ⟨hd.1, Or.inl ?_⟩
      intro e
      obtain ⟨k, hk⟩ := hd.2
      have : v k = q.2 k := congrFun e k
      exact absurd hk (by rw [this]; exact lt_irrefl _)
    · exact (List.getElem?_eq_some_iff.1 hFq).1
    · intro j hj he
      rw [hFq] at he
      exact hnb (j, q.2) ((hmemO _).2 he) ⟨fun k => le_rfl, Or.inr hj⟩
  · rintro ⟨⟨p, hp, hnd⟩, _, hfirst⟩
    have hO : (i, p) ∈ F.mapIdx (fun i v => (i, v)) := (hmemO _).2 hp
    rcases inv.cover _ hO with h | ⟨r, hr, hb⟩
    · exact ⟨(i, p), by simpa using h, rfl⟩
    · exfalso
      have hFr := (hmemO r).1 (inv.sub r hr)
      by_cases hrp : r.2 = p
      · rcases hb.2 with h | h
        · exact h hrp
        · apply hfirst r.1 h
          rw [hFr, hp, hrp]
      · apply hnd r.2 (List.mem_iff_getElem?.2 ⟨_, hFr⟩)
        refine ⟨hb.1, ?_⟩
        by_contra hno
        push Not at hno
        exact hrp (funext fun k => le_antisymm (hb.1 k) (hno k))

theorem idx_sorted (F : List (Fin m → K)) : (isParetoEfficientIdx F).Pairwise (· < ·) := by
  have inv := (effLoop_result F).sorted
  unfold isParetoEfficientIdx
  rw [List.pairwise_map]
  simpa using inv

end Verif.Proofs
