import Verif.Model.Mobo
import Verif.Spec.Mobo
import Verif.Spec.Dominance
import Verif.Proofs.Pareto
import Verif.Proofs.BinPartition

namespace Verif.Proofs

open Verif.Model Verif.Spec

variable {X : Type*} {m : ℕ}

theorem foldl_min_const {α : Type*} (n : ℕ) (rs : List (List α)) (h : ∀ s ∈ rs, s.length = n) :
    rs.foldl (fun k s => min k s.length) n = n := by
  induction rs with
  | nil => rfl
  | cons r rs ih =>
    rw [List.foldl_cons, h r (by simp), min_self]
    exact ih (fun s hs => h s (by simp [hs]))

theorem evaluate_eq {F : Type*} (f : X → F) (fs : List (X → F)) (xs : List X) :
    moEvaluate (f :: fs) xs = xs.map (fun x => (f :: fs).map (fun g => g x)) := by
  unfold moEvaluate
  rw [List.map_cons, zipStar, List.length_map, foldl_min_const _ _ (by
    intro s hs
    obtain ⟨g, -, rfl⟩ := List.mem_map.1 hs
    simp)]
  apply List.ext_getElem
  · simp
  · intro i h1 h2
    have hi : i < xs.length := by simpa using h2
    rw [List.getElem_map, List.getElem_range, List.getElem_map, ← List.map_cons (f := fun g => xs.map g),
      List.filterMap_map]
    have : ((fun s : List F => s[i]?) ∘ fun g => xs.map g) = fun g => some (g xs[i]) := by
      funext g
      simp [hi]
    rw [this]
    rw [List.filterMap_eq_map']

theorem scaleRange_pos (r : ℝ) : 0 < scaleRange r := by
  unfold scaleRange
  split_ifs with h
  · exact one_pos
  · exact lt_of_lt_of_le (by norm_num) (not_lt.1 h)

theorem moRow_lt (minimize : Fin (m + 1) → Bool) (F : List (Fin (m + 1) → ℝ)) (a b : Fin (m + 1) → ℝ)
    (k : Fin (m + 1)) : moRow minimize F a k < moRow minimize F b k ↔ BetterIn (minimize k) (b k) (a k) := by
  have hs := scaleRange_pos (colMax F k - colMin F k)
  unfold moRow minMaxScale flipSign BetterIn
  cases minimize k
  · simp only [Bool.false_eq_true, if_false, mul_one]
    rw [div_lt_div_iff_of_pos_right hs]
    constructor <;> intro h <;> linarith
  · simp only [if_true, mul_neg, mul_one, neg_lt_neg_iff]
    rw [div_lt_div_iff_of_pos_right hs]
    constructor <;> intro h <;> linarith

theorem moRow_le (minimize : Fin (m + 1) → Bool) (F : List (Fin (m + 1) → ℝ)) (a b : Fin (m + 1) → ℝ)
    (k : Fin (m + 1)) : moRow minimize F a k ≤ moRow minimize F b k ↔ NoWorse (minimize k) (b k) (a k) := by
  rw [← not_lt, moRow_lt]
  unfold NoWorse BetterIn
  cases minimize k <;> simp

theorem moRow_eq (minimize : Fin (m + 1) → Bool) (F : List (Fin (m + 1) → ℝ)) (a b : Fin (m + 1) → ℝ) :
    moRow minimize F a = moRow minimize F b ↔ a = b := by
  constructor
  · intro h
    funext k
    have h1 := (moRow_le minimize F a b k).1 (le_of_eq (congrFun h k))
    have h2 := (moRow_le minimize F b a k).1 (le_of_eq (congrFun h k).symm)
    unfold NoWorse at h1 h2
    cases hk : minimize k <;> simp only [hk, if_true, Bool.false_eq_true, if_false] at h1 h2 <;> linarith
  · rintro rfl; rfl

theorem compress_eq_range {α : Type*} : ∀ (l : List α) (b : List Bool), b.length = l.length →
    compress l b = ((List.range l.length).filter (fun i => decide (b[i]? = some true))).filterMap (fun i => l[i]?) := by
  intro l
  induction l with
  | nil => intro b _; simp [compress]
  | cons a l ih =>
    intro b hb
    cases b with
    | nil => simp at hb
    | cons c b =>
      have := ih b (by simpa using hb)
      rw [compress, List.length_cons, List.range_succ_eq_map, List.filter_cons, List.filter_map]
      simp only [List.getElem?_cons_zero, Option.some.injEq]
      have hcomp : ((fun i => decide ((c :: b)[i]? = some true)) ∘ Nat.succ) = fun i => decide (b[i]? = some true) := by
        funext i; simp
      rw [hcomp]
      have hmap : ∀ L : List ℕ, (L.map Nat.succ).filterMap (fun i => (a :: l)[i]?) = L.filterMap (fun i => l[i]?) := by
        intro L
        rw [List.filterMap_map]
        rfl
      cases c
      · simp only [Bool.false_eq_true, decide_false, if_false]
        rw [hmap, this]
      · simp only [decide_true, if_true, List.filterMap_cons, List.getElem?_cons_zero]
        rw [hmap, this]

/-- The mask of `xopt`. -/
theorem xopt_mask {single : ℝ → ℝ} (hsingle : StrictMono single) (minimize : Fin (m + 1) → Bool)
    (data : List (X × (Fin (m + 1) → ℝ))) (i : ℕ) :
    (isNonDominated ((moY minimize (data.map Prod.snd)).map (fun r k => single (r k))) true)[i]? = some true ↔
      Efficient minimize data i ∧ NewOutcome data i := by
  rw [isNonDominated_dedup_iff]
  set F := data.map Prod.snd with hF
  set g : (X × (Fin (m + 1) → ℝ)) → (Fin (m + 1) → ℝ) := fun p k => single (moRow minimize F p.2 k) with hg
  have hY : (moY minimize F).map (fun r k => single (r k)) = data.map g := by
    rw [moY, hF, List.map_map, List.map_map]
    rfl
  rw [hY]
  have hdom : ∀ p q : X × (Fin (m + 1) → ℝ), DominatesMax (g q) (g p) ↔ DominatesIn minimize q.2 p.2 := by
    intro p q
    unfold DominatesMax DominatesIn
    simp only [hg, hsingle.le_iff_le, hsingle.lt_iff_lt, moRow_le, moRow_lt]
  have hinj : ∀ p q : X × (Fin (m + 1) → ℝ), g p = g q ↔ p.2 = q.2 := by
    intro p q
    rw [← moRow_eq minimize F p.2 q.2]
    constructor
    · intro h
      funext k
      exact hsingle.injective (congrFun h k)
    · intro h
      funext k
      simp only [hg, h]
  apply and_congr
  · unfold NonDominatedMaxAt Efficient
    simp only [List.getElem?_map, Option.map_eq_some_iff]
    constructor
    · rintro ⟨_, ⟨p, hp, rfl⟩, h⟩
      exact ⟨p, hp, fun q hq hd => h _ (List.mem_map_of_mem hq) ((hdom p q).2 hd)⟩
    · rintro ⟨p, hp, h⟩
      refine ⟨_, ⟨p, hp, rfl⟩, fun q hq hd => ?_⟩
      obtain ⟨q', hq', rfl⟩ := List.mem_map.1 hq
      exact h q' hq' ((hdom p q').1 hd)
  · unfold FirstOccurrence NewOutcome
    rw [List.length_map]
    apply and_congr_right
    intro hi
    constructor
    · intro h j p q hj hp hq he
      apply h j hj
      rw [List.getElem?_map, List.getElem?_map, hp, hq, Option.map_some, Option.map_some, (hinj p q).2 he]
    · intro h j hj he
      have hjl : j < data.length := by omega
      rw [List.getElem?_map, List.getElem?_map, List.getElem?_eq_getElem hi, List.getElem?_eq_getElem hjl] at he
      exact h j _ _ hj (List.getElem?_eq_getElem hjl) (List.getElem?_eq_getElem hi)
        ((hinj _ _).1 (Option.some.inj he))

theorem foldl_min_mem : ∀ (l : List ℝ) (a : ℝ), l.foldl min a = a ∨ l.foldl min a ∈ l
  | [], _ => Or.inl rfl
  | x :: l, a => by
    rw [List.foldl_cons]
    rcases foldl_min_mem l (min a x) with h | h
    · rcases min_choice a x with h' | h'
      · left; rw [h, h']
      · right; rw [h, h']; simp
    · right; exact List.mem_cons_of_mem _ h

theorem foldl_max_mem : ∀ (l : List ℝ) (a : ℝ), l.foldl max a = a ∨ l.foldl max a ∈ l
  | [], _ => Or.inl rfl
  | x :: l, a => by
    rw [List.foldl_cons]
    rcases foldl_max_mem l (max a x) with h | h
    · rcases max_choice a x with h' | h'
      · left; rw [h, h']
      · right; rw [h, h']; simp
    · right; exact List.mem_cons_of_mem _ h

theorem colMin_mem {P : List (Fin (m + 1) → ℝ)} (h : P ≠ []) (k : Fin (m + 1)) : ∃ y ∈ P, y k = colMin P k := by
  obtain ⟨a, P, rfl⟩ := List.exists_cons_of_ne_nil h
  unfold colMin
  rcases foldl_min_mem (((a :: P)).map (fun y => y k)) ((((a :: P)).map (fun y => y k)).headD 0) with h | h
  · exact ⟨a, by simp, by rw [h]; rfl⟩
  · obtain ⟨y, hy, he⟩ := List.mem_map.1 h
    exact ⟨y, hy, he⟩

theorem colMax_mem {P : List (Fin (m + 1) → ℝ)} (h : P ≠ []) (k : Fin (m + 1)) : ∃ y ∈ P, y k = colMax P k := by
  obtain ⟨a, P, rfl⟩ := List.exists_cons_of_ne_nil h
  unfold colMax
  rcases foldl_max_mem (((a :: P)).map (fun y => y k)) ((((a :: P)).map (fun y => y k)).headD 0) with h | h
  · exact ⟨a, by simp, by rw [h]; rfl⟩
  · obtain ⟨y, hy, he⟩ := List.mem_map.1 h
    exact ⟨y, hy, he⟩

end Verif.Proofs
