import Verif.Spec.ForestTree
import Verif.Props.RandomForest

/-!
# C190: predictions of the random forest stay within the observations
-/
set_option linter.unusedSectionVars false
namespace Verif.Props

open Verif.Model Verif.Spec

variable {α K : Type*} [DecidableEq α] [Field K] [LinearOrder K] [IsStrictOrderedRing K]

private theorem mean_between {l : List K} (hne : l ≠ []) {a b : K} (h : ∀ v ∈ l, a ≤ v ∧ v ≤ b) : a ≤ rfMean l ∧ rfMean l ≤ b := by
  have hl : (0 : K) < l.length := by exact_mod_cast List.length_pos_iff.mpr hne
  have key : ∀ l : List K, (∀ v ∈ l, a ≤ v ∧ v ≤ b) → (l.length : K) * a ≤ l.sum ∧ l.sum ≤ (l.length : K) * b := by
    intro l hl
    induction l with
    | nil => simp
    | cons v l ih =>
      obtain ⟨i1, i2⟩ := ih fun w hw => hl w (by simp [hw])
      obtain ⟨v1, v2⟩ := hl v (by simp)
      simp only [List.length_cons, List.sum_cons, Nat.cast_add, Nat.cast_one, add_mul, one_mul]
      constructor <;> linarith
  obtain ⟨k1, k2⟩ := key l h
  unfold rfMean
  rw [le_div_iff₀ hl, div_le_iff₀ hl]
  constructor <;> linarith

private theorem tree_between {y : List K} {a b : K} (h : ∀ v ∈ y, a ≤ v ∧ v ≤ b) : ∀ (t : RegTree K), TrainedOn y.length t → ∀ x, a ≤ treePredict y t x ∧ treePredict y t x ≤ b
  | .leaf samples, ht, x => by
    refine mean_between (by simpa using ht.1) fun v hv => ?_
    obtain ⟨i, hi, rfl⟩ := List.mem_map.mp hv
    have hlt := ht.2 i hi
    refine h _ ?_
    rw [List.getD_eq_getElem?_getD, List.getElem?_eq_getElem hlt, Option.getD_some]
    exact List.getElem_mem hlt
  | .node c q low high, ht, x => by
    unfold treePredict
    split_ifs
    · exact tree_between h low ht.1 x
    · exact tree_between h high ht.2 x

private theorem sq_bound (l : List K) {a b : K} (h : ∀ v ∈ l, a ≤ v ∧ v ≤ b) : (l.map fun v => v ^ 2).sum ≤ (a + b) * l.sum - (l.length : K) * (a * b) := by
  induction l with
  | nil => simp
  | cons v l ih =>
    have i := ih fun w hw => h w (by simp [hw])
    obtain ⟨v1, v2⟩ := h v (by simp)
    have : 0 ≤ (v - a) * (b - v) := mul_nonneg (by linarith) (by linarith)
    simp only [List.map_cons, List.sum_cons, List.length_cons, Nat.cast_add, Nat.cast_one]
    nlinarith

/-- **C190, range**: for every forest of at least two trees that `fit` can have built, in whatever way it chose the splits, and for every order of the threads: a prediction lies between any two
bounds of the observations, and the reported variance is at most that of predictions at the two bounds.  So the forest never predicts a value better than the best observation. -/
theorem c190_range (toFloat : α → Option K) (levels : RfLevels α) (y : List K) (trees : List (RegTree K)) (htr : ∀ t ∈ trees, TrainedOn y.length t) (h2 : 2 ≤ trees.length)
    (order : List ℕ) (horder : order.Perm (List.range trees.length)) (row : List α) (hrow : RowOk toFloat levels row) (a b : K) (hy : ∀ v ∈ y, a ≤ v ∧ v ≤ b) :
    ∃ mean s, forestPredict toFloat levels y trees order row = some (mean, some s) ∧ a ≤ mean ∧ mean ≤ b ∧ 0 ≤ s ∧
      4 * ((trees.length : K) - 1) * s ≤ (trees.length : K) * (b - a) ^ 2 := by
  have hlen : (trees.map (treePredict y)).length = trees.length := List.length_map _
  obtain ⟨x, mean, s, -, hp, hm, hb, hs, h0, -⟩ := c44_predict_partial toFloat levels (trees.map (treePredict y)) order (by rw [hlen]; exact horder) row hrow (by rw [hlen]; exact h2)
  have hall : ∀ t ∈ trees.map (treePredict y), a ≤ t x ∧ t x ≤ b := by
    intro t ht
    obtain ⟨t', ht', rfl⟩ := List.mem_map.mp ht
    exact tree_between hy t' (htr t' ht') x
  obtain ⟨m1, m2⟩ := hb a b hall
  rw [hlen] at hp hm hs
  refine ⟨mean, s, hp, m1, m2, ?_, ?_⟩
  · exact h0
  · have hn : (0 : K) < trees.length := by exact_mod_cast (by omega : 0 < trees.length)
    have hsq := sq_bound ((trees.map (treePredict y)).map fun t => t x) (a := a) (b := b) (fun v hv => by
      obtain ⟨t, ht, rfl⟩ := List.mem_map.mp hv
      exact hall t ht)
    rw [List.map_map, List.length_map, hlen] at hsq
    set S := ((trees.map (treePredict y)).map fun t => t x).sum with hS
    set Q := ((trees.map (treePredict y)).map ((fun v => v ^ 2) ∘ fun t => t x)).sum with hQ
    have hQ' : ((trees.map (treePredict y)).map fun t => t x ^ 2).sum = Q := rfl
    rw [hQ'] at hs
    have h5 : (trees.length : K) * (4 * ((trees.length : K) - 1) * s) ≤ (trees.length : K) * ((trees.length : K) * (b - a) ^ 2) := by
      have e : (trees.length : K) * (4 * ((trees.length : K) - 1) * s) = 4 * ((trees.length : K) * Q - S ^ 2) := by rw [← hs]; ring
      rw [e]
      have := mul_le_mul_of_nonneg_left hsq hn.le
      nlinarith [sq_nonneg (2 * S - (trees.length : K) * (a + b))]
    exact le_of_mul_le_mul_left h5 hn

private theorem mean_affine {l : List ℕ} (hne : l ≠ []) (f : ℕ → K) (c d : K) : rfMean (l.map fun i => c * f i + d) = c * rfMean (l.map f) + d := by
  have hl : (l.length : K) ≠ 0 := by exact_mod_cast (List.length_pos_iff.mpr hne).ne'
  have key : ∀ l : List ℕ, (l.map fun i => c * f i + d).sum = c * (l.map f).sum + (l.length : K) * d := by
    intro l
    induction l with
    | nil => simp
    | cons i l ih =>
      simp only [List.map_cons, List.sum_cons, ih, List.length_cons, Nat.cast_add, Nat.cast_one]
      ring
  unfold rfMean
  rw [key, List.length_map, List.length_map]
  field_simp

private theorem tree_affine (y : List K) (c d : K) : ∀ (t : RegTree K), TrainedOn y.length t → ∀ x, treePredict (y.map fun v => c * v + d) t x = c * treePredict y t x + d
  | .leaf samples, ht, x => by
    unfold treePredict
    rw [← mean_affine ht.1]
    congr 1
    refine List.map_congr_left fun i hi => ?_
    have hlt := ht.2 i hi
    simp [List.getD_eq_getElem?_getD, List.getElem?_eq_getElem hlt]
  | .node k q low high, ht, x => by
    unfold treePredict
    split_ifs
    · exact tree_affine y c d low ht.1 x
    · exact tree_affine y c d high ht.2 x

/-- **C190, unit of the objective**: with the same trees, predictions follow the unit and the origin of the observations, also when maximisation is turned into minimisation (`c = -1`), and the
variance follows the square of the unit. -/
theorem c190_units (toFloat : α → Option K) (levels : RfLevels α) (y : List K) (trees : List (RegTree K)) (htr : ∀ t ∈ trees, TrainedOn y.length t) (h2 : 2 ≤ trees.length)
    (order : List ℕ) (horder : order.Perm (List.range trees.length)) (row : List α) (hrow : RowOk toFloat levels row) (c d : K) :
    ∃ mean s, forestPredict toFloat levels y trees order row = some (mean, some s) ∧
      forestPredict toFloat levels (y.map fun v => c * v + d) trees order row = some (c * mean + d, some (c ^ 2 * s)) := by
  have hlen : ∀ y : List K, (trees.map (treePredict y)).length = trees.length := fun y => List.length_map _
  obtain ⟨x, mean, s, hx, hp, hm, -, hs, -⟩ := c44_predict_partial toFloat levels (trees.map (treePredict y)) order (by rw [hlen]; exact horder) row hrow (by rw [hlen]; exact h2)
  obtain ⟨x', mean', s', hx', hp', hm', -, hs', -⟩ :=
    c44_predict_partial toFloat levels (trees.map (treePredict (y.map fun v => c * v + d))) order (by rw [hlen]; exact horder) row hrow (by rw [hlen]; exact h2)
  obtain rfl : x = x' := by rw [hx] at hx'; simpa using hx'
  rw [hlen] at hp hm hs hp' hm' hs'
  have hn : (trees.length : K) ≠ 0 := by exact_mod_cast (by omega : trees.length ≠ 0)
  have hn1 : (trees.length : K) - 1 ≠ 0 := by
    have : (2 : K) ≤ trees.length := by exact_mod_cast h2
    linarith
  have e1 : ((trees.map (treePredict (y.map fun v => c * v + d))).map fun t => t x).sum = c * ((trees.map (treePredict y)).map fun t => t x).sum + (trees.length : K) * d := by
    clear hm hs hp hm' hs' hp' h2 horder hn hn1 hlen
    induction trees with
    | nil => simp
    | cons t l ih =>
      have := ih fun t ht => htr t (by simp [ht])
      simp only [List.map_cons, List.sum_cons, this, tree_affine y c d t (htr t (by simp)) x, List.length_cons, Nat.cast_add, Nat.cast_one]
      ring
  have e2 : ((trees.map (treePredict (y.map fun v => c * v + d))).map fun t => t x ^ 2).sum =
      c ^ 2 * ((trees.map (treePredict y)).map fun t => t x ^ 2).sum + 2 * c * d * ((trees.map (treePredict y)).map fun t => t x).sum + (trees.length : K) * d ^ 2 := by
    clear hm hs hp hm' hs' hp' h2 horder hn hn1 hlen e1
    induction trees with
    | nil => simp
    | cons t l ih =>
      have := ih fun t ht => htr t (by simp [ht])
      simp only [List.map_cons, List.sum_cons, this, tree_affine y c d t (htr t (by simp)) x, List.length_cons, Nat.cast_add, Nat.cast_one]
      ring
  have hmean : mean' = c * mean + d := by
    apply mul_left_cancel₀ hn
    rw [hm', e1, ← hm]
    ring
  have hvar : s' = c ^ 2 * s := by
    apply mul_left_cancel₀ (mul_ne_zero hn hn1)
    rw [hs', e1, e2]
    have : (trees.length : K) * ((trees.length : K) - 1) * (c ^ 2 * s) = c ^ 2 * ((trees.length : K) * ((trees.length : K) - 1) * s) := by ring
    rw [this, hs]
    ring
  exact ⟨mean, s, hp, by rw [← hmean, ← hvar]; exact hp'⟩

/-- **C190, names of the levels**: if the levels of the categorical variables are renamed without identifying two of them, the encoded samples, and with them all trees and predictions, are the
same. -/
theorem c190_levels (toFloat : α → Option K) (levels : RfLevels α) (f : ℕ → α → α) (hf : ∀ k, Function.Injective (f k)) (row : List α) :
    (rfEncode toFloat (renameDescription f levels) (renameLevels (levels.map Prod.fst) f row) : Option (List K)) = rfEncode toFloat levels row := by
  have hkeys : (renameDescription f levels).map Prod.fst = levels.map Prod.fst := by
    unfold renameDescription
    rw [List.map_map]
    rfl
  have hget : ∀ i : ℕ, (renameLevels (levels.map Prod.fst) f row)[i]? = (row[i]?).map fun a => if i ∈ levels.map Prod.fst then f i a else a := by
    intro i
    unfold renameLevels
    rw [List.getElem?_mapIdx]
  have hone : ∀ kl ∈ levels, (rfOneHot (renameLevels (levels.map Prod.fst) f row) (kl.1, kl.2.map (f kl.1)) : Option (List K)) = rfOneHot row kl := by
    intro kl hkl
    unfold rfOneHot
    simp only
    rw [hget]
    have hm : kl.1 ∈ levels.map Prod.fst := List.mem_map_of_mem hkl
    cases row[kl.1]? with
    | none => rfl
    | some a =>
      simp only [Option.map_some, hm, ↓reduceIte, Option.bind_some, List.mem_map_of_injective (hf kl.1), List.map_map]
      congr 2
      refine List.map_congr_left fun l _ => ?_
      simp [Function.comp_apply, (hf kl.1).eq_iff]
  have hnum : rfNumeric toFloat (levels.map Prod.fst) (renameLevels (levels.map Prod.fst) f row) = rfNumeric toFloat (levels.map Prod.fst) row := by
    unfold rfNumeric
    have hl : (renameLevels (levels.map Prod.fst) f row).length = row.length := by simp [renameLevels]
    rw [hl]
    have key : ∀ l : List ℕ, (∀ i ∈ l, i ∉ levels.map Prod.fst) →
        l.mapM (fun i => (renameLevels (levels.map Prod.fst) f row)[i]?.bind toFloat) = l.mapM fun i => row[i]?.bind toFloat := by
      intro l hl
      induction l with
      | nil => rfl
      | cons i l ih =>
        rw [List.mapM_cons, List.mapM_cons, ih fun j hj => hl j (by simp [hj]), hget]
        have hi := hl i (by simp)
        cases row[i]? <;> simp [hi]
    refine key _ fun i hi => ?_
    simpa using (List.mem_filter.mp hi).2
  unfold rfEncode
  by_cases hne : levels = []
  · subst hne
    have : renameLevels (([] : RfLevels α).map Prod.fst) f row = row := by
      unfold renameLevels
      refine List.ext_getElem? fun i => ?_
      rw [List.getElem?_mapIdx]
      simp
    rw [this]
    rfl
  · have hne' : renameDescription f levels ≠ [] := by
      unfold renameDescription
      simpa using hne
    rw [if_neg hne, if_neg hne', hkeys, hnum]
    congr 1
    unfold renameDescription
    rw [List.mapM_map]
    have key : ∀ l : List (ℕ × List α), (∀ kl ∈ l, kl ∈ levels) →
        l.mapM ((rfOneHot (renameLevels (levels.map Prod.fst) f row) : _ → Option (List K)) ∘ fun kl => (kl.1, kl.2.map (f kl.1))) = l.mapM (rfOneHot row) := by
      intro l hl
      induction l with
      | nil => rfl
      | cons kl l ih => rw [List.mapM_cons, List.mapM_cons, ih fun j hj => hl j (by simp [hj]), Function.comp_apply, hone kl (hl kl (by simp))]
    exact key levels fun _ h => h

/-- **C190, refuted for the settings of the forest**: with `n_estimators` raised after the fit, the missing trees count as predictions of 0, and the prediction leaves the range of the
observations. -/
theorem c190_stale_count_refuted : ∃ (y : List ℚ) (trees : List (RegTree ℚ)) (nEst : ℕ), (∀ t ∈ trees, TrainedOn y.length t) ∧ (∀ v ∈ y, 6 ≤ v ∧ v ≤ 8) ∧
    ∃ m s, rfPredict (α := ℚ) some [] nEst (trees.map (treePredict y)) [1, 0] [3] = some (m, s) ∧ m < 6 :=
  ⟨[6, 8], [.leaf [0], .node 0 2 (.leaf [1]) (.leaf [0])], 4, by simp [TrainedOn], by simp; norm_num, 3, some 12, by decide +kernel, by norm_num⟩

/-- Non-vacuity: two trees, one of which splits, on two observations: mean 7, variance 2. -/
theorem c190_concrete : (∀ t ∈ [RegTree.leaf [0, 0], .node 0 (2 : ℚ) (.leaf [0]) (.leaf [1])], TrainedOn [(6 : ℚ), 8].length t) ∧
    forestPredict (α := ℚ) some [] [6, 8] [.leaf [0, 0], .node 0 2 (.leaf [0]) (.leaf [1])] [1, 0] [3] = some (7, some 2) :=
  ⟨by simp [TrainedOn], by decide +kernel⟩

end Verif.Props
