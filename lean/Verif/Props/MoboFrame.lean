import Verif.Props.Mobo
import Verif.Spec.MoboFrame
import Verif.Spec.Mobo
import Mathlib.Data.Fin.VecNotation
import Mathlib.Tactic.FieldSimp
import Mathlib.Tactic.Ring

/-!
# C183: a multi-objective optimisation does not depend on how the objectives are written down
-/
namespace Verif.Props

open Verif.Model Verif.Spec Verif.Proofs

variable {X : Type*} {m : ℕ}

private theorem colMin_eq {P : List (Fin (m + 1) → ℝ)} {k : Fin (m + 1)} {c : ℝ} (h1 : ∃ y ∈ P, y k = c) (h2 : ∀ y ∈ P, c ≤ y k) : colMin P k = c := by
  obtain ⟨y, hy, rfl⟩ := h1
  refine le_antisymm (colMin_le P k hy) ?_
  obtain ⟨z, hz, he⟩ := colMin_mem (List.ne_nil_of_mem hy) k
  rw [← he]
  exact h2 z hz

private theorem colMax_eq {P : List (Fin (m + 1) → ℝ)} {k : Fin (m + 1)} {c : ℝ} (h1 : ∃ y ∈ P, y k = c) (h2 : ∀ y ∈ P, y k ≤ c) : colMax P k = c := by
  obtain ⟨y, hy, rfl⟩ := h1
  refine le_antisymm ?_ (le_colMax P k hy)
  obtain ⟨z, hz, he⟩ := colMax_mem (List.ne_nil_of_mem hy) k
  rw [← he]
  exact h2 z hz

private theorem compress_comm {α β : Type*} (g : α → β) : ∀ (l : List α) (b : List Bool), compress (l.map g) b = (compress l b).map g
  | [], _ => by simp [compress]
  | _ :: _, [] => by simp [compress]
  | x :: l, true :: b => by simp [compress, compress_comm g l b]
  | x :: l, false :: b => by simp [compress, compress_comm g l b]

private theorem snd_in (f : (Fin m → ℝ) → (Fin m → ℝ)) (d : List (X × (Fin m → ℝ))) : (recordsIn f d).map Prod.snd = (d.map Prod.snd).map f := by
  simp [recordsIn, Function.comp_def]

private theorem dominated_map {g : (Fin m → ℝ) → (Fin m → ℝ)} {Y : List (Fin m → ℝ)} (hd : ∀ y ∈ Y, ∀ z ∈ Y, dominatesRow (g y) (g z) = dominatesRow y z)
    (he : ∀ y ∈ Y, ∀ z ∈ Y, (∀ k, g y k = g z k) ↔ ∀ k, y k = z k) (dedup : Bool) : isNonDominated (Y.map g) dedup = isNonDominated Y dedup := by
  have h1 : ndMask (Y.map g) = ndMask Y := by
    unfold ndMask
    rw [List.map_map]
    refine List.map_congr_left fun z hz => ?_
    simp only [Function.comp_apply, List.any_map]
    congr 1
    rw [Bool.eq_iff_iff, List.any_eq_true, List.any_eq_true]
    refine exists_congr fun y => and_congr_right fun hy => ?_
    simp only [Function.comp_apply]
    rw [hd y hy z hz]
  have h2 : (Y.map g).map (firstEqual (Y.map g)) = Y.map (firstEqual Y) := by
    rw [List.map_map]
    refine List.map_congr_left fun z hz => ?_
    simp only [Function.comp_apply]
    unfold firstEqual
    rw [List.findIdx_map]
    have : ∀ l : List (Fin m → ℝ), (∀ y ∈ l, y ∈ Y) →
        l.findIdx ((fun yj => decide (∀ k, yj k = g z k)) ∘ g) = l.findIdx (fun yj => decide (∀ k, yj k = z k)) := by
      intro l
      induction l with
      | nil => intro _; rfl
      | cons y l ih =>
        intro hl
        have e : ((fun yj => decide (∀ k, yj k = g z k)) ∘ g) y = decide (∀ k, y k = z k) := by
          simp only [Function.comp_apply]
          exact decide_eq_decide.mpr (he y (hl y List.mem_cons_self) z hz)
        rw [List.findIdx_cons, List.findIdx_cons, e, ih (fun w hw => hl w (List.mem_cons_of_mem _ hw))]
    exact this Y fun y hy => hy
  unfold isNonDominated
  rw [h1, h2, List.length_map]

/-! ### Runs -/

/-- Two problems of which the second shows the optimiser the outcomes changed by `f`, as long as the records satisfy `P`. -/
private structure SameProblem (f : (Fin (m + 1) → ℝ) → (Fin (m + 1) → ℝ)) (P : List (X × (Fin (m + 1) → ℝ)) → Prop) (L L' : MoLearner X m) : Prop where
  start : ∀ i, L'.propose i none = L.propose i none
  step : ∀ i d, P d → L'.propose i (some (moView L' (recordsIn f d))) = L.propose i (some (moView L d))
  front : ∀ d, P d → moXopt L'.single L'.minimize (recordsIn f d) = recordsIn f (moXopt L.single L.minimize d)
  finite : ∀ xs : List X, allFinite (xs.map (fun x => (x, L'.objectives x))) = (allFinite (xs.map (fun x => (x, L.objectives x)))).map (recordsIn f)

private theorem tell_same {f : (Fin (m + 1) → ℝ) → (Fin (m + 1) → ℝ)} {P : List (X × (Fin (m + 1) → ℝ)) → Prop} {L L' : MoLearner X m} (h : SameProblem f P L L')
    (s : MoState X m) (xs : List X) (hs : ∀ new, allFinite (xs.map (fun x => (x, L.objectives x))) = some new → P (s.data.getD [] ++ new)) :
    moTell L'.single L'.minimize (moStateIn f s) (xs.map (fun x => (x, L'.objectives x))) false =
      (moStateIn f (moTell L.single L.minimize s (xs.map (fun x => (x, L.objectives x))) false).1,
        (moTell L.single L.minimize s (xs.map (fun x => (x, L.objectives x))) false).2) := by
  unfold moTell
  rw [h.finite]
  cases hn : allFinite (xs.map (fun x => (x, L.objectives x))) with
  | none => simp [moStateIn]
  | some new =>
    have hd : (moStateIn f s).data.getD [] ++ recordsIn f new = recordsIn f (s.data.getD [] ++ new) := by
      cases hsd : s.data <;> simp [moStateIn, hsd, recordsIn]
    simp only [Option.map_some, Bool.false_eq_true, if_false, hd]
    rw [h.front _ (hs new hn)]
    simp [moStateIn, snd_in]

private theorem run_same {f : (Fin (m + 1) → ℝ) → (Fin (m + 1) → ℝ)} {P : List (X × (Fin (m + 1) → ℝ)) → Prop} {L L' : MoLearner X m} (h : SameProblem f P L L')
    (maxFEs : Option ℤ) : ∀ (fuel i : ℕ) (s : MoState X m) (log : List X), (∀ j d, (moRun maxFEs L j i s log).opt.data = some d → P d) →
    moRun maxFEs L' fuel i (moStateIn f s) log = moOutIn f (moRun maxFEs L fuel i s log)
  | 0, i, s, log, _ => rfl
  | fuel + 1, i, s, log, hs => by
    have hs0 : ∀ d, s.data = some d → P d := fun d hd => hs 0 d hd
    have hc : (moStateIn f s).evalCount = s.evalCount := rfl
    have hunf : ∀ j, moRun maxFEs L (j + 1) i s log = if maxFEs.any (fun b => decide (b ≤ (s.evalCount : ℤ))) then
      match s.data with
      | none => ⟨s, log, .raised⟩
      | some d => ⟨s, log, .stopped (moXopt L.single L.minimize d)⟩
    else
      match L.propose i (s.data.map (moView L)) with
      | none => ⟨s, log, .raised⟩
      | some xs =>
        match moTell L.single L.minimize s (xs.map (fun x => (x, L.objectives x))) false with
        | (s', false) => ⟨s', log ++ xs, .raised⟩
        | (s', true) => moRun maxFEs L j (i + 1) s' (log ++ xs) := fun j => rfl
    rw [hunf]
    simp only [moRun, hc]
    by_cases hb : maxFEs.any (fun b => decide (b ≤ (s.evalCount : ℤ))) = true
    · simp only [hb, if_true]
      cases hd : s.data with
      | none =>
        have : (moStateIn f s).data = none := by simp [moStateIn, hd]
        simp only [this]
        rfl
      | some d =>
        have : (moStateIn f s).data = some (recordsIn f d) := by simp [moStateIn, hd]
        simp only [this]
        rw [h.front d (hs0 d hd)]
        rfl
    · simp only [hb]
      have hv : L'.propose i ((moStateIn f s).data.map (moView L')) = L.propose i (s.data.map (moView L)) := by
        cases hd : s.data with
        | none => simp [moStateIn, hd, h.start]
        | some d => simp [moStateIn, hd, h.step i d (hs0 d hd)]
      simp only [Bool.false_eq_true, if_false, hv]
      cases hp : L.propose i (s.data.map (moView L)) with
      | none => rfl
      | some xs =>
        simp only
        have hsp : ∀ new, allFinite (xs.map (fun x => (x, L.objectives x))) = some new → P (s.data.getD [] ++ new) := by
          intro new hn
          refine hs 1 _ ?_
          rw [hunf, if_neg hb, hp]
          simp [moTell, hn, moRun]
        rw [tell_same h s xs hsp]
        rcases ht : moTell L.single L.minimize s (xs.map (fun x => (x, L.objectives x))) false with ⟨s', ok⟩
        cases ok with
        | false => rfl
        | true =>
          refine run_same h maxFEs fuel (i + 1) s' (log ++ xs) (fun j d hd => hs (j + 1) d ?_)
          rw [hunf, if_neg hb, hp]
          simp only [ht]
          exact hd

/-! ### Units -/

section units

variable (a b : Fin (m + 1) → ℝ)

private theorem min_in (ha : ∀ k, 0 < a k) {F : List (Fin (m + 1) → ℝ)} (hF : F ≠ []) (k : Fin (m + 1)) :
    colMin (F.map (outcomeIn a b)) k = a k * colMin F k + b k := by
  obtain ⟨y, hy, he⟩ := colMin_mem hF k
  refine colMin_eq ⟨_, List.mem_map_of_mem hy, by simp [outcomeIn, he]⟩ ?_
  intro z hz
  obtain ⟨v, hv, rfl⟩ := List.mem_map.mp hz
  have := mul_le_mul_of_nonneg_left (colMin_le F k hv) (ha k).le
  simp only [outcomeIn]
  linarith

private theorem max_in (ha : ∀ k, 0 < a k) {F : List (Fin (m + 1) → ℝ)} (hF : F ≠ []) (k : Fin (m + 1)) :
    colMax (F.map (outcomeIn a b)) k = a k * colMax F k + b k := by
  obtain ⟨y, hy, he⟩ := colMax_mem hF k
  refine colMax_eq ⟨_, List.mem_map_of_mem hy, by simp [outcomeIn, he]⟩ ?_
  intro z hz
  obtain ⟨v, hv, rfl⟩ := List.mem_map.mp hz
  have := mul_le_mul_of_nonneg_left (le_colMax F k hv) (ha k).le
  simp only [outcomeIn]
  linarith

private theorem scale_in (ha : ∀ k, 0 < a k) {F : List (Fin (m + 1) → ℝ)} (hs : SpreadIn a F) {v : Fin (m + 1) → ℝ} (hv : v ∈ F) (k : Fin (m + 1)) :
    minMaxScale (F.map (outcomeIn a b)) (outcomeIn a b v) k = minMaxScale F v k := by
  have hF := List.ne_nil_of_mem hv
  unfold minMaxScale
  rw [min_in a b ha hF, max_in a b ha hF]
  have hnum : outcomeIn a b v k - (a k * colMin F k + b k) = a k * (v k - colMin F k) := by unfold outcomeIn; ring
  have hden : a k * colMax F k + b k - (a k * colMin F k + b k) = a k * (colMax F k - colMin F k) := by ring
  rw [hnum, hden]
  rcases hs k with h | ⟨⟨u, hu, w, hw, h1⟩, u', hu', w', hw', h2⟩
  · obtain ⟨y, hy, he⟩ := colMin_mem hF k
    have : v k - colMin F k = 0 := by rw [← he, h v hv y hy, sub_self]
    simp [this]
  · have hr1 : (10 : ℝ) / 2 ^ 52 ≤ colMax F k - colMin F k := by linarith [colMin_le F k hu, le_colMax F k hw]
    have hr2 : (10 : ℝ) / 2 ^ 52 ≤ a k * (colMax F k - colMin F k) := by
      refine h2.trans (mul_le_mul_of_nonneg_left ?_ (ha k).le)
      linarith [colMin_le F k hu', le_colMax F k hw']
    unfold scaleRange
    rw [if_neg (not_lt.mpr hr1), if_neg (not_lt.mpr hr2)]
    exact mul_div_mul_left _ _ (ha k).ne'

private theorem y_in (ha : ∀ k, 0 < a k) (minimize : Fin (m + 1) → Bool) {F : List (Fin (m + 1) → ℝ)} (hs : SpreadIn a F) :
    moY minimize (F.map (outcomeIn a b)) = moY minimize F := by
  unfold moY
  rw [List.map_map]
  refine List.map_congr_left fun v hv => ?_
  funext k
  simp only [Function.comp_apply, moRow]
  rw [scale_in a b ha hs hv]

/-- **C183**: with the outcomes in other units and from other zeros, the transformed values and the reference point are the same, and the reported front consists of the same records. -/
theorem c183_units_front_partial (ha : ∀ k, 0 < a k) (single : ℝ → ℝ) (minimize : Fin (m + 1) → Bool) (d : List (X × (Fin (m + 1) → ℝ)))
    (hs : SpreadIn a (d.map Prod.snd)) :
    moY minimize ((recordsIn (outcomeIn a b) d).map Prod.snd) = moY minimize (d.map Prod.snd) ∧
    moRefPoint minimize ((recordsIn (outcomeIn a b) d).map Prod.snd) = moRefPoint minimize (d.map Prod.snd) ∧
    moXopt single minimize (recordsIn (outcomeIn a b) d) = recordsIn (outcomeIn a b) (moXopt single minimize d) := by
  have hy := y_in a b ha minimize hs
  refine ⟨by rw [snd_in, hy], ?_, ?_⟩
  · funext k
    unfold moRefPoint
    rw [snd_in, hy]
  · unfold moXopt
    rw [snd_in, hy]
    unfold recordsIn
    exact compress_comm _ _ _

private theorem view_in (ha : ∀ k, 0 < a k) (L : MoLearner X m) (d : List (X × (Fin (m + 1) → ℝ))) (hs : SpreadIn a (d.map Prod.snd)) :
    moView (objectivesIn a b L) (recordsIn (outcomeIn a b) d) = moView L d := by
  unfold moView
  refine Prod.ext ?_ (c183_units_front_partial a b ha L.single L.minimize d hs).2.1
  simp only [snd_in]
  simp only [recordsIn, List.map_map]
  refine List.map_congr_left fun p hp => ?_
  refine Prod.ext rfl ?_
  funext k
  have hsc := scale_in a b ha hs (List.mem_map_of_mem hp) k
  rw [List.map_map] at hsc
  simp only [Function.comp_apply, moRow]
  rw [hsc]
  rfl

private theorem finite_in (L : MoLearner X m) (xs : List X) :
    allFinite (xs.map (fun x => (x, (objectivesIn a b L).objectives x))) = (allFinite (xs.map (fun x => (x, L.objectives x)))).map (recordsIn (outcomeIn a b)) := by
  unfold allFinite
  have hiff : (∀ p ∈ xs.map (fun x => (x, (objectivesIn a b L).objectives x)), ∀ k, (p.2 k).isSome = true) ↔
      ∀ p ∈ xs.map (fun x => (x, L.objectives x)), ∀ k, (p.2 k).isSome = true := by
    simp [objectivesIn]
  by_cases h : ∀ p ∈ xs.map (fun x => (x, L.objectives x)), ∀ k, (p.2 k).isSome = true
  · rw [if_pos h, if_pos (hiff.mpr h)]
    simp only [Option.map_some, recordsIn, List.map_map, Option.some.injEq]
    refine List.map_congr_left fun x hx => Prod.ext rfl ?_
    funext k
    have := h _ (List.mem_map_of_mem hx) k
    obtain ⟨v, hv⟩ := Option.isSome_iff_exists.mp this
    simp only at hv
    simp [objectivesIn, outcomeIn, hv]
  · rw [if_neg h, if_neg (fun h' => h (hiff.mp h'))]
    rfl

/-- **C183, partial**: a whole multi-objective run with the objectives measured in other units and from other zeros evaluates the same points in the same order, ends at the same step in the
same way, and reports the same front, written in the new units; whatever the surrogate and the search do with the points, the transformed values and the reference point.

Missing: objectives in which the recorded outcomes differ, but by less than ten machine precisions in one of the units (`c183_tiny_range_refuted`). -/
theorem c183_units_partial (ha : ∀ k, 0 < a k) (maxFEs : Option ℤ) (L : MoLearner X m)
    (hs : ∀ j d, (moRun maxFEs L j 0 {} []).opt.data = some d → SpreadIn a (d.map Prod.snd)) (fuel : ℕ) :
    moRun maxFEs (objectivesIn a b L) fuel 0 {} [] = moOutIn (outcomeIn a b) (moRun maxFEs L fuel 0 {} []) :=
  run_same (f := outcomeIn a b) (P := fun d => SpreadIn a (d.map Prod.snd)) (L := L) (L' := objectivesIn a b L)
    ⟨fun _ => rfl, fun i d hd => congrArg (fun v => L.propose i (some v)) (view_in a b ha L d hd),
      fun d hd => (c183_units_front_partial a b ha L.single L.minimize d hd).2.2, finite_in a b L⟩ maxFEs fuel 0 {} [] hs

end units

/-- **C183, refuted**: outcomes whose range is below ten machine precisions are not scaled: 0 and `2 / 2 ^ 52` become 0 and `-2 / 2 ^ 52`, in units sixteen times smaller they become 0 and -1. -/
theorem c183_tiny_range_refuted : ∃ F : List (Fin 2 → ℝ), F = [![0, 0], ![2 / 2 ^ 52, 1]] ∧
    moY (m := 1) (fun _ => true) F = [![0, 0], ![-(2 / 2 ^ 52), -1]] ∧
    moY (m := 1) (fun _ => true) (F.map (outcomeIn ![16, 1] 0)) = [![0, 0], ![-1, -1]] := by
  refine ⟨_, rfl, ?_, ?_⟩
  · simp only [moY, List.map_cons, List.map_nil, List.cons.injEq, and_true]
    constructor <;>
    · funext k
      fin_cases k <;> norm_num [moRow, minMaxScale, colMin, colMax, scaleRange, flipSign]
  · simp only [moY, List.map_cons, List.map_nil, List.cons.injEq, and_true]
    constructor <;>
    · funext k
      fin_cases k <;> norm_num [moRow, minMaxScale, colMin, colMax, scaleRange, flipSign, outcomeIn]

/-! ### The order of the objectives -/

section listed

variable (σ : Equiv.Perm (Fin (m + 1)))

private theorem row_listed (minimize : Fin (m + 1) → Bool) (F : List (Fin (m + 1) → ℝ)) (v : Fin (m + 1) → ℝ) :
    moRow (listedAs σ minimize) (F.map (listedAs σ)) (listedAs σ v) = listedAs σ (moRow minimize F v) := by
  funext k
  simp [moRow, minMaxScale, colMin, colMax, listedAs, Function.comp_def]

private theorem y_listed (minimize : Fin (m + 1) → Bool) (F : List (Fin (m + 1) → ℝ)) :
    moY (listedAs σ minimize) (F.map (listedAs σ)) = (moY minimize F).map (listedAs σ) := by
  unfold moY
  rw [List.map_map, List.map_map]
  exact List.map_congr_left fun v _ => row_listed σ minimize F v

private theorem ref_listed (minimize : Fin (m + 1) → Bool) (F : List (Fin (m + 1) → ℝ)) :
    moRefPoint (listedAs σ minimize) (F.map (listedAs σ)) = listedAs σ (moRefPoint minimize F) := by
  funext k
  unfold moRefPoint
  rw [y_listed]
  simp [colMin, listedAs, Function.comp_def]

private theorem front_listed (single : ℝ → ℝ) (minimize : Fin (m + 1) → Bool) (d : List (X × (Fin (m + 1) → ℝ))) :
    moXopt single (listedAs σ minimize) (recordsIn (listedAs σ) d) = recordsIn (listedAs σ) (moXopt single minimize d) := by
  unfold moXopt
  rw [snd_in, y_listed]
  have e : ((moY minimize (d.map Prod.snd)).map (listedAs σ)).map (fun r k => single (r k)) =
      ((moY minimize (d.map Prod.snd)).map (fun r k => single (r k))).map (listedAs σ) := by
    rw [List.map_map, List.map_map]
    rfl
  rw [e, dominated_map]
  · unfold recordsIn
    exact compress_comm _ _ _
  · intro y _ z _
    unfold dominatesRow listedAs
    congr 1
    · exact decide_eq_decide.mpr ⟨fun h k => by simpa using h (σ.symm k), fun h k => h (σ k)⟩
    · exact decide_eq_decide.mpr ⟨fun ⟨k, h⟩ => ⟨σ k, h⟩, fun ⟨k, h⟩ => ⟨σ.symm k, by simpa using h⟩⟩
  · intro y _ z _
    exact ⟨fun h k => by simpa [listedAs] using h (σ.symm k), fun h k => h (σ k)⟩

private theorem unlisted (v : Fin (m + 1) → ℝ) : listedAs σ.symm (listedAs σ v) = v := by
  funext k
  simp [listedAs]

private theorem finite_listed (L : MoLearner X m) (xs : List X) :
    allFinite (xs.map (fun x => (x, (objectivesListed σ L).objectives x))) = (allFinite (xs.map (fun x => (x, L.objectives x)))).map (recordsIn (listedAs σ)) := by
  unfold allFinite
  have hiff : (∀ p ∈ xs.map (fun x => (x, (objectivesListed σ L).objectives x)), ∀ k, (p.2 k).isSome = true) ↔
      ∀ p ∈ xs.map (fun x => (x, L.objectives x)), ∀ k, (p.2 k).isSome = true := by
    simp only [List.mem_map, forall_exists_index, and_imp, forall_apply_eq_imp_iff₂, objectivesListed, listedAs]
    exact ⟨fun h x hx k => by simpa using h x hx (σ.symm k), fun h x hx k => h x hx (σ k)⟩
  by_cases h : ∀ p ∈ xs.map (fun x => (x, L.objectives x)), ∀ k, (p.2 k).isSome = true
  · rw [if_pos h, if_pos (hiff.mpr h)]
    simp only [Option.map_some, recordsIn, List.map_map, Option.some.injEq]
    exact List.map_congr_left fun x _ => rfl
  · rw [if_neg h, if_neg (fun h' => h (hiff.mp h'))]
    rfl

/-- **C183**: a whole run with the objectives listed in another order evaluates the same points and reports the same front, with the objectives in the new order. -/
theorem c183_order_of_objectives (maxFEs : Option ℤ) (L : MoLearner X m) (fuel : ℕ) :
    moRun maxFEs (objectivesListed σ L) fuel 0 {} [] = moOutIn (listedAs σ) (moRun maxFEs L fuel 0 {} []) :=
  run_same (f := listedAs σ) (P := fun _ => True) (L := L) (L' := objectivesListed σ L)
    ⟨fun _ => rfl, fun i d _ => by
      have hv : moView (objectivesListed σ L) (recordsIn (listedAs σ) d) = (recordsIn (listedAs σ) (moView L d).1, listedAs σ (moView L d).2) := by
        unfold moView
        refine Prod.ext ?_ ?_
        · simp only [recordsIn, List.map_map]
          refine List.map_congr_left fun p _ => Prod.ext rfl ?_
          have := row_listed σ L.minimize (d.map Prod.snd) p.2
          rw [List.map_map] at this
          exact this
        · simp only [snd_in]
          exact ref_listed σ L.minimize (d.map Prod.snd)
      rw [hv]
      change L.propose i (some (((recordsIn (listedAs σ) (moView L d).1).map fun p => (p.1, listedAs σ.symm p.2)), listedAs σ.symm (listedAs σ (moView L d).2))) = _
      simp [recordsIn, unlisted, Function.comp_def],
      fun d _ => front_listed σ L.single L.minimize d, finite_listed σ L⟩ maxFEs fuel 0 {} [] (fun _ _ _ => trivial)

end listed

/-! ### The direction of the objectives -/

open Classical in
theorem mo_front_spec {single : ℝ → ℝ} (hsingle : StrictMono single) (minimize : Fin (m + 1) → Bool) (d : List (X × (Fin (m + 1) → ℝ))) :
    moXopt single minimize d = ((List.range d.length).filter (fun i => decide (Efficient minimize d i ∧ NewOutcome d i))).filterMap (fun i => d[i]?) := by
  have h := c43_xopt_partial hsingle minimize [(d.map (fun p => (p.1, fun k => some (p.2 k))), true)]
  simp only at h
  have hd : (moHistory single minimize [(d.map (fun p => (p.1, fun k => some (p.2 k))), true)]).data.getD [] = d := by
    rw [h.1]
    have : allFinite (d.map (fun p => (p.1, fun k => some (p.2 k)))) = some d := by
      unfold allFinite
      rw [if_pos (by
        intro p hp k
        obtain ⟨q, -, rfl⟩ := List.mem_map.mp hp
        rfl)]
      simp [Function.comp_def]
    simp [this]
  rw [hd] at h
  exact h.2

/-- **C183**: minimising an objective and maximising its negative give the same front, provided rounding to single precision keeps values apart. -/
theorem c183_direction_front_partial {single : ℝ → ℝ} (hsingle : StrictMono single) (S minimize : Fin (m + 1) → Bool) (d : List (X × (Fin (m + 1) → ℝ))) :
    moXopt single (oppositeDirection S minimize) (recordsIn (oppositeSign S) d) = recordsIn (oppositeSign S) (moXopt single minimize d) := by
  classical
  rw [mo_front_spec hsingle, mo_front_spec hsingle]
  have hlen : (recordsIn (oppositeSign S) d).length = d.length := by simp [recordsIn]
  have hget : ∀ i : ℕ, (recordsIn (oppositeSign S) d)[i]? = d[i]?.map (fun p => (p.1, oppositeSign S p.2)) := by simp [recordsIn]
  have hdom : ∀ u v : Fin (m + 1) → ℝ, DominatesIn (oppositeDirection S minimize) (oppositeSign S u) (oppositeSign S v) ↔ DominatesIn minimize u v := by
    intro u v
    unfold DominatesIn
    refine and_congr (forall_congr' fun k => ?_) (exists_congr fun k => ?_)
    · unfold NoWorse oppositeDirection oppositeSign
      cases S k <;> cases minimize k <;> simp
    · unfold BetterIn oppositeDirection oppositeSign
      cases S k <;> cases minimize k <;> simp
  have hinj : ∀ u v : Fin (m + 1) → ℝ, oppositeSign S u = oppositeSign S v ↔ u = v := by
    intro u v
    refine ⟨fun h => funext fun k => ?_, fun h => by rw [h]⟩
    have := congrFun h k
    unfold oppositeSign at this
    cases hk : S k <;> simpa [hk] using this
  have heff : ∀ i, Efficient (oppositeDirection S minimize) (recordsIn (oppositeSign S) d) i ↔ Efficient minimize d i := by
    intro i
    unfold Efficient
    rw [hget]
    cases d[i]? with
    | none => simp
    | some p =>
      simp only [Option.map_some, Option.some.injEq, exists_eq_left']
      simp only [recordsIn, List.mem_map, forall_exists_index, and_imp, forall_apply_eq_imp_iff₂, hdom]
  have hnew : ∀ i, NewOutcome (recordsIn (oppositeSign S) d) i ↔ NewOutcome d i := by
    intro i
    unfold NewOutcome
    rw [hlen]
    refine and_congr_right fun _ => ?_
    simp only [hget]
    constructor
    · intro h j p q hj hp hq hpq
      exact h j (p.1, oppositeSign S p.2) (q.1, oppositeSign S q.2) hj (by rw [hp]; rfl) (by rw [hq]; rfl) (by rw [hpq])
    · intro h j p q hj hp hq hpq
      obtain ⟨p', hp', rfl⟩ := Option.map_eq_some_iff.mp hp
      obtain ⟨q', hq', rfl⟩ := Option.map_eq_some_iff.mp hq
      exact h j p' q' hj hp' hq' ((hinj _ _).mp hpq)
  rw [hlen]
  simp only [heff, hnew, hget]
  conv_rhs => rw [recordsIn, List.map_filterMap]

/-- **C183, refuted**: the reference point is not the same.  Of the outcomes (0, 0) and (1, 1), both objectives minimised, the second lies beyond the reference point; with
the negatives maximised no outcome does. -/
theorem c183_direction_refuted : ∃ F : List (Fin 2 → ℝ), F = [![0, 0], ![1, 1]] ∧
    (∃ y ∈ moY (m := 1) (fun _ => true) F, ∀ k, y k < moRefPoint (m := 1) (fun _ => true) F k) ∧
    ∀ y ∈ moY (m := 1) (fun _ => false) (F.map (oppositeSign (fun _ => true))), ∀ k,
      moRefPoint (m := 1) (fun _ => false) (F.map (oppositeSign (fun _ => true))) k ≤ y k := by
  refine ⟨_, rfl, ?_, ?_⟩
  · have hy : moY (m := 1) (fun _ => true) [![0, 0], ![1, 1]] = [![0, 0], ![-1, -1]] := by
      simp only [moY, List.map_cons, List.map_nil, List.cons.injEq, and_true]
      constructor <;>
      · funext k
        fin_cases k <;> norm_num [moRow, minMaxScale, colMin, colMax, scaleRange, flipSign]
    refine ⟨![-1, -1], by rw [hy]; simp, fun k => ?_⟩
    unfold moRefPoint
    rw [hy]
    fin_cases k <;> norm_num [colMin]
  · have hy : moY (m := 1) (fun _ => false) ([![0, 0], ![1, 1]].map (oppositeSign (fun _ => true))) = [![1, 1], ![0, 0]] := by
      simp only [moY, List.map_cons, List.map_nil, List.cons.injEq, and_true]
      constructor <;>
      · funext k
        fin_cases k <;> norm_num [moRow, minMaxScale, colMin, colMax, scaleRange, flipSign, oppositeSign]
    intro y hyy k
    unfold moRefPoint
    rw [hy] at hyy ⊢
    simp only [List.mem_cons, List.not_mem_nil, or_false] at hyy
    rcases hyy with rfl | rfl <;> fin_cases k <;> norm_num [colMin]

/-! ### The order of the observations -/

private theorem colMin_perm {P Q : List (Fin (m + 1) → ℝ)} (h : P.Perm Q) (hne : P ≠ []) (k : Fin (m + 1)) : colMin P k = colMin Q k := by
  have hq : Q ≠ [] := fun e => hne (by rw [e] at h; exact h.eq_nil)
  obtain ⟨z, hz, he⟩ := colMin_mem hq k
  exact colMin_eq ⟨z, h.mem_iff.mpr hz, he⟩ (fun y hy => colMin_le Q k (h.mem_iff.mp hy))

private theorem colMax_perm {P Q : List (Fin (m + 1) → ℝ)} (h : P.Perm Q) (hne : P ≠ []) (k : Fin (m + 1)) : colMax P k = colMax Q k := by
  have hq : Q ≠ [] := fun e => hne (by rw [e] at h; exact h.eq_nil)
  obtain ⟨z, hz, he⟩ := colMax_mem hq k
  exact colMax_eq ⟨z, h.mem_iff.mpr hz, he⟩ (fun y hy => le_colMax Q k (h.mem_iff.mp hy))

theorem mo_front_mem {single : ℝ → ℝ} (hsingle : StrictMono single) (minimize : Fin (m + 1) → Bool) (d : List (X × (Fin (m + 1) → ℝ))) (v : Fin (m + 1) → ℝ) :
    v ∈ (moXopt single minimize d).map Prod.snd ↔ v ∈ d.map Prod.snd ∧ ∀ w ∈ d.map Prod.snd, ¬ DominatesIn minimize w v := by
  classical
  rw [mo_front_spec hsingle]
  simp only [List.mem_map, List.mem_filterMap, List.mem_filter, List.mem_range, decide_eq_true_eq]
  constructor
  · rintro ⟨p, ⟨i, ⟨hi, he, -⟩, hp⟩, rfl⟩
    refine ⟨⟨p, List.mem_of_getElem? hp, rfl⟩, ?_⟩
    rintro w ⟨q, hq, rfl⟩
    obtain ⟨p', hp', h⟩ := he
    rw [hp] at hp'
    cases hp'
    exact h q hq
  · rintro ⟨⟨p, hp, rfl⟩, h⟩
    have hex : ∃ i : ℕ, ∃ q : X × (Fin (m + 1) → ℝ), d[i]? = some q ∧ q.2 = p.2 := by
      obtain ⟨i, hi⟩ := List.mem_iff_getElem?.mp hp
      exact ⟨i, p, hi, rfl⟩
    obtain ⟨q, hq, hqp⟩ := Nat.find_spec hex
    have hlt := (List.getElem?_eq_some_iff.mp hq).1
    refine ⟨q, ⟨Nat.find hex, ⟨hlt, ⟨q, hq, fun r hr => by rw [hqp]; exact h _ ⟨r, hr, rfl⟩⟩, hlt, ?_⟩, hq⟩, hqp⟩
    intro j r r' hj hr hr' e
    rw [hq] at hr'
    cases hr'
    exact Nat.find_min hex hj ⟨r, hr, by rw [e, hqp]⟩

theorem mo_front_nodup {single : ℝ → ℝ} (hsingle : StrictMono single) (minimize : Fin (m + 1) → Bool) (d : List (X × (Fin (m + 1) → ℝ))) :
    ((moXopt single minimize d).map Prod.snd).Nodup := by
  classical
  rw [mo_front_spec hsingle, List.map_filterMap]
  have hp : ((List.range d.length).filter (fun i => decide (Efficient minimize d i ∧ NewOutcome d i))).Pairwise (fun i j => i < j ∧ NewOutcome d j) := by
    refine List.Pairwise.imp_of_mem ?_ (List.pairwise_lt_range.filter _)
    intro i j _ hj hij
    simp only [List.mem_filter, decide_eq_true_eq] at hj
    exact ⟨hij, hj.2.2⟩
  unfold List.Nodup
  refine List.Pairwise.filterMap _ ?_ hp
  rintro i j ⟨hij, -, hn⟩ u hu v hv e
  obtain ⟨p, hp', rfl⟩ := Option.map_eq_some_iff.mp hu
  obtain ⟨q, hq', rfl⟩ := Option.map_eq_some_iff.mp hv
  exact hn i p q hij hp' hq' e

/-- **C183**: the order in which the same observations were recorded changes neither the transformed values nor the reference point nor the outcomes on the front. -/
theorem c183_order_of_observations_partial {single : ℝ → ℝ} (hsingle : StrictMono single) (L : MoLearner X m) (d d' : List (X × (Fin (m + 1) → ℝ))) (h : d.Perm d') :
    (moView L d).1.Perm (moView L d').1 ∧ (moView L d).2 = (moView L d').2 ∧
      ((moXopt single L.minimize d).map Prod.snd).Perm ((moXopt single L.minimize d').map Prod.snd) ∧
      ((d.map Prod.snd).Nodup → (moXopt single L.minimize d).Perm (moXopt single L.minimize d')) := by
  classical
  by_cases hne : d = []
  · subst hne
    rw [h.nil_eq]
    exact ⟨List.Perm.refl _, rfl, List.Perm.refl _, fun _ => List.Perm.refl _⟩
  have hF : (d.map Prod.snd).Perm (d'.map Prod.snd) := h.map _
  have hFne : d.map Prod.snd ≠ [] := by simpa using hne
  have hrow : ∀ v, moRow L.minimize (d.map Prod.snd) v = moRow L.minimize (d'.map Prod.snd) v := by
    intro v
    funext k
    unfold moRow minMaxScale
    rw [colMin_perm hF hFne, colMax_perm hF hFne]
  have hY : (moY L.minimize (d.map Prod.snd)).Perm (moY L.minimize (d'.map Prod.snd)) := by
    unfold moY
    rw [show moRow L.minimize (d.map Prod.snd) = moRow L.minimize (d'.map Prod.snd) from funext hrow]
    exact hF.map _
  have hfront : ((moXopt single L.minimize d).map Prod.snd).Perm ((moXopt single L.minimize d').map Prod.snd) := by
    refine (List.perm_ext_iff_of_nodup (mo_front_nodup hsingle _ _) (mo_front_nodup hsingle _ _)).mpr fun v => ?_
    rw [mo_front_mem hsingle, mo_front_mem hsingle]
    simp only [hF.mem_iff]
  refine ⟨?_, ?_, hfront, fun hnd => ?_⟩
  · unfold moView
    simp only [hrow]
    exact h.map _
  · unfold moView moRefPoint
    funext k
    simp only
    rw [colMin_perm hY (by simpa [moY] using hne)]
  · have hsub : ∀ e : List (X × (Fin (m + 1) → ℝ)), ∀ p ∈ moXopt single L.minimize e, p ∈ e := by
      intro e p hp
      rw [mo_front_spec hsingle] at hp
      obtain ⟨i, -, hi⟩ := List.mem_filterMap.mp hp
      exact List.mem_of_getElem? hi
    have hback : ∀ e e' : List (X × (Fin (m + 1) → ℝ)), e.Perm e' → (e.map Prod.snd).Nodup →
        ((moXopt single L.minimize e).map Prod.snd).Perm ((moXopt single L.minimize e').map Prod.snd) →
        ∀ p ∈ moXopt single L.minimize e, p ∈ moXopt single L.minimize e' := by
      intro e e' he hn hpm p hp
      obtain ⟨q, hq, hqp⟩ := List.mem_map.mp (hpm.mem_iff.mp (List.mem_map_of_mem hp))
      have hqe : q ∈ e := he.mem_iff.mpr (hsub e' q hq)
      have : q = p := List.inj_on_of_nodup_map hn hqe (hsub e p hp) hqp
      exact this ▸ hq
    refine (List.perm_ext_iff_of_nodup ((mo_front_nodup hsingle _ _).of_map _) ((mo_front_nodup hsingle _ _).of_map _)).mpr fun p => ?_
    exact ⟨hback d d' h hnd hfront p, hback d' d h.symm (hF.nodup_iff.mp hnd) hfront.symm p⟩

/-- **C183, refuted**: of two points with the same outcome the front shows the one recorded first. -/
theorem c183_tied_observations_refuted {single : ℝ → ℝ} (hsingle : StrictMono single) (minimize : Fin (m + 1) → Bool) (x₁ x₂ : X) (hx : x₁ ≠ x₂)
    (v : Fin (m + 1) → ℝ) : ¬ (moXopt single minimize [(x₁, v), (x₂, v)]).Perm (moXopt single minimize [(x₂, v), (x₁, v)]) := by
  rw [(c43_xopt_drops_equal_outcomes hsingle minimize x₁ x₂ v).2.2, (c43_xopt_drops_equal_outcomes hsingle minimize x₂ x₁ v).2.2]
  intro h
  have := h.mem_iff (a := (x₁, v))
  simp [hx] at this

/-! ### Non-vacuity -/

/-- Two objectives `x` and `2 - x`, the first minimised, the second maximised; the proposals follow the number of the step. -/
private noncomputable def lineLearner : MoLearner ℕ 1 where
  propose := fun i _ => if i < 2 then some [3 * i, 3 * i + 1] else none
  objectives := fun x => ![some (x : ℝ), some (2 - x)]
  minimize := ![true, false]
  single := id

/-- A whole run of it evaluates 0, 1, 3 and 4 and satisfies the hypothesis of `c183_units_partial` at every stage, in units ten and a hundred times as small. -/
theorem c183_concrete : (moRun (some 7) lineLearner 3 0 {} []).log = [0, 1, 3, 4] ∧
    ∀ j d, (moRun (some 7) lineLearner j 0 {} []).opt.data = some d → SpreadIn ![10, 100] (d.map Prod.snd) := by
  have h1 : ∀ x y : ℕ, allFinite [(x, lineLearner.objectives x), (y, lineLearner.objectives y)] =
      some [(x, ![(x : ℝ), 2 - x]), (y, ![(y : ℝ), 2 - y])] := by
    intro x y
    unfold allFinite
    rw [if_pos]
    · simp only [lineLearner, List.map_cons, List.map_nil, Option.some.injEq, List.cons.injEq, Prod.mk.injEq, true_and, and_true]
      constructor <;> (funext k; fin_cases k <;> rfl)
    · intro p hp k
      simp only [List.mem_cons, List.not_mem_nil, or_false] at hp
      rcases hp with rfl | rfl <;> fin_cases k <;> rfl
  have hp0 : ∀ v, lineLearner.propose 0 v = some [0, 1] := fun _ => rfl
  have hp1 : ∀ v, lineLearner.propose 1 v = some [3, 4] := fun _ => rfl
  have hs2 : SpreadIn ![10, 100] [![((0 : ℕ) : ℝ), 2 - ((0 : ℕ) : ℝ)], ![((1 : ℕ) : ℝ), 2 - ((1 : ℕ) : ℝ)]] := by
    intro k
    refine Or.inr ⟨?_, ?_⟩ <;> fin_cases k
    · exact ⟨_, List.mem_cons_self, _, List.mem_cons_of_mem _ List.mem_cons_self, by norm_num⟩
    · exact ⟨_, List.mem_cons_of_mem _ List.mem_cons_self, _, List.mem_cons_self, by norm_num⟩
    · exact ⟨_, List.mem_cons_self, _, List.mem_cons_of_mem _ List.mem_cons_self, by norm_num⟩
    · exact ⟨_, List.mem_cons_of_mem _ List.mem_cons_self, _, List.mem_cons_self, by norm_num⟩
  have hs4 : ∀ F : List (Fin 2 → ℝ), SpreadIn ![10, 100] ([![((0 : ℕ) : ℝ), 2 - ((0 : ℕ) : ℝ)], ![((1 : ℕ) : ℝ), 2 - ((1 : ℕ) : ℝ)]] ++ F) := by
    intro F k
    refine Or.inr ⟨?_, ?_⟩ <;> fin_cases k
    · exact ⟨_, List.mem_cons_self, _, List.mem_cons_of_mem _ List.mem_cons_self, by norm_num⟩
    · exact ⟨_, List.mem_cons_of_mem _ List.mem_cons_self, _, List.mem_cons_self, by norm_num⟩
    · exact ⟨_, List.mem_cons_self, _, List.mem_cons_of_mem _ List.mem_cons_self, by norm_num⟩
    · exact ⟨_, List.mem_cons_of_mem _ List.mem_cons_self, _, List.mem_cons_self, by norm_num⟩
  constructor
  · simp [moRun, moTell, hp0, hp1, h1]
  · intro j d hd
    match j with
    | 0 => simp [moRun] at hd
    | 1 =>
      simp [moRun, moTell, hp0, h1] at hd
      subst hd
      simpa using hs2
    | 2 =>
      simp [moRun, moTell, hp0, hp1, h1] at hd
      subst hd
      simpa using hs4 _
    | j + 3 =>
      simp [moRun, moTell, hp0, hp1, h1] at hd
      subst hd
      simpa using hs4 _

end Verif.Props
