import Verif.Model.MoboPropose
import Verif.Props.InnerSearch

/-!
# C142: a multi-objective optimiser that accepts its arguments can propose points
-/
namespace Verif.Props

open Verif.Model Verif.Spec Verif.Proofs

/-- **C142, the arguments.**  If the constructor returns, there is one direction per objective, namely the one given for it; with functions given, the
number of objectives is the number of functions and at least two, whatever `n_obj` says. -/
theorem c142_arguments (eval : String → Option ℚ) (o : InnerOptions) (types : List VType) (gr hh hg : Bool) (nObj : ℕ) (f : ObjFuns) (mi : MinimizeArg)
    (s : InnerSearch) (n : ℕ) (a : MinimizeAttr) (h : moboInit eval o types gr hh hg nObj f mi = some (s, n, a)) :
    (∀ cs, f = .funs cs → n = cs.length ∧ 2 ≤ n ∧ ∀ c ∈ cs, c = true) ∧ (f = .missing → n = nObj) ∧ f ≠ .notIterable ∧
    (∀ l, a = .each l → l.length = n ∧ (∀ b, mi = .flag b → ∀ x ∈ l, x = b) ∧ ∀ l', mi = .flags l' → l = l') ∧
    (∀ b, a = .all b → mi = .single b) := by
  simp only [moboInit, Option.bind_eq_some_iff, Option.map_eq_some_iff, Prod.mk.injEq] at h
  obtain ⟨_, -, n', h1, a', h2, -, rfl, rfl⟩ := h
  refine ⟨?_, ?_, ?_, ?_, ?_⟩
  · rintro cs rfl
    simp only [moboObjectives] at h1
    by_cases ha : cs.all id = true
    · rw [if_pos ha] at h1
      have e : (if cs.length ≠ nObj then cs.length else nObj) = cs.length := by
        split_ifs with hc
        · rfl
        · push Not at hc; exact hc.symm
      rw [e] at h1
      by_cases hlt : cs.length > 1
      · rw [if_pos hlt] at h1
        obtain rfl := Option.some.inj h1
        exact ⟨rfl, hlt, fun c hc => by simpa using List.all_eq_true.1 ha c hc⟩
      · rw [if_neg hlt] at h1; exact absurd h1 (by simp)
    · rw [if_neg ha] at h1; exact absurd h1 (by simp)
  · rintro rfl
    exact (Option.some.inj h1).symm
  · rintro rfl
    exact absurd h1 (by simp [moboObjectives])
  · rintro l rfl
    cases mi with
    | flag b =>
      have e : List.replicate n' b = l := by simpa [moboMinimize] using h2
      subst e
      refine ⟨by simp, fun b' hb x hx => ?_, fun l' hl => by simp at hl⟩
      rw [← MinimizeArg.flag.inj hb]
      exact (List.mem_replicate.1 hx).2
    | flags l0 =>
      simp only [moboMinimize] at h2
      split_ifs at h2 with hl
      have e : l0 = l := by simpa using h2
      subst e
      exact ⟨hl, fun b hb => by simp at hb, fun l' hl' => MinimizeArg.flags.inj hl'⟩
    | single b => exact absurd h2 (by simp [moboMinimize])
  · rintro b rfl
    cases mi with
    | flag b' => exact absurd h2 (by simp [moboMinimize])
    | flags l0 =>
      simp only [moboMinimize] at h2
      split_ifs at h2
      simp at h2
    | single b' =>
      have e : b' = b := by simpa [moboMinimize] using h2
      rw [e]

/-- The expected hypervolume improvement gives one value per point. -/
def OneValueEach (ehvi : List (List ℝ) → List ℝ) : Prop := ∀ X, (ehvi X).length = X.length

/-- **C142, exactly when `MOBO` proposes**, when no optimiser is named: unless all variables are real, the model has a gradient and there are no constraints, the
algorithm suited to several objectives runs; in that excepted case the proposal raises. -/
theorem c142_propose_partial (eval : String → Option ℚ) (o : InnerOptions) (ho : o.optimizer = none) (types : List VType) (hne : types ≠ []) (gr hh hg : Bool) (nObj : ℕ)
    (f : ObjFuns) (mi : MinimizeArg) (s : InnerSearch) (n : ℕ) (a : MinimizeAttr) (h : moboInit eval o types gr hh hg nObj f mi = some (s, n, a)) (hn : 2 ≤ n)
    (hr : 1 ≤ s.nRestart) (free : List VType) (hf : free ≠ []) (hsub : ∀ t ∈ free, t ∈ types) (names : List String) (fixed : FixedDict ℝ)
    (ehvi : List (List ℝ) → List ℝ) (he : OneValueEach ehvi) (x0 : List ℝ) :
    moboPropose s free names fixed ehvi x0 1 =
      open Classical in
      if AllReal types ∧ gr = true ∧ hh = false ∧ hg = false then .raised else .searched (suited ⟨types, gr, n, hh, hg⟩) := by
  classical
  simp only [moboInit, Option.bind_eq_some_iff, Option.map_eq_some_iff, Prod.mk.injEq] at h
  obtain ⟨s', h0, n', -, a', -, rfl, rfl, rfl⟩ := h
  have hread : ∀ a, (o.maxFEs = some a ∨ o.nRestart = some a ∨ o.waitIter = some a) → (argToInt eval a).isSome := by
    simp only [setInternal, Option.bind_eq_bind, Option.bind_eq_some_iff] at h0
    obtain ⟨m, h1, r, h2, w, h3, -⟩ := h0
    rintro a (e | e | e)
    · rw [e] at h1; rw [show argToInt eval a = some m from h1]; rfl
    · rw [e] at h2; rw [show argToInt eval a = some r from h2]; rfl
    · rw [e] at h3; rw [show argToInt eval a = some w from h3]; rfl
  obtain ⟨s2, hs2, hall⟩ := c127_default eval o ho ⟨types, gr, 1, hh, hg⟩ hne hread
  rw [h0] at hs2
  obtain rfl := Option.some.inj hs2
  have hrun := (hall free hf hsub).1
  unfold moboPropose
  rw [if_neg (by norm_num), if_neg (by omega), hrun]
  have hun : ((partialArgument ehvi names fixed (.single x0)).bind unpackTwo).isSome = false := by
    unfold partialArgument
    simp only [paFill]
    cases hbr : broadcastAxis (paFree (paMasks names fixed)) x0 with
    | none => rfl
    | some r =>
      simp only [Option.map_some, Option.bind_some]
      have := he [paMerge (paMasks names fixed) (paValues names fixed) r]
      obtain ⟨v, hv⟩ := List.length_eq_one_iff.1 this
      rw [hv]; rfl
  by_cases hb : AllReal types ∧ gr = true ∧ hh = false ∧ hg = false
  · obtain ⟨b1, rfl, rfl, rfl⟩ := hb
    have : suited ⟨types, true, 1, false, false⟩ = .bfgs := by simp [suited, b1]
    simp only [this]
    rw [hun]
    simp [b1]
  · rw [if_neg hb]
    have e : suited ⟨types, gr, 1, hh, hg⟩ = suited ⟨types, gr, n', hh, hg⟩ ∧ suited ⟨types, gr, 1, hh, hg⟩ ≠ .bfgs := by
      unfold suited
      by_cases b1 : AllReal types
      · simp only [b1, if_true]
        have : ¬ (gr = true ∧ hh = false ∧ hg = false) := fun hc => hb ⟨b1, hc⟩
        rw [if_neg (by tauto), if_neg (by tauto)]
        exact ⟨rfl, by simp⟩
      · simp [b1]
    rw [← e.1]
    cases hc : suited ⟨types, gr, 1, hh, hg⟩ with
    | bfgs => exact absurd hc e.2
    | onePlusOne => rfl
    | mies => rfl

/-- **C142, refuted.**  Two objectives, one real variable, a model with a gradient (as the Gaussian processes have): the constructor accepts it and every model-based
proposal raises, although an algorithm without gradients would do. -/
theorem c142_gradient_refuted (eval : String → Option ℚ) (ehvi : List (List ℝ) → List ℝ) (he : OneValueEach ehvi) (x0 : List ℝ) (d : ℕ) :
    ∃ (s : InnerSearch) (a : MinimizeAttr), moboInit eval {} (List.replicate (d + 1) .real) true false false 2 (.funs [true, true]) (.flag true) = some (s, 2, a) ∧
      moboPropose s (List.replicate (d + 1) .real) ["x"] (fun _ => none) ehvi x0 1 = .raised ∧
      suited ⟨List.replicate (d + 1) .real, true, 2, false, false⟩ = .onePlusOne := by
  have hall : AllReal (List.replicate (d + 1) VType.real) := fun t ht => (List.mem_replicate.1 ht).2
  have hne : List.replicate (d + 1) VType.real ≠ [] := by simp
  obtain ⟨s, hs, -⟩ := c127_default eval {} rfl ⟨List.replicate (d + 1) .real, true, 1, false, false⟩ hne (by simp)
  have hr : s.nRestart = 5 * ((d + 1 : ℕ) : ℤ) := by
    have := (c127_budgets eval {} _ s hs).2.1
    rcases this with ⟨-, h⟩ | ⟨q, h, -⟩
    · simpa using h
    · simp at h
  have hinit : moboInit eval {} (List.replicate (d + 1) .real) true false false 2 (.funs [true, true]) (.flag true) = some (s, 2, .each [true, true]) := by
    unfold moboInit
    rw [hs]
    rfl
  refine ⟨s, _, hinit, ?_, by simp [suited, hall]⟩
  rw [c142_propose_partial eval {} rfl _ hne _ _ _ _ _ _ s 2 _ hinit le_rfl (by rw [hr]; push_cast; omega) _ hne (fun t ht => ht) _ _ ehvi he x0]
  simp [hall]

/-- **C142, refuted for several points at once**: `MOBO` never proposes more than one, and `MOBO_qEHVI` never proposes anything. -/
theorem c142_batch_refuted (s : InnerSearch) (free : List VType) (names : List String) (fixed : FixedDict ℝ) (ehvi : List (List ℝ) → List ℝ) (x0 : List ℝ) (n : ℤ)
    (hn : 2 ≤ n) {α : Type*} (asked : String) (dim k : ℕ) (search : String → List α) :
    moboPropose s free names fixed ehvi x0 n = .raised ∧ qehviPropose asked dim k search = none := by
  refine ⟨?_, ?_⟩
  · unfold moboPropose
    rw [if_pos (by omega)]
  · have : qehviCriterion asked = none := by
      unfold qehviCriterion
      rw [if_neg (by decide)]
    unfold qehviPropose
    rw [this]
    rfl

/-- **C142, refuted for the number of objectives**: without functions, one objective or none is accepted by the multi-objective classes. -/
theorem c142_objectives_refuted : moboObjectives 1 .missing = some 1 ∧ moboObjectives 0 .missing = some 0 := ⟨rfl, rfl⟩

/-- **C142, the pieces of a joint search.**  Without fixed variables a vector for `n` points is cut into these points. -/
theorem c142_slices_partial {α : Type*} (dim n : ℕ) (pts : List (List α)) (hn : pts.length = n) (hd : ∀ p ∈ pts, p.length = dim) :
    qSlices dim n pts.flatten = pts := by
  subst hn
  unfold qSlices
  apply List.ext_getElem?
  intro i
  rw [List.getElem?_map]
  by_cases hi : i < pts.length
  · rw [List.getElem?_range hi, List.getElem?_eq_getElem hi]
    simp only [Option.map_some, Option.some.injEq]
    have hlen : ∀ (l : List (List α)), (∀ p ∈ l, p.length = dim) → l.flatten.length = l.length * dim := by
      intro l hl
      rw [List.length_flatten, List.map_congr_left (g := fun _ => dim) hl]
      simp
    have htake : ∀ k ≤ pts.length, pts.flatten.take (k * dim) = (pts.take k).flatten := by
      intro k hk
      conv_lhs => rw [← List.take_append_drop k pts, List.flatten_append]
      apply List.take_left'
      rw [hlen _ (fun p hp => hd p (List.mem_of_mem_take hp)), List.length_take, min_eq_left hk]
    rw [htake (i + 1) hi, List.take_succ_eq_append_getElem hi, List.flatten_append]
    rw [List.drop_left' (by rw [hlen _ (fun p hp => hd p (List.mem_of_mem_take hp)), List.length_take, min_eq_left hi.le])]
    simp
  · rw [List.getElem?_eq_none (by simpa using hi), List.getElem?_eq_none (by omega)]
    rfl

/-- **C142, refuted with fixed variables**: with fewer free variables than `dim` and two points or more, the first piece is not the first point. -/
theorem c142_slices_refuted {α : Type*} (dim free n : ℕ) (h0 : 0 < free) (h1 : free < dim) (hn : 2 ≤ n) (pts : List (List α)) (hp : pts.length = n)
    (hd : ∀ p ∈ pts, p.length = free) : ∀ p ∈ (qSlices dim n pts.flatten).head?, p.length ≠ free := by
  intro p h
  obtain ⟨m, rfl⟩ : ∃ m, n = m + 1 := ⟨n - 1, by omega⟩
  unfold qSlices at h
  rw [List.range_succ_eq_map] at h
  simp only [List.map_cons, List.head?_cons, Option.mem_def, Option.some.injEq] at h
  subst h
  have hlen : pts.flatten.length = (m + 1) * free := by
    rw [List.length_flatten, List.map_congr_left (g := fun _ => free) hd]
    simp [hp]
  have h2 : 2 * free ≤ pts.flatten.length := by
    rw [hlen]; exact Nat.mul_le_mul_right _ hn
  simp only [Nat.zero_add, Nat.one_mul, Nat.zero_mul, List.drop_zero, List.length_take]
  omega

example : OneValueEach (fun X => X.map fun _ => 1) := fun X => by simp
example : moboObjectives 2 (.funs [true, true, true]) = some 3 := rfl
example : qSlices 2 2 [1, 2, 3, 4] = [[1, 2], [3, 4]] ∧ qSlices 2 2 [1, 2] = [[1, 2], []] := by decide

end Verif.Props
