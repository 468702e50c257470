import Verif.Spec.Resolution
import Verif.Props.Ask
import Verif.Props.DesignSize
import Verif.Props.FullRun
import Verif.Props.Learner
import Mathlib.Data.Fintype.BigOperators
import Mathlib.Data.Fintype.Pi
import Mathlib.Algebra.Order.Floor.Ring
import Mathlib.Tactic.Positivity

/-!
# C199: the number of points that can be evaluated
-/
namespace Verif.Props

open Verif.Model Verif.Spec Verif.Proofs

/-- The value of a row in a real column. -/
private def coord (x : Row) (j : ℕ) : ℝ :=
  match x[j]? with
  | some (.real r) => r
  | _ => 0

private theorem coord_spec {vs : List RealVar} {x : Row} (hx : PointOf (vs.map Kind.real) x) {j : ℕ} {v : RealVar} (hj : vs[j]? = some v) :
    x[j]? = some (.real (coord x j)) ∧ v.contains (coord x j) := by
  have hlen : j < x.length := by
    rw [hx.1, List.length_map]
    exact (List.getElem?_eq_some_iff.mp hj).1
  have hc := hx.2 j (.real v) x[j] (by simp [hj]) (List.getElem?_eq_getElem hlen)
  unfold coord
  rw [List.getElem?_eq_getElem hlen]
  cases h : x[j] with
  | real r =>
    rw [h] at hc
    exact ⟨rfl, hc⟩
  | int z => rw [h] at hc; simp [Kind.contains] at hc
  | lvl l => rw [h] at hc; simp [Kind.contains] at hc

private noncomputable def cellOf (v : RealVar) (a x : ℝ) : ℕ := ⌊(x - v.lo) / (1 / 10 ^ 8 + 1 / 10 ^ 5 * a)⌋₊

private theorem cell_lt {v : RealVar} {a x : ℝ} (ha : 0 ≤ a) (hx : v.contains x) : cellOf v a x < steps v a := by
  unfold cellOf steps
  have hpos : (0 : ℝ) < 1 / 10 ^ 8 + 1 / 10 ^ 5 * a := by positivity
  have h : (x - v.lo) / (1 / 10 ^ 8 + 1 / 10 ^ 5 * a) ≤ (v.hi - v.lo) / (1 / 10 ^ 8 + 1 / 10 ^ 5 * a) :=
    div_le_div_of_nonneg_right (by linarith [hx.2]) hpos.le
  exact Nat.lt_succ_of_le (Nat.floor_le_floor h)

private theorem cell_close {v : RealVar} {a x y : ℝ} (ha : 0 ≤ a) (hx : v.contains x) (hy : v.contains y) (h : cellOf v a x = cellOf v a y) :
    |x - y| < 1 / 10 ^ 8 + 1 / 10 ^ 5 * a := by
  unfold cellOf at h
  have hpos : (0 : ℝ) < 1 / 10 ^ 8 + 1 / 10 ^ 5 * a := by positivity
  generalize (1 / 10 ^ 8 + 1 / 10 ^ 5 * a : ℝ) = δ at *
  have x1 := Nat.floor_le (div_nonneg (by linarith [hx.1] : (0 : ℝ) ≤ x - v.lo) hpos.le)
  have x2 := Nat.lt_floor_add_one ((x - v.lo) / δ)
  have y1 := Nat.floor_le (div_nonneg (by linarith [hy.1] : (0 : ℝ) ≤ y - v.lo) hpos.le)
  have y2 := Nat.lt_floor_add_one ((y - v.lo) / δ)
  rw [h] at x1 x2
  have e : (x - v.lo) / δ - (y - v.lo) / δ = (x - y) / δ := by rw [← sub_div]; congr 1; ring
  have hlt : |(x - y) / δ| < 1 := by rw [← e, abs_lt]; constructor <;> linarith
  rwa [abs_div, abs_of_pos hpos, div_lt_one hpos] at hlt

/-- **C199, the limit.** Take a space of real variables, and for each a lower bound `a` of the absolute values in its range (`0` is always one).  A list of points, each of which counts as different from all
the earlier ones, is no longer than the number of cells of side `1e-8 + 1e-5 * a` in the space. -/
theorem c199_packing (vs : List RealVar) (a : List ℝ) (hlen : a.length = vs.length) (ha : ∀ (j : ℕ) v r, vs[j]? = some v → a[j]? = some r → FarFromZero v r) (L : List Row)
    (hp : ∀ x ∈ L, PointOf (vs.map Kind.real) x) (hd : L.Pairwise (fun old new => Differs (vs.map Kind.real) new old)) : L.length ≤ cellCount vs a := by
  classical
  let V : Fin vs.length → RealVar := fun j => vs[j]
  let A : Fin vs.length → ℝ := fun j => a[(j : ℕ)]'(by rw [hlen]; exact j.2)
  have hV : ∀ j : Fin vs.length, vs[(j : ℕ)]? = some (V j) := fun j => List.getElem?_eq_getElem j.2
  have hA : ∀ j : Fin vs.length, FarFromZero (V j) (A j) := fun j => ha j _ _ (hV j) (List.getElem?_eq_getElem _)
  let cell : Row → (Fin vs.length → ℕ) := fun x j => cellOf (V j) (A j) (coord x j)
  have hnd : (L.map cell).Nodup := by
    rw [List.Nodup, List.pairwise_map]
    refine List.Pairwise.imp_of_mem ?_ hd
    intro x y hx hy hdiff he
    obtain ⟨j, k, hk, -, h⟩ := hdiff
    rw [List.getElem?_map, Option.map_eq_some_iff] at hk
    obtain ⟨v, hv, rfl⟩ := hk
    have hj := (List.getElem?_eq_some_iff.mp hv).1
    have hvv : V ⟨j, hj⟩ = v := Option.some.inj ((hV ⟨j, hj⟩).symm.trans hv)
    obtain ⟨cx1, cx2⟩ := coord_spec (hp x hx) hv
    obtain ⟨cy1, cy2⟩ := coord_spec (hp y hy) hv
    have hlt := h rfl _ _ cx1 cy1
    have hf := hA ⟨j, hj⟩
    rw [hvv] at hf
    have hcell : cellOf v (A ⟨j, hj⟩) (coord x j) = cellOf v (A ⟨j, hj⟩) (coord y j) := by
      have := congrFun he ⟨j, hj⟩
      simpa [cell, hvv] using this
    have hclose := cell_close hf.1 cx2 cy2 hcell
    have hay := hf.2 _ cy2
    have : (1 : ℝ) / 10 ^ 8 + 1 / 10 ^ 5 * A ⟨j, hj⟩ ≤ 1 / 10 ^ 8 + 1 / 10 ^ 5 * |coord y j| := by
      have := mul_le_mul_of_nonneg_left hay (by positivity : (0 : ℝ) ≤ 1 / 10 ^ 5)
      linarith
    linarith
  have hsub : (L.map cell).toFinset ⊆ Fintype.piFinset (fun j : Fin vs.length => Finset.range (steps (V j) (A j))) := by
    intro c hc
    obtain ⟨x, hx, rfl⟩ := List.mem_map.mp (List.mem_toFinset.mp hc)
    rw [Fintype.mem_piFinset]
    intro j
    rw [Finset.mem_range]
    exact cell_lt (hA j).1 (coord_spec (hp x hx) (hV j)).2
  have hcard := Finset.card_le_card hsub
  rw [List.toFinset_card_of_nodup hnd, List.length_map, Fintype.card_piFinset] at hcard
  simp only [Finset.card_range] at hcard
  refine hcard.trans (le_of_eq ?_)
  unfold cellCount
  rw [← List.prod_ofFn]
  congr 1
  apply List.ext_getElem
  · simp [hlen]
  · intro i h1 h2
    simp [V, A]

private noncomputable def cellVal (k : Kind) (a : ℝ) (v : Val) : ℕ :=
  match k, v with
  | .real r, .real x => cellOf r a x
  | k, v => codeVal k v

private theorem cellVal_lt {k : Kind} {a : ℝ} (ha : 0 ≤ a) {v : Val} (h : k.contains v) : cellVal k a v < valueCount k a := by
  cases k with
  | real r =>
    cases v with
    | real x => exact cell_lt ha h
    | int z => simp [Kind.contains] at h
    | lvl l => simp [Kind.contains] at h
  | _ => exact codeVal_lt h

/-- **C199, spaces of all kinds.** With variables of any kind, a list of points, each of which counts as different from all the earlier ones, is no longer than the product of the numbers of cells (real variables)
and of values (all others). -/
theorem c199_mixed_packing (ks : List Kind) (a : List ℝ) (hlen : a.length = ks.length) (ha : ∀ r ∈ a, 0 ≤ r) (hfar : ∀ (j : ℕ) v r, ks[j]? = some (.real v) → a[j]? = some r → FarFromZero v r)
    (L : List Row) (hp : ∀ x ∈ L, PointOf ks x) (hd : L.Pairwise (fun old new => Differs ks new old)) : L.length ≤ mixedCount ks a := by
  classical
  let A : Fin ks.length → ℝ := fun j => a[(j : ℕ)]'(by rw [hlen]; exact j.2)
  have hA : ∀ j : Fin ks.length, a[(j : ℕ)]? = some (A j) := fun j => List.getElem?_eq_getElem _
  have hA0 : ∀ j, 0 ≤ A j := fun j => ha _ (List.getElem_mem _)
  let val : Row → Fin ks.length → Val := fun x j => (x[(j : ℕ)]?).getD (.int 0)
  have hval : ∀ x ∈ L, ∀ j : Fin ks.length, x[(j : ℕ)]? = some (val x j) ∧ ks[j].contains (val x j) := by
    intro x hx j
    have hl : (j : ℕ) < x.length := by rw [(hp x hx).1]; exact j.2
    have e : x[(j : ℕ)]? = some (val x j) := by simp only [val, List.getElem?_eq_getElem hl, Option.getD_some]
    exact ⟨e, (hp x hx).2 j _ _ (List.getElem?_eq_getElem j.2) e⟩
  let cell : Row → (Fin ks.length → ℕ) := fun x j => cellVal ks[j] (A j) (val x j)
  have hnd : (L.map cell).Nodup := by
    rw [List.Nodup, List.pairwise_map]
    refine List.Pairwise.imp_of_mem ?_ hd
    intro x y hx hy hdiff he
    obtain ⟨j, k, hk, hne, h⟩ := hdiff
    obtain ⟨hj, hk'⟩ := List.getElem?_eq_some_iff.mp hk
    obtain ⟨ex, cx⟩ := hval x hx ⟨j, hj⟩
    obtain ⟨ey, cy⟩ := hval y hy ⟨j, hj⟩
    have hc : cellVal ks[j] (A ⟨j, hj⟩) (val x ⟨j, hj⟩) = cellVal ks[j] (A ⟨j, hj⟩) (val y ⟨j, hj⟩) := congrFun he ⟨j, hj⟩
    simp only [Fin.getElem_fin] at ex ey cx cy
    rw [hk'] at hc cx cy
    generalize val x ⟨j, hj⟩ = u at hc cx ex
    generalize val y ⟨j, hj⟩ = v at hc cy ey
    by_cases hreal : k.vtype = .real
    · cases k with
      | real r =>
        cases u with
        | int z => simp [Kind.contains] at cx
        | lvl l => simp [Kind.contains] at cx
        | real x' =>
          cases v with
          | int z => simp [Kind.contains] at cy
          | lvl l => simp [Kind.contains] at cy
          | real y' =>
            have hlt := h rfl _ _ ex ey
            have hf := hfar j r _ hk (hA ⟨j, hj⟩)
            have hclose := cell_close hf.1 cx cy hc
            have := mul_le_mul_of_nonneg_left (hf.2 _ cy) (by positivity : (0 : ℝ) ≤ 1 / 10 ^ 5)
            linarith
      | _ => simp [Kind.vtype] at hreal
    · have hc' : codeVal k u = codeVal k v := by
        cases k <;> first | exact absurd rfl hreal | exact hc
      have := (codeVal_inj cx cy hc').1 hreal
      exact hne hreal (by rw [ex, ey, this])
  have hsub : (L.map cell).toFinset ⊆ Fintype.piFinset (fun j : Fin ks.length => Finset.range (valueCount ks[j] (A j))) := by
    intro c hc
    obtain ⟨x, hx, rfl⟩ := List.mem_map.mp (List.mem_toFinset.mp hc)
    rw [Fintype.mem_piFinset]
    intro j
    rw [Finset.mem_range]
    exact cellVal_lt (hA0 j) (hval x hx j).2
  have hcard := Finset.card_le_card hsub
  rw [List.toFinset_card_of_nodup hnd, List.length_map, Fintype.card_piFinset] at hcard
  simp only [Finset.card_range] at hcard
  refine hcard.trans (le_of_eq ?_)
  unfold mixedCount
  rw [← List.prod_ofFn]
  congr 1
  apply List.ext_getElem
  · simp [hlen]
  · intro i h1 h2
    simp [A]

private theorem freeVars_nil (vars : List (String × Kind)) : freeVars vars [] = vars := by
  simp [freeVars]

private theorem point_of_honours {vars : List (String × Kind)} {x : Row} (h : Honours vars [] x) : PointOf (vars.map Prod.snd) x := by
  refine ⟨by rw [h.1, List.length_map], fun j k v hk hv => ?_⟩
  rw [List.getElem?_map, Option.map_eq_some_iff] at hk
  obtain ⟨⟨name, k'⟩, h1, rfl⟩ := hk
  exact (h.2 j name k' v h1 hv).2 rfl

private theorem asked_points (s : AskState) (hb : OrderedBounds s.vars) (n? : Option ℤ) (hn : 1 ≤ requested s n?) (best : ℕ → Row) (sample : ℕ → ℤ → List Row) (hs : SamplerOk s.vars [] sample)
    (hbest : ∀ k, best k = [] ∨ PointOf (s.vars.map Prod.snd) (best k)) (X : List Row) (h : ask s n? none best sample = .ok X) :
    1 ≤ X.length ∧ ∀ x ∈ X, PointOf (s.vars.map Prod.snd) x := by
  obtain ⟨h1, -, h2⟩ := c14_ask_partial s n? none best sample X hn hb (by intro name v w _ hw; simp at hw) hs (by simpa [freeVars_nil] using hbest) h
  exact ⟨h1, fun x hx => point_of_honours (h2 x hx)⟩

/-- **C199, exhausted.** Once as many distinguishable points are recorded as the space has cells, every call of `ask` raises, whatever is requested and whatever the sampler and the search deliver. -/
theorem c199_exhausted (s : AskState) (hb : OrderedBounds s.vars) (vs : List RealVar) (hvars : s.vars.map Prod.snd = vs.map Kind.real) (a : List ℝ) (hlen : a.length = vs.length)
    (ha : ∀ (j : ℕ) v r, vs[j]? = some v → a[j]? = some r → FarFromZero v r) (hp : ∀ d ∈ s.data, PointOf (vs.map Kind.real) d)
    (hd : s.data.Pairwise (fun old new => Differs (vs.map Kind.real) new old)) (hfull : cellCount vs a ≤ s.data.length) (n? : Option ℤ) (hn : 1 ≤ requested s n?) (best : ℕ → Row)
    (sample : ℕ → ℤ → List Row) (hs : SamplerOk s.vars [] sample) (hbest : ∀ k, best k = [] ∨ PointOf (s.vars.map Prod.snd) (best k)) :
    ∃ e, ask s n? none best sample = .error e := by
  cases h : ask s n? none best sample with
  | error e => exact ⟨e, rfl⟩
  | ok X =>
    exfalso
    obtain ⟨h1, h2⟩ := asked_points s hb n? hn best sample hs hbest X h
    obtain ⟨x, hx⟩ := List.exists_mem_of_length_pos h1
    have hx' := h2 x hx
    have hdiff := c15_differs_from_recorded s n? none best sample X h x hx
    rw [hvars] at hx' hdiff
    have := c199_packing vs a hlen ha (s.data ++ [x]) (by
      intro y hy
      rcases List.mem_append.mp hy with hy | hy
      · exact hp y hy
      · rw [List.mem_singleton.mp hy]; exact hx') (by
      rw [List.pairwise_append]
      exact ⟨hd, List.pairwise_singleton _ _, fun d hdm y hy => by rw [List.mem_singleton.mp hy]; exact hdiff d hdm⟩)
    rw [List.length_append, List.length_singleton] at this
    omega

/-- **C199, batches.** In a space of real variables the calls of `ask` that propose something, each with a point that is then recorded, are never more than the space has cells, whatever the sizes of the batches. -/
theorem c199_batches (vars : List (String × Kind)) (hb : OrderedBounds vars) (vs : List RealVar) (hvars : vars.map Prod.snd = vs.map Kind.real) (a : List ℝ) (hlen : a.length = vs.length)
    (ha : ∀ (j : ℕ) v r, vs[j]? = some v → a[j]? = some r → FarFromZero v r) (pts : List Row) (h : OnePerBatch vars pts) : pts.length ≤ cellCount vs a := by
  apply c199_packing vs a hlen ha
  · intro x hx
    obtain ⟨i, hi⟩ := List.mem_iff_getElem?.mp hx
    obtain ⟨s, n?, best, sample, X, rfl, -, hn, hs, hbest, hX, hxX⟩ := h i x hi
    rw [← hvars]
    exact (asked_points s hb n? hn best sample hs hbest X hX).2 x hxX
  · rw [List.pairwise_iff_getElem]
    intro i j hi hj hij
    obtain ⟨s, n?, best, sample, X, rfl, hdata, -, -, -, hX, hxX⟩ := h j _ (List.getElem?_eq_getElem hj)
    rw [← hvars]
    refine c15_differs_from_recorded s n? none best sample X hX _ hxX _ ?_
    exact hdata (List.mem_take_iff_getElem.mpr ⟨i, by omega, rfl⟩)

/-- **C199, batches in spaces of all kinds.** In a space with variables of any kind the calls of `ask` that propose something, each with a point that is then recorded, are never more than the product of the numbers of cells and values, whatever the sizes of the batches. -/
theorem c199_mixed_batches (vars : List (String × Kind)) (hb : OrderedBounds vars) (a : List ℝ) (hlen : a.length = vars.length) (ha : ∀ r ∈ a, 0 ≤ r)
    (hfar : ∀ (j : ℕ) v r, (vars.map Prod.snd)[j]? = some (.real v) → a[j]? = some r → FarFromZero v r) (pts : List Row) (h : OnePerBatch vars pts) : pts.length ≤ mixedCount (vars.map Prod.snd) a := by
  apply c199_mixed_packing (vars.map Prod.snd) a (by rw [hlen, List.length_map]) ha hfar
  · intro x hx
    obtain ⟨i, hi⟩ := List.mem_iff_getElem?.mp hx
    obtain ⟨s, n?, best, sample, X, rfl, -, hn, hs, hbest, hX, hxX⟩ := h i x hi
    exact (asked_points s hb n? hn best sample hs hbest X hX).2 x hxX
  · rw [List.pairwise_iff_getElem]
    intro i j hi hj hij
    obtain ⟨s, n?, best, sample, X, rfl, hdata, -, -, -, hX, hxX⟩ := h j _ (List.getElem?_eq_getElem hj)
    refine c15_differs_from_recorded s n? none best sample X hX _ hxX _ ?_
    exact hdata (List.mem_take_iff_getElem.mpr ⟨i, by omega, rfl⟩)

/-- **C199, a run.** Points evaluated one after the other in a space of real variables are never more than the space has cells: a run with a larger budget cannot use it. -/
theorem c199_run (vars : List (String × Kind)) (hb : OrderedBounds vars) (vs : List RealVar) (hvars : vars.map Prod.snd = vs.map Kind.real) (a : List ℝ) (hlen : a.length = vs.length)
    (ha : ∀ (j : ℕ) v r, vs[j]? = some v → a[j]? = some r → FarFromZero v r) (pts : List Row) (h : OneByOne vars pts) : pts.length ≤ cellCount vs a := by
  refine c199_batches vars hb vs hvars a hlen ha pts (fun i x hi => ?_)
  obtain ⟨s, n?, best, sample, X, h1, h2, h3⟩ := h i x hi
  exact ⟨s, n?, best, sample, X, h1, by rw [h2]; exact List.Subset.refl _, h3⟩

/-- **C199, whole runs.** With an objective of finite values, a run in a space of real variables evaluates at most as many batches as the space has cells.  If its budget is larger and there is no target, it never
returns: it is left by an exception. -/
theorem c199_whole_run {G : Type*} (cfg : Cfg ℝ) (u : RunSetup) (w : ℕ → StepWorld G) (hok : RunOk u w) (hfin : ∀ i x, PointOf (u.vars.map Prod.snd) x → ∃ c, (w i).objective x = .fin c)
    (vs : List RealVar) (hvars : u.vars.map Prod.snd = vs.map Kind.real) (a : List ℝ) (hlen : a.length = vs.length) (ha : ∀ (j : ℕ) v r, vs[j]? = some v → a[j]? = some r → FarFromZero v r) (fuel : ℕ) :
    ((fullRun cfg u w fuel 0 {} []).log.length : ℤ) ≤ cellCount vs a * max u.nPoint u.doeSize ∧
    ∀ m, cfg.maxFEs = some m → cfg.ftarget = none → cellCount vs a * max u.nPoint u.doeSize < m → m < fuel → (fullRun cfg u w fuel 0 {} []).ending = .raised := by
  have hlog : ((fullRun cfg u w fuel 0 {} []).log.length : ℤ) ≤ cellCount vs a * max u.nPoint u.doeSize := by
    obtain ⟨k, h1, h2, -⟩ := run_steps cfg u w hok fuel 0 {} [] (by simp) (by simp)
    obtain ⟨p1, p2⟩ := c146_run_points_partial cfg u w hok fuel
    choose z v hzv using h2
    have hB : 0 ≤ max u.nPoint u.doeSize := le_trans (by have := hok.point; omega) (le_max_left _ _)
    have hk := c199_packing vs a hlen ha (List.ofFn (fun i : Fin k => z i i.2)) (by
      intro x hx
      obtain ⟨i, rfl⟩ := (List.mem_ofFn' _ _).mp hx
      rw [← hvars]
      exact (p1 _ _ _ (hzv i i.2)).1) (by
      rw [List.pairwise_ofFn]
      intro j i hlt
      obtain ⟨q1, q2, -⟩ := p1 _ _ _ (hzv j j.2)
      obtain ⟨c, hc⟩ := hfin j _ q1
      rw [← hvars]
      exact p2 i _ _ j _ c (hzv i i.2) (by rw [← hc, ← q2]; exact hzv j j.2) hlt)
    rw [List.length_ofFn] at hk
    exact h1.trans (mul_le_mul_of_nonneg_right (by exact_mod_cast hk) hB)
  refine ⟨hlog, fun m hm ht hlt hfuel => ?_⟩
  obtain ⟨-, -, -, h4, h5⟩ := c146_run_budget cfg u w hok fuel m hm
  have hpos : 0 ≤ (cellCount vs a : ℤ) * max u.nPoint u.doeSize := le_trans (by positivity) hlog
  cases he : (fullRun cfg u w fuel 0 {} []).ending with
  | raised => rfl
  | running => exact absurd he (h4 (by omega) hfuel)
  | stopped r =>
    have := h5 r he ht
    omega

/-- **C199, whole runs in spaces of all kinds.** With an objective of finite values, a run evaluates at most as many batches as the product of the numbers of cells and values.  If its budget is larger and there is no target, it never
returns: it is left by an exception. -/
theorem c199_mixed_run {G : Type*} (cfg : Cfg ℝ) (u : RunSetup) (w : ℕ → StepWorld G) (hok : RunOk u w) (hfin : ∀ i x, PointOf (u.vars.map Prod.snd) x → ∃ c, (w i).objective x = .fin c)
    (a : List ℝ) (hlen : a.length = u.vars.length) (ha : ∀ r ∈ a, 0 ≤ r)
    (hfar : ∀ (j : ℕ) v r, (u.vars.map Prod.snd)[j]? = some (.real v) → a[j]? = some r → FarFromZero v r) (fuel : ℕ) :
    ((fullRun cfg u w fuel 0 {} []).log.length : ℤ) ≤ mixedCount (u.vars.map Prod.snd) a * max u.nPoint u.doeSize ∧
    ∀ m, cfg.maxFEs = some m → cfg.ftarget = none → mixedCount (u.vars.map Prod.snd) a * max u.nPoint u.doeSize < m → m < fuel → (fullRun cfg u w fuel 0 {} []).ending = .raised := by
  have hlog : ((fullRun cfg u w fuel 0 {} []).log.length : ℤ) ≤ mixedCount (u.vars.map Prod.snd) a * max u.nPoint u.doeSize := by
    obtain ⟨k, h1, h2, -⟩ := run_steps cfg u w hok fuel 0 {} [] (by simp) (by simp)
    obtain ⟨p1, p2⟩ := c146_run_points_partial cfg u w hok fuel
    choose z v hzv using h2
    have hB : 0 ≤ max u.nPoint u.doeSize := le_trans (by have := hok.point; omega) (le_max_left _ _)
    have hk := c199_mixed_packing (u.vars.map Prod.snd) a (by rw [hlen, List.length_map]) ha hfar (List.ofFn (fun i : Fin k => z i i.2)) (by
      intro x hx
      obtain ⟨i, rfl⟩ := (List.mem_ofFn' _ _).mp hx
      exact (p1 _ _ _ (hzv i i.2)).1) (by
      rw [List.pairwise_ofFn]
      intro j i hlt
      obtain ⟨q1, q2, -⟩ := p1 _ _ _ (hzv j j.2)
      obtain ⟨c, hc⟩ := hfin j _ q1
      exact p2 i _ _ j _ c (hzv i i.2) (by rw [← hc, ← q2]; exact hzv j j.2) hlt)
    rw [List.length_ofFn] at hk
    exact h1.trans (mul_le_mul_of_nonneg_right (by exact_mod_cast hk) hB)
  refine ⟨hlog, fun m hm ht hlt hfuel => ?_⟩
  obtain ⟨-, -, -, h4, h5⟩ := c146_run_budget cfg u w hok fuel m hm
  have hpos : 0 ≤ (mixedCount (u.vars.map Prod.snd) a : ℤ) * max u.nPoint u.doeSize := le_trans (by positivity) hlog
  cases he : (fullRun cfg u w fuel 0 {} []).ending with
  | raised => rfl
  | running => exact absurd he (h4 (by omega) hfuel)
  | stopped r =>
    have := h5 r he ht
    omega

/-- **C199, learning runs.** The same for runs in which the surrogate is trained on what was evaluated: no more batches than cells, and with a larger budget and no target the run does not return a solution. -/
theorem c199_learning_run {G : Type*} (cfg : Cfg ℝ) (u : RunSetup) (acq : AcqName × AcqPar) (L : Learner G) (hok : ∀ w : ℕ → StepWorld G, (∀ j, ∃ cs, (w j).env = L.search j cs) → RunOk u w)
    (hfin : ∀ i x, PointOf (u.vars.map Prod.snd) x → ∃ c, L.objective i x = .fin c)
    (vs : List RealVar) (hvars : u.vars.map Prod.snd = vs.map Kind.real) (a : List ℝ) (hlen : a.length = vs.length) (ha : ∀ (j : ℕ) v r, vs[j]? = some v → a[j]? = some r → FarFromZero v r) (fuel : ℕ) :
    ((learnRun cfg u acq L fuel 0 {} []).log.length : ℤ) ≤ cellCount vs a * max u.nPoint u.doeSize ∧
    ∀ m, cfg.maxFEs = some m → cfg.ftarget = none → cellCount vs a * max u.nPoint u.doeSize < m → ∀ r, (learnRun cfg u acq L fuel 0 {} []).ending ≠ .stopped r := by
  obtain ⟨w, k, -, h2, h3, h4⟩ := learn_full cfg u acq L fuel 0 {} []
  have hw := hok w (fun j => (h2 j).1)
  have hlog := (c199_whole_run cfg u w hw (fun i x hx => by rw [(h2 i).2]; exact hfin i x hx) vs hvars a hlen ha k).1
  rw [h3] at hlog
  refine ⟨hlog, fun m hm ht hlt r hr => ?_⟩
  obtain ⟨-, h6⟩ := h4 (by rw [hr]; simp)
  have h5 := (c146_run_budget cfg u w hw k m hm).2.2.2.2 r (by rw [h6]; exact hr) ht
  rw [h3] at h5
  omega

/-- The hypotheses of `c199_whole_run` are met by a run over one variable in [0, 1] that begins with 0 and 1/2 (`c146_concrete_run`): with a budget of 10 ^ 9 it is left by an exception. -/
theorem c199_whole_run_concrete : (fullRun { minimize := true, maxFEs := some (10 ^ 9), ftarget := none } demoSetup (demoWorld demoObjective) (10 ^ 9 + 1) 0 {} []).ending = .raised := by
  have hfin : ∀ i x, PointOf (demoSetup.vars.map Prod.snd) x → ∃ c, (demoWorld demoObjective i).objective x = .fin c := by
    intro i x hx
    obtain ⟨u, rfl⟩ := List.length_eq_one_iff.mp (show x.length = 1 from hx.1)
    have hu := hx.2 0 _ u rfl rfl
    cases u with
    | real b => exact ⟨_, rfl⟩
    | int z => simp [Kind.contains] at hu
    | lvl l => simp [Kind.contains] at hu
  refine (c199_whole_run _ _ _ (demo_ok _) hfin [unitVar] rfl [0] rfl ?_ _).2 (10 ^ 9) rfl rfl ?_ (by norm_num)
  · intro j v r hv hr
    match j, hv, hr with
    | 0, hv, hr =>
      simp only [List.getElem?_cons_zero, Option.some.injEq] at hv hr
      subst hv hr
      exact ⟨le_rfl, fun x _ => abs_nonneg x⟩
  · have : cellCount [unitVar] [0] = 10 ^ 8 + 1 := by
      simp only [cellCount, steps, List.zipWith_cons_cons, List.zipWith_nil_left, List.prod_cons, List.prod_nil, mul_one, unitVar]
      rw [show ((1 : ℝ) - 0) / (1 / 10 ^ 8 + 1 / 10 ^ 5 * 0) = ((10 ^ 8 : ℕ) : ℝ) by norm_num, Nat.floor_natCast]
    rw [this]
    simp [demoSetup]

/-- The hypotheses of `c199_learning_run` are met by that run with a surrogate that predicts the sum of its training values. -/
theorem c199_learning_run_concrete (acq : AcqName × AcqPar) (fuel : ℕ) (r : Rec Row ℝ) :
    (learnRun { minimize := true, maxFEs := some (10 ^ 9), ftarget := none } demoSetup acq
      { fit := fun _ t => { y := some (t.map Prod.snd) }, predict := fun _ t _ _ => { mean := (t.map Prod.snd).sum, mse := 1 }, normals := fun _ => [],
        search := fun _ _ => (demoWorld demoObjective 0).env, objective := fun _ => demoObjective } fuel 0 {} []).ending ≠ .stopped r := by
  refine (c199_learning_run _ demoSetup acq _ ?_ ?_ [unitVar] rfl [0] rfl ?_ fuel).2 (10 ^ 9) rfl rfl ?_ r
  · intro w hw
    have hd := demo_ok demoObjective
    refine ⟨hd.point, hd.design, hd.bounds, fun i => ?_, fun i => ?_⟩
    · obtain ⟨cs, h⟩ := hw i
      rw [h]
      exact hd.libraries 0
    · obtain ⟨cs, h⟩ := hw i
      rw [h]
      exact hd.space 0
  · intro i x hx
    obtain ⟨u, rfl⟩ := List.length_eq_one_iff.mp (show x.length = 1 from hx.1)
    have hu := hx.2 0 _ u rfl rfl
    cases u with
    | real b => exact ⟨_, rfl⟩
    | int z => simp [Kind.contains] at hu
    | lvl l => simp [Kind.contains] at hu
  · intro j v r hv hr
    match j, hv, hr with
    | 0, hv, hr =>
      simp only [List.getElem?_cons_zero, Option.some.injEq] at hv hr
      subst hv hr
      exact ⟨le_rfl, fun x _ => abs_nonneg x⟩
  · have : cellCount [unitVar] [0] = 10 ^ 8 + 1 := by
      simp only [cellCount, steps, List.zipWith_cons_cons, List.zipWith_nil_left, List.prod_cons, List.prod_nil, mul_one, unitVar]
      rw [show ((1 : ℝ) - 0) / (1 / 10 ^ 8 + 1 / 10 ^ 5 * 0) = ((10 ^ 8 : ℕ) : ℝ) by norm_num, Nat.floor_natCast]
    rw [this]
    simp [demoSetup]

private def kilo : List (String × Kind) := [("x", .real ⟨1000, 1001, none, .linear⟩)]

private theorem kilo_ordered : OrderedBounds kilo := by
  intro name v hv
  simp only [kilo, List.mem_cons, Prod.mk.injEq, Kind.real.injEq, List.not_mem_nil, or_false] at hv
  rw [hv.2]
  norm_num

private theorem kilo_cells : cellCount [⟨1000, 1001, none, .linear⟩] [1000] = 100 := by
  simp only [cellCount, steps, List.zipWith_cons_cons, List.zipWith_nil_left, List.prod_cons, List.prod_nil, mul_one]
  have : ⌊((1001 : ℝ) - 1000) / (1 / 10 ^ 8 + 1 / 10 ^ 5 * 1000)⌋₊ = 99 := by
    rw [Nat.floor_eq_iff (by norm_num)]
    norm_num
  rw [this]

/-- **C199, refuted.** With one real variable between 1000 and 1001 no more than a hundred points can be evaluated one after the other, whatever the budget. -/
theorem c199_refuted (pts : List Row) (h : OneByOne [("x", .real ⟨1000, 1001, none, .linear⟩)] pts) : pts.length ≤ 100 := by
  rw [← kilo_cells]
  refine c199_run kilo kilo_ordered [⟨1000, 1001, none, .linear⟩] rfl [1000] rfl ?_ pts h
  intro j v r hv hr
  match j, hv, hr with
  | 0, hv, hr =>
    simp only [List.getElem?_cons_zero, Option.some.injEq] at hv hr
    subst hv hr
    exact ⟨by norm_num, fun x hx => le_trans hx.1 (le_abs_self x)⟩

private theorem kilo_point (x : ℝ) (h1 : 1000 ≤ x) (h2 : x ≤ 1001) : PointOf (kilo.map Prod.snd) [.real x] := by
  refine ⟨rfl, fun j k v hk hv => ?_⟩
  match j, hk, hv with
  | 0, hk, hv =>
    simp only [kilo, List.map_cons, List.map_nil, List.getElem?_cons_zero, Option.some.injEq] at hk hv
    subst hk hv
    exact ⟨h1, h2⟩

/-- **C199, partial.** Conversely, any list of points that are not changed by rounding and that count as different from the earlier ones can be evaluated one after the other, if the sampler draws them.  Missing: longer runs, see `c199_run` and `c199_exhausted`. -/
theorem c199_reachable_partial (vars : List (String × Kind)) (pts : List Row) (hp : ∀ x ∈ pts, PointOf (vars.map Prod.snd) x) (hr : ∀ x ∈ pts, roundRow (vars.map Prod.snd) x = x)
    (hd : pts.Pairwise (fun old new => Differs (vars.map Prod.snd) new old)) : OneByOne vars pts := by
  intro i x hi
  have hx := List.mem_of_getElem? hi
  have hs : FullSampler vars (fun _ n => List.replicate n.toNat x) := by
    intro k n hn
    refine ⟨by rw [List.length_replicate]; omega, fun r hr => ?_⟩
    rw [(List.mem_replicate.mp hr).2]
    exact hp x hx
  obtain ⟨X, h1, -, h3⟩ := c197_full_partial ⟨vars, pts.take i, false, false, 1, 1⟩ rfl none (by norm_num) (fun _ => []) _ hs (by
    intro l y hy
    have hl : ((List.replicate (1 : ℤ).toNat x).map (roundRow (vars.map Prod.snd))) = [x] := by simp [hr x hx]
    simp only [Option.getD_none] at hy ⊢
    rw [hl] at hy ⊢
    match l, hy with
    | 0, hy =>
      simp only [List.getElem?_cons_zero, Option.some.injEq] at hy
      subst hy
      refine ⟨fun d hdm => ?_, fun j z hz hj => ?_⟩
      · obtain ⟨m, hm, rfl⟩ := List.mem_take_iff_getElem.mp hdm
        obtain ⟨hi1, rfl⟩ := List.getElem?_eq_some_iff.mp hi
        exact List.pairwise_iff_getElem.mp hd m i (by omega) hi1 (by omega)
      · match j, hz, hj with
        | 0, _, hj => exact absurd rfl hj)
  refine ⟨⟨vars, pts.take i, false, false, 1, 1⟩, none, fun _ => [], _, X, rfl, rfl, by norm_num, ?_, fun _ => Or.inl rfl, h1, ?_⟩
  · intro k n hn
    have := hs k n hn
    rw [freeVars_nil]
    exact ⟨this.1.le, this.2⟩
  · rw [h3]
    simp [hr x hx]

/-- Fifty points between 1000 and 1001 can be evaluated, so that the bound of `c199_refuted` is of the right order. -/
theorem c199_concrete : OneByOne [("x", .real ⟨1000, 1001, none, .linear⟩)] ((List.range 50).map (fun i : ℕ => [.real (1000 + (i : ℝ) / 50)])) := by
  apply c199_reachable_partial
  · intro x hx
    obtain ⟨i, hi, rfl⟩ := List.mem_map.mp hx
    have h : (i : ℝ) ≤ 50 := by exact_mod_cast (List.mem_range.mp hi).le
    exact kilo_point _ (by linarith [show (0 : ℝ) ≤ (i : ℝ) / 50 by positivity]) (by linarith)
  · intro x hx
    obtain ⟨i, hi, rfl⟩ := List.mem_map.mp hx
    simp [roundRow, roundVal, RealVar.round]
  · rw [List.pairwise_map]
    refine List.Pairwise.imp_of_mem ?_ List.pairwise_lt_range
    intro i j _ hj hij
    refine ⟨0, _, rfl, fun h => absurd rfl h, fun _ a b ha hb => ?_⟩
    simp only [List.getElem?_cons_zero, Option.some.injEq, Val.real.injEq] at ha hb
    subst ha hb
    have h1 : (i : ℝ) + 1 ≤ j := by exact_mod_cast hij
    have h2 : (j : ℝ) ≤ 50 := by exact_mod_cast (List.mem_range.mp hj).le
    rw [abs_of_nonneg (by positivity : (0 : ℝ) ≤ 1000 + (j : ℝ) / 50), abs_of_nonpos (by linarith)]
    linarith

/-- With that variable and an integer between 0 and 9 no more than a thousand points can be evaluated one after the other. -/
theorem c199_mixed_refuted (pts : List Row) (h : OnePerBatch [("x", .real ⟨1000, 1001, none, .linear⟩), ("i", .integer { lo := 0, hi := 9 })] pts) : pts.length ≤ 1000 := by
  have hcount : mixedCount [.real ⟨1000, 1001, none, .linear⟩, .integer { lo := 0, hi := 9 }] [1000, 0] = 1000 := by
    have hk := kilo_cells
    simp only [cellCount, List.zipWith_cons_cons, List.zipWith_nil_left, List.prod_cons, List.prod_nil, mul_one] at hk
    simp only [mixedCount, valueCount, distinctValues, List.zipWith_cons_cons, List.zipWith_nil_left, List.prod_cons, List.prod_nil, mul_one, hk]
    simp
  rw [← hcount]
  refine c199_mixed_batches _ ?_ [1000, 0] rfl (by simp) ?_ pts h
  · intro name v hv
    simp only [List.mem_cons, Prod.mk.injEq, Kind.real.injEq, List.not_mem_nil, or_false, reduceCtorEq, and_false] at hv
    rw [hv.2]
    norm_num
  · intro j v r hv hr
    match j, hv, hr with
    | 0, hv, hr =>
      simp only [List.map_cons, List.getElem?_cons_zero, Option.some.injEq, Kind.real.injEq] at hv hr
      subst hv hr
      exact ⟨by norm_num, fun x hx => le_trans hx.1 (le_abs_self x)⟩
    | 1, hv, hr => simp at hv

/-- The hypotheses of `c199_mixed_run` are met by the run of `c199_whole_run_concrete`. -/
example (cfg : Cfg ℝ) (fuel : ℕ) : ((fullRun cfg demoSetup (demoWorld demoObjective) fuel 0 {} []).log.length : ℤ) ≤ mixedCount [.real unitVar] [0] * 1 := by
  refine (c199_mixed_run cfg demoSetup (demoWorld demoObjective) (demo_ok _) ?_ [0] rfl (by simp) ?_ fuel).1
  · intro i x hx
    obtain ⟨u, rfl⟩ := List.length_eq_one_iff.mp (show x.length = 1 from hx.1)
    have hu := hx.2 0 _ u rfl rfl
    cases u with
    | real b => exact ⟨_, rfl⟩
    | int z => simp [Kind.contains] at hu
    | lvl l => simp [Kind.contains] at hu
  · intro j v r hv hr
    match j, hr with
    | 0, hr =>
      simp only [List.getElem?_cons_zero, Option.some.injEq] at hr
      subst hr
      exact ⟨le_rfl, fun x _ => abs_nonneg x⟩

end Verif.Props
