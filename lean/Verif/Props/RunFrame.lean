import Verif.Proofs.Ask
import Verif.Props.FullRun
import Verif.Spec.RunFrame
import Mathlib.Tactic.NormNum
import Mathlib.Tactic.Ring

/-!
# C180: does an optimisation depend on how the variables are described?
-/
namespace Verif.Props

open Verif.Model Verif.Spec Verif.Proofs

variable {cs : List Recode} {ks ks' : List Kind} {S : Set Row}

private theorem row_at (x : Row) (j : ℕ) : (recodeRow cs x)[j]? = x[j]?.map (cs.getD j (.level id)).value := by
  unfold recodeRow
  rw [List.getElem?_mapIdx]

private theorem row_length (x : Row) : (recodeRow cs x).length = x.length := by
  unfold recodeRow
  rw [List.length_mapIdx]

private theorem row_empty (x : Row) : (recodeRow cs x).isEmpty = x.isEmpty := by
  rw [Bool.eq_iff_iff, List.isEmpty_iff_length_eq_zero, List.isEmpty_iff_length_eq_zero, row_length]

private theorem row_for (h : SpaceRecoded cs ks ks') {x : Row} (hx : RowFor ks x) : RowFor ks' (recodeRow cs x) := by
  refine ⟨by rw [row_length, hx.1, h.kinds], fun j k' hk' ht => ?_⟩
  have hj : j < ks.length := h.kinds ▸ (List.getElem?_eq_some_iff.1 hk').1
  have h1 : cs[j]? = some (cs[j]'(h.codes ▸ hj)) := List.getElem?_eq_getElem _
  have hr := h.relates _ _ _ _ h1 (List.getElem?_eq_getElem hj) hk'
  have hd : cs.getD j (.level id) = cs[j]'(h.codes ▸ hj) := by rw [List.getD_eq_getElem?_getD, h1]; rfl
  rw [row_at, hd]
  generalize cs[j]'(h.codes ▸ hj) = c at hr
  have hreal : ks[j].vtype = .real ∧ ∃ a b, c = .real a b := by
    generalize ks[j] = k at hr
    cases c <;> cases k <;> cases k' <;> simp_all [Recode.Relates, Kind.vtype]
  obtain ⟨a, ha⟩ := hx.2 j _ (List.getElem?_eq_getElem hj) hreal.1
  obtain ⟨u, v, rfl⟩ := hreal.2
  exact ⟨_, by rw [ha]; rfl⟩

private theorem match_self {x : Row} (hx : RowFor ks x) : matchesRow ks x x := by
  refine ⟨fun j hj => ?_, fun _ _ => rfl, fun _ _ => rfl⟩
  obtain ⟨k, hk, ht⟩ := mem_typeIds.1 hj
  obtain ⟨a, ha⟩ := hx.2 j k hk ht
  rw [ha]
  simp only [closeAt, isClose, sub_self, abs_zero]
  positivity

private theorem match_iff (h : SpaceRecoded cs ks ks') (hS : ToldApart cs ks ks' S) {x y : Row} (hx : x ∈ S) (hy : y ∈ S) :
    matchesRow ks' (recodeRow cs y) (recodeRow cs x) ↔ matchesRow ks y x := by
  by_cases e : x = y
  · subst e
    exact iff_of_true (match_self (row_for h (hS x hx).1)) (match_self (hS x hx).1)
  · have := (hS x hx).2 y hy e
    exact iff_of_false (not_matches_of_differs this.2) (not_matches_of_differs this.1)

private theorem getD_map (l : List Row) (i : ℕ) : (l.map (recodeRow cs)).getD i [] = recodeRow cs (l.getD i []) := by
  rw [List.getD_eq_getElem?_getD, List.getD_eq_getElem?_getD, List.getElem?_map]
  cases l[i]? <;> rfl

open Classical in
private theorem check_recoded (h : SpaceRecoded cs ks ks') (hS : ToldApart cs ks ks' S) {data X : List Row} (hd : ∀ x ∈ data, x ∈ S) (hX : ∀ x ∈ X, x ∈ S) :
    preEvalCheck ks' (data.map (recodeRow cs)) (X.map (recodeRow cs)) = (preEvalCheck ks data X).map (recodeRow cs) := by
  have hall : ∀ i, i < (X ++ data).length → (X ++ data).getD i [] ∈ S := by
    intro i hi
    rw [List.getD_eq_getElem?_getD, List.getElem?_eq_getElem hi, Option.getD_some]
    rcases List.mem_append.1 (List.getElem_mem hi) with m | m
    · exact hX _ m
    · exact hd _ m
  unfold preEvalCheck
  rw [← List.map_append, List.length_map, List.length_map, List.map_map]
  have e : ∀ i ∈ List.range X.length, (! (List.range (X ++ data).length).any (fun j => decide (j ≠ i ∧
        matchesRow ks' (((X ++ data).map (recodeRow cs)).getD j []) (((X ++ data).map (recodeRow cs)).getD i [])))) =
      ! (List.range (X ++ data).length).any (fun j => decide (j ≠ i ∧ matchesRow ks ((X ++ data).getD j []) ((X ++ data).getD i []))) := by
    intro i hi
    have hi' : i < (X ++ data).length := by rw [List.length_append]; have := List.mem_range.1 hi; omega
    congr 1
    rw [Bool.eq_iff_iff, List.any_eq_true, List.any_eq_true]
    refine exists_congr fun j => and_congr_right fun hj => ?_
    rw [decide_eq_true_iff, decide_eq_true_iff, getD_map, getD_map, match_iff h hS (hall i hi') (hall j (List.mem_range.1 hj))]
  rw [List.filter_congr e]
  refine List.map_congr_left fun i _ => ?_
  rw [getD_map]
  rfl

private theorem fill_nothing : ∀ (names : List String) (x : Row), x.length = names.length → fillRow [] names x = some x
  | [], [], _ => rfl
  | [], _ :: _, h => by simp at h
  | _ :: _, [], h => by simp at h
  | n :: ns, x :: xs, h => by
    have ih := fill_nothing ns xs (by simpa using h)
    simp [fillRow, ih]

private theorem fillin_nothing (names : List String) (X : List Row) (h : ∀ x ∈ X, x.length = names.length) : fillin names (some []) X = some X := by
  unfold fillin
  dsimp only
  split_ifs
  · rfl
  · induction X with
    | nil => rfl
    | cons x X ih =>
      have hx := fill_nothing names x (h x (List.mem_cons_self ..))
      rcases X.eq_nil_or_concat with rfl | _
      · simp [hx]
      · have : (X.mapM (fillRow [] names)) = some X := by
          by_cases hn : X.isEmpty
          · obtain rfl := List.isEmpty_iff.1 hn; rfl
          · exact ih (fun y hy => h y (List.mem_cons_of_mem _ hy)) hn
        rw [List.mapM_cons, hx, this]
        rfl

private theorem round_id (hp : ∀ v, Kind.real v ∈ ks → v.precision = none) : ∀ {x : Row}, x.length = ks.length → roundRow ks x = x := by
  intro x hx
  unfold roundRow
  apply List.ext_getElem?
  intro j
  rw [List.getElem?_zipWith]
  cases hk : ks[j]? with
  | none =>
    have : x[j]? = none := by rw [List.getElem?_eq_none_iff] at hk ⊢; omega
    rw [this]
  | some k =>
    cases hv : x[j]? with
    | none => rfl
    | some v =>
      dsimp only
      congr 1
      cases k with
      | real w =>
        cases v with
        | real a => simp [roundVal, RealVar.round, hp w (List.mem_of_getElem? hk)]
        | _ => rfl
      | _ => cases v <;> rfl

private theorem precise (h : SpaceRecoded cs ks ks') : (∀ v, Kind.real v ∈ ks → v.precision = none) ∧ ∀ v, Kind.real v ∈ ks' → v.precision = none := by
  have key : ∀ (j : ℕ) (hj : j < ks.length), (∀ v, ks[j] = .real v → v.precision = none) ∧ ∀ v, ks'[j]'(h.kinds ▸ hj) = .real v → v.precision = none := by
    intro j hj
    have hr := h.relates j (cs[j]'(h.codes ▸ hj)) ks[j] (ks'[j]'(h.kinds ▸ hj)) (List.getElem?_eq_getElem _) (List.getElem?_eq_getElem _) (List.getElem?_eq_getElem _)
    generalize cs[j]'(h.codes ▸ hj) = c at hr
    generalize ks[j] = k at hr
    generalize ks'[j]'(h.kinds ▸ hj) = k' at hr
    constructor
    · rintro v rfl
      cases c <;> cases k' <;> simp_all [Recode.Relates, Kind.vtype]
    · rintro v rfl
      cases c <;> cases k <;> simp_all [Recode.Relates, Kind.vtype]
  constructor
  · intro v hv
    obtain ⟨j, hj, e⟩ := List.getElem_of_mem hv
    exact (key j hj).1 v e
  · intro v hv
    obtain ⟨j, hj, e⟩ := List.getElem_of_mem hv
    exact (key j (h.kinds ▸ hj)).2 v e

variable {vars vars' : Vars}

private theorem names_length (vars : Vars) : (vars.map Prod.fst).length = (vars.map Prod.snd).length := by simp

private theorem doe_recoded (h : SpaceRecoded cs (vars.map Prod.snd) (vars'.map Prod.snd)) (hS : ToldApart cs (vars.map Prod.snd) (vars'.map Prod.snd) S) {data : List Row}
    (hd : ∀ x ∈ data, x ∈ S) {sample : ℕ → ℤ → List Row} (hs : ∀ k n, ∀ x ∈ sample k n, x ∈ S) :
    ∀ (k : ℕ) (n : ℤ) (acc : List Row), doeLoop vars' [] (data.map (recodeRow cs)) (fun k n => (sample k n).map (recodeRow cs)) k n (acc.map (recodeRow cs)) =
      (doeLoop vars [] data sample k n acc).map (List.map (recodeRow cs)) := by
  intro k
  induction k with
  | zero => intro n acc; rfl
  | succ k ih =>
    intro n acc
    have hlen : ∀ x ∈ sample k n, x.length = (vars.map Prod.fst).length := fun x hx => by rw [names_length]; exact (hS x (hs k n x hx)).1.1
    have hlen' : ∀ x ∈ (sample k n).map (recodeRow cs), x.length = (vars'.map Prod.fst).length := by
      intro x hx
      obtain ⟨y, hy, rfl⟩ := List.mem_map.1 hx
      rw [row_length, hlen y hy, names_length, names_length, h.kinds]
    unfold doeLoop
    rw [fillin_nothing _ _ hlen, fillin_nothing _ _ hlen']
    by_cases hn : n = 0
    · rw [if_pos hn, if_pos hn]; rfl
    · rw [if_neg hn, if_neg hn]
      simp only [Option.bind_some]
      by_cases hX : (sample k n).isEmpty = true
      · rw [if_pos hX, if_pos (by simpa using hX)]
        exact ih n acc
      · rw [if_neg hX, if_neg (by simpa using hX)]
        have r1 : (sample k n).map (roundRow (vars.map Prod.snd)) = sample k n := by
          conv_rhs => rw [← List.map_id (sample k n)]
          exact List.map_congr_left fun x hx => round_id (precise h).1 (hS x (hs k n x hx)).1.1
        have r2 : ((sample k n).map (recodeRow cs)).map (roundRow (vars'.map Prod.snd)) = (sample k n).map (recodeRow cs) := by
          rw [List.map_map]
          exact List.map_congr_left fun x hx => round_id (precise h).2 (row_for h (hS x (hs k n x hx)).1).1
        rw [r1, r2, check_recoded h hS hd (hs k n), List.length_map, ← List.map_append]
        exact ih _ _

/-- **C180, for points that the duplicate check tells apart.**  Describe the space in other terms (as in C179); let the search and the sampler deliver the same points in the
new terms, and let no two of the points be within the tolerance of the duplicate check in either description.  Then `ask` returns the same points in the new terms, or raises the
same exception. -/
theorem c180_ask_partial (s : AskState) (vars' : Vars) (h : SpaceRecoded cs (s.vars.map Prod.snd) (vars'.map Prod.snd))
    (hS : ToldApart cs (s.vars.map Prod.snd) (vars'.map Prod.snd) S) (hd : ∀ x ∈ s.data, x ∈ S) (n? : Option ℤ) (best : ℕ → Row) (hb : ∀ i, best i ∈ S ∨ best i = [])
    (sample : ℕ → ℤ → List Row) (hs : ∀ k n, ∀ x ∈ sample k n, x ∈ S) :
    ask { s with vars := vars', data := s.data.map (recodeRow cs) } n? none (fun i => recodeRow cs (best i)) (fun k n => (sample k n).map (recodeRow cs)) =
      (ask s n? none best sample).map (List.map (recodeRow cs)) := by
  have hdoe : ∀ n, createDoE vars' none (s.data.map (recodeRow cs)) (fun k n => (sample k n).map (recodeRow cs)) n =
      (createDoE s.vars none s.data sample n).map (List.map (recodeRow cs)) := fun n => doe_recoded h hS hd hs 4 n []
  have hlift : ∀ o : Option (List Row), liftShape (o.map (List.map (recodeRow cs))) = (liftShape o).map (List.map (recodeRow cs)) := by
    intro o; cases o <;> rfl
  have hpoints : askPoints { s with vars := vars', data := s.data.map (recodeRow cs) } n? none (fun i => recodeRow cs (best i)) (fun k n => (sample k n).map (recodeRow cs)) =
      (askPoints s n? none best sample).map (List.map (recodeRow cs)) := by
    unfold askPoints
    dsimp only
    by_cases hf : s.fitted = true
    · rw [if_pos hf, if_pos hf]
      unfold argMaxAcquisition
      dsimp only [fillin]
      have hfil : ∀ l : List Row, ((l.map (recodeRow cs)).filter fun c => !c.isEmpty) = (l.filter fun c => !c.isEmpty).map (recodeRow cs) := by
        intro l
        rw [List.filter_map]
        congr 1
        refine List.filter_congr fun c _ => ?_
        simp [row_empty]
      have core : ∀ l : List Row, (∀ x ∈ l, x ∈ S ∨ x = []) → ∀ n : ℤ,
          (if ((preEvalCheck (vars'.map Prod.snd) (s.data.map (recodeRow cs)) ((l.map (recodeRow cs)).filter fun c => !c.isEmpty)).length : ℤ) < n then
            (liftShape (createDoE vars' none (s.data.map (recodeRow cs)) (fun k n => (sample k n).map (recodeRow cs))
              (n - (preEvalCheck (vars'.map Prod.snd) (s.data.map (recodeRow cs)) ((l.map (recodeRow cs)).filter fun c => !c.isEmpty)).length))).map
              (preEvalCheck (vars'.map Prod.snd) (s.data.map (recodeRow cs)) ((l.map (recodeRow cs)).filter fun c => !c.isEmpty) ++ ·)
          else .ok (preEvalCheck (vars'.map Prod.snd) (s.data.map (recodeRow cs)) ((l.map (recodeRow cs)).filter fun c => !c.isEmpty)) : Except AskErr (List Row)) =
          (if ((preEvalCheck (s.vars.map Prod.snd) s.data (l.filter fun c => !c.isEmpty)).length : ℤ) < n then
            (liftShape (createDoE s.vars none s.data sample (n - (preEvalCheck (s.vars.map Prod.snd) s.data (l.filter fun c => !c.isEmpty)).length))).map
              (preEvalCheck (s.vars.map Prod.snd) s.data (l.filter fun c => !c.isEmpty) ++ ·)
          else .ok (preEvalCheck (s.vars.map Prod.snd) s.data (l.filter fun c => !c.isEmpty)) : Except AskErr (List Row)).map (List.map (recodeRow cs)) := by
        intro l hl n
        have hm : ∀ x ∈ l.filter fun c => !c.isEmpty, x ∈ S := by
          intro x hx
          obtain ⟨h1, h2⟩ := List.mem_filter.1 hx
          rcases hl x h1 with m | rfl
          · exact m
          · simp at h2
        rw [hfil, check_recoded h hS hd hm, List.length_map, hdoe, hlift]
        split_ifs
        · cases liftShape (createDoE s.vars none s.data sample (n - (preEvalCheck (s.vars.map Prod.snd) s.data (l.filter fun c => !c.isEmpty)).length)) with
          | error e => rfl
          | ok Y => simp [Except.map]
        · rfl
      by_cases hn : n?.getD s.nPoint > 1
      · rw [if_pos hn, if_pos hn]
        by_cases hp : s.parallel = true
        · rw [if_pos hp, if_pos hp]
          have := core ((List.range (n?.getD s.nPoint).toNat).map best) (by
            intro x hx
            obtain ⟨i, -, rfl⟩ := List.mem_map.1 hx
            exact hb i) (n?.getD s.nPoint)
          rw [List.map_map] at this
          exact this
        · rw [if_neg hp, if_neg hp]
          rfl
      · rw [if_neg hn, if_neg hn]
        exact core [best 0] (by simpa using hb 0) (n?.getD s.nPoint)
    · rw [if_neg hf, if_neg hf]
      show liftShape (createDoE _ _ _ _ _) = _
      rw [hdoe, hlift]
  unfold ask
  rw [hpoints]
  cases askPoints s n? none best sample with
  | error e => rfl
  | ok X =>
    simp only [Except.map, Except.bind, List.isEmpty_map]
    split_ifs <;> rfl

/-! ### The whole run -/

private theorem values_recoded (d : List (Rec Row ℝ)) : (d.map (recodeRec cs)).map Rec.f = d.map Rec.f := by
  rw [List.map_map]; rfl

private theorem incumbent_recoded (m : Bool) (d : List (Rec Row ℝ)) : incumbent m (d.map (recodeRec cs)) = (incumbent m d).map (recodeRec cs) := by
  unfold incumbent
  rw [values_recoded]
  cases getBest m (d.map Rec.f) with
  | none => rfl
  | some b => exact List.find?_map

private theorem best_recoded' (cfg : Cfg ℝ) (s : OptState Row ℝ) : xopt cfg (recodeOpt cs s) = (xopt cfg s).map (Option.map (recodeRec cs)) := by
  unfold xopt
  rw [show (recodeOpt cs s).data = s.data.map (List.map (recodeRec cs)) from rfl]
  cases s.data with
  | none => rfl
  | some d =>
    simp only [Option.map_some]
    rw [incumbent_recoded]
    cases incumbent cfg.minimize d <;> rfl

private theorem stop_recoded' (cfg : Cfg ℝ) (s : OptState Row ℝ) :
    checkStop cfg (recodeOpt cs s) = (recodeOpt cs (checkStop cfg s).1, (checkStop cfg s).2) := by
  have hb : checkBudget cfg (recodeOpt cs s) = recodeOpt cs (checkBudget cfg s) := by
    unfold checkBudget
    cases cfg.maxFEs with
    | none => rfl
    | some m =>
      dsimp only
      rw [show (recodeOpt cs s).evalCount = s.evalCount from rfl]
      split_ifs <;> rfl
  unfold checkStop
  dsimp only
  rw [hb]
  cases cfg.ftarget with
  | none => rfl
  | some t =>
    dsimp only
    rw [best_recoded']
    cases xopt cfg (checkBudget cfg s) with
    | error e => rfl
    | ok o =>
      cases o with
      | none => rfl
      | some r =>
        simp only [Except.map, Option.map_some]
        rw [show (recodeRec cs r).f = r.f from rfl]
        split_ifs <;> rfl

private theorem observe_recoded (warm : Bool) : ∀ (X : List Row) (v : List (Obs ℝ)) (c : ℕ),
    observe warm (X.map (recodeRow cs)) v c = ((observe warm X v c).1, (observe warm X v c).2.map (List.map fun p => (recodeRow cs p.1, p.2)))
  | [], _, _ => rfl
  | _ :: _, [], _ => rfl
  | x :: X, v :: vs, c => by
    simp only [List.map_cons, observe, observe_recoded warm X vs]
    cases (observe warm X vs (if warm = true then c else c + 1)).2 <;> rfl

private theorem kept_recoded (n0 : ℕ) : ∀ (l : List (Row × Obs ℝ)) (i : List String),
    postEvalCheck n0 ((l.map fun p => (recodeRow cs p.1, p.2)).zip i) = (postEvalCheck n0 (l.zip i)).map (recodeRec cs)
  | [], _ => rfl
  | _ :: _, [] => rfl
  | (x, v) :: l, i :: is => by
    simp only [List.map_cons, List.zip_cons_cons]
    cases v <;> simp only [postEvalCheck, kept_recoded n0 l is]
    rfl

private theorem rest_recoded (cfg : Cfg ℝ) (s : OptState Row ℝ) (d kept : List (Rec Row ℝ)) (X X' : List Row) (v : List (Obs ℝ)) (o : TellOracle) :
    tellRest cfg (recodeOpt cs s) (d.map (recodeRec cs)) (kept.map (recodeRec cs)) { X := X', vals := v, oracle := o } =
      (recodeOpt cs (tellRest cfg s d kept { X := X, vals := v, oracle := o }).1, (tellRest cfg s d kept { X := X, vals := v, oracle := o }).2) := by
  unfold tellRest
  dsimp only
  rw [List.isEmpty_map, values_recoded, incumbent_recoded]
  by_cases h1 : d.isEmpty = true
  · rw [if_pos h1, if_pos h1]; rfl
  rw [if_neg h1, if_neg h1]
  by_cases h2 : isFlat (d.map Rec.f) = true
  · rw [if_pos h2, if_pos h2]; rfl
  rw [if_neg h2, if_neg h2]
  by_cases h3 : (!o.fitOk) = true
  · rw [if_pos h3, if_pos h3]; rfl
  rw [if_neg h3, if_neg h3]
  cases incumbent cfg.minimize d with
  | none =>
    simp only [Option.map_none]
    split_ifs <;> simp [recodeOpt]
  | some r =>
    simp only [Option.map_some]
    by_cases h4 : (!o.constraintOk) = true
    · rw [if_pos h4, if_pos h4]
      split_ifs <;> simp [recodeOpt]
    · rw [if_neg h4, if_neg h4]
      split_ifs <;> simp [recodeOpt, recodeRec]

private theorem tell_recoded (cfg : Cfg ℝ) (s : OptState Row ℝ) (X : List Row) (v : List (Obs ℝ)) (o : TellOracle) :
    tell cfg (recodeOpt cs s) { X := X.map (recodeRow cs), vals := v, oracle := o } =
      (recodeOpt cs (tell cfg s { X := X, vals := v, oracle := o }).1, (tell cfg s { X := X, vals := v, oracle := o }).2) := by
  unfold tell
  dsimp only
  generalize (if cfg.evalDict then 0 else 1) = n0
  rw [List.isEmpty_map, observe_recoded, show (recodeOpt cs s).evalCount = s.evalCount from rfl]
  by_cases h1 : X.isEmpty = true
  · rw [if_pos h1, if_pos h1]
  rw [if_neg h1, if_neg h1]
  simp only [Option.map_none, Option.any_none, Bool.false_eq_true, if_false]
  rcases observe false X v s.evalCount with ⟨c, _ | pairs⟩
  · rfl
  · simp only [Option.map_some]
    rw [show labels { X := X.map (recodeRow cs), vals := v, oracle := o } = labels { X := X, vals := v, oracle := o } by simp [labels], kept_recoded,
      show (recodeOpt cs s).data = s.data.map (List.map (recodeRec cs)) from rfl]
    cases hd : s.data with
    | none =>
      exact rest_recoded cfg { s with evalCount := c } _ _ X _ v o
    | some d =>
      simp only [Option.map_some]
      rw [← List.map_append, List.isEmpty_map]
      split_ifs
      · simp [recodeOpt, hd]
      · exact rest_recoded cfg { s with evalCount := c } _ _ X _ v o

private theorem kept_points (n0 : ℕ) : ∀ (l : List (Row × Obs ℝ)) (i : List String), ∀ r ∈ postEvalCheck n0 (l.zip i), ∃ p ∈ l, r.x = p.1
  | [], _, r, h => by simp [postEvalCheck] at h
  | _ :: _, [], r, h => by simp [postEvalCheck] at h
  | (x, v) :: l, i :: is, r, h => by
    simp only [List.zip_cons_cons] at h
    cases v with
    | fin a =>
      simp only [postEvalCheck, List.mem_cons] at h
      rcases h with rfl | h
      · exact ⟨_, List.mem_cons_self .., rfl⟩
      · obtain ⟨p, hp, e⟩ := kept_points n0 l is r h
        exact ⟨p, List.mem_cons_of_mem _ hp, e⟩
    | _ =>
      simp only [postEvalCheck] at h
      obtain ⟨p, hp, e⟩ := kept_points n0 l is r h
      exact ⟨p, List.mem_cons_of_mem _ hp, e⟩

private theorem observed_points (warm : Bool) : ∀ (X : List Row) (v : List (Obs ℝ)) (c : ℕ) (ps : List (Row × Obs ℝ)), (observe warm X v c).2 = some ps → ∀ p ∈ ps, p.1 ∈ X
  | [], _, _, ps, h, p, hp => by simp [observe] at h; subst h; simp at hp
  | _ :: _, [], _, ps, h, p, hp => by simp [observe] at h
  | x :: X, v :: vs, c, ps, h, p, hp => by
    simp only [observe] at h
    obtain ⟨qs, hq, rfl⟩ := Option.map_eq_some_iff.1 h
    rcases List.mem_cons.1 hp with rfl | hp
    · exact List.mem_cons_self ..
    · exact List.mem_cons_of_mem _ (observed_points warm X vs _ qs hq p hp)

private theorem rest_data (cfg : Cfg ℝ) (s : OptState Row ℝ) (d kept : List (Rec Row ℝ)) (a : TellArgs Row ℝ) : (tellRest cfg s d kept a).1.data = some d := by
  unfold tellRest
  dsimp only
  split_ifs <;> first | rfl | (cases incumbent cfg.minimize d <;> rfl)

private theorem told_points (cfg : Cfg ℝ) (s : OptState Row ℝ) (a : TellArgs Row ℝ) {r : Rec Row ℝ} (hr : r ∈ (tell cfg s a).1.data.getD []) :
    r ∈ s.data.getD [] ∨ r.x ∈ a.X := by
  unfold tell at hr
  generalize hn : (if cfg.evalDict then 0 else 1) = n0 at hr
  split_ifs at hr with h1 h2
  · exact .inl hr
  · exact .inl hr
  · rcases ho : observe a.warm a.X a.vals s.evalCount with ⟨c, _ | ps⟩
    · rw [ho] at hr; exact .inl hr
    · rw [ho] at hr
      dsimp only at hr
      have new : ∀ r ∈ postEvalCheck n0 (ps.zip (labels a)), r.x ∈ a.X := by
        intro r hr
        obtain ⟨p, hp, e⟩ := kept_points _ _ _ r hr
        rw [e]
        exact observed_points _ _ _ _ ps (by rw [ho]) p hp
      cases hd : s.data with
      | none =>
        rw [hd] at hr
        dsimp only at hr
        rw [rest_data] at hr
        exact .inr (new r hr)
      | some d =>
        rw [hd] at hr
        dsimp only at hr
        split_ifs at hr
        · exact .inl (by simpa [hd] using hr)
        · rw [rest_data] at hr
          rcases List.mem_append.1 hr with m | m
          · exact .inl m
          · exact .inr (new r m)

private theorem stop_data (cfg : Cfg ℝ) (s : OptState Row ℝ) : (checkStop cfg s).1.data = s.data := by
  have hb : (checkBudget cfg s).data = s.data := by
    unfold checkBudget
    cases cfg.maxFEs with
    | none => rfl
    | some m => dsimp only; split_ifs <;> rfl
  unfold checkStop
  dsimp only
  cases cfg.ftarget with
  | none => exact hb
  | some t =>
    dsimp only
    cases xopt cfg (checkBudget cfg s) with
    | error e => exact hb
    | ok o =>
      cases o with
      | none => exact hb
      | some r => dsimp only; split_ifs <;> exact hb

private theorem doe_points {data : List Row} {sample : ℕ → ℤ → List Row} (hl : ∀ k n, ∀ x ∈ sample k n, x.length = vars.length)
    (hp : ∀ v, Kind.real v ∈ vars.map Prod.snd → v.precision = none) (hs : ∀ k n, ∀ x ∈ sample k n, x ∈ S) :
    ∀ (k : ℕ) (n : ℤ) (acc X : List Row), (∀ x ∈ acc, x ∈ S) → doeLoop vars [] data sample k n acc = some X → ∀ x ∈ X, x ∈ S := by
  intro k
  induction k with
  | zero => intro n acc X ha h; simp only [doeLoop, Option.some.injEq] at h; subst h; exact ha
  | succ k ih =>
    intro n acc X ha h
    unfold doeLoop at h
    rw [fillin_nothing _ _ (fun x hx => by simpa using hl k n x hx)] at h
    split_ifs at h with h1
    · simp only [Option.some.injEq] at h; subst h; exact ha
    · simp only [Option.bind_some] at h
      split_ifs at h
      · exact ih _ _ _ ha h
      · refine ih _ _ _ (fun x hx => ?_) h
        rcases List.mem_append.1 hx with m | m
        · exact ha x m
        · obtain ⟨i, hi, -⟩ := mem_preEvalCheck.1 m
          obtain ⟨y, hy, rfl⟩ := List.mem_map.1 (List.mem_of_getElem? hi)
          rw [round_id hp (by simpa using hl k n y hy)]
          exact hs k n y hy

private theorem ask_points {s : AskState} {best : ℕ → Row} {sample : ℕ → ℤ → List Row} {n? : Option ℤ} (hb : ∀ i, best i ∈ S ∨ best i = [])
    (hl : ∀ k n, ∀ x ∈ sample k n, x.length = s.vars.length) (hp : ∀ v, Kind.real v ∈ s.vars.map Prod.snd → v.precision = none)
    (hs : ∀ k n, ∀ x ∈ sample k n, x ∈ S) {X : List Row} (h : ask s n? none best sample = .ok X) : ∀ x ∈ X, x ∈ S := by
  have hdoe : ∀ n Y, liftShape (createDoE s.vars none s.data sample n) = .ok Y → ∀ x ∈ Y, x ∈ S := by
    intro n Y hY
    cases hc : createDoE s.vars none s.data sample n with
    | none => rw [hc] at hY; cases hY
    | some Z =>
      rw [hc] at hY
      cases hY
      exact doe_points hl hp hs 4 n [] _ (by simp) hc
  unfold ask at h
  cases ha : askPoints s n? none best sample with
  | error e => rw [ha] at h; cases h
  | ok Y =>
    rw [ha] at h
    simp only [Except.bind] at h
    split_ifs at h
    cases h
    unfold askPoints at ha
    dsimp only at ha
    split_ifs at ha with hf
    · cases hc : argMaxAcquisition s (n?.getD s.nPoint) none best with
      | error e => rw [hc] at ha; cases ha
      | ok C =>
        rw [hc] at ha
        simp only [Except.bind] at ha
        have hC : ∀ x ∈ C, x ∈ S := by
          have key : ∀ l : List Row, (∀ x ∈ l, x ∈ S ∨ x = []) → ∀ x ∈ l.filter (fun c => !c.isEmpty), x ∈ S := by
            intro l hl' x hx
            obtain ⟨h1, h2⟩ := List.mem_filter.1 hx
            rcases hl' x h1 with m | rfl
            · exact m
            · simp at h2
          unfold argMaxAcquisition at hc
          dsimp only [fillin] at hc
          split_ifs at hc
          · simp only [Except.bind, Except.ok.injEq] at hc
            subst hc
            exact key _ (by intro x hx; obtain ⟨i, -, rfl⟩ := List.mem_map.1 hx; exact hb i)
          · cases hc
          · simp only [Except.bind, Except.ok.injEq] at hc
            subst hc
            exact key _ (by simpa using hb 0)
        have hchk : ∀ x ∈ preEvalCheck (s.vars.map Prod.snd) s.data C, x ∈ S := by
          intro x hx
          obtain ⟨i, hi, -⟩ := mem_preEvalCheck.1 hx
          exact hC _ (List.mem_of_getElem? hi)
        split_ifs at ha
        · cases hL : liftShape (createDoE s.vars none s.data sample (n?.getD s.nPoint - (preEvalCheck (s.vars.map Prod.snd) s.data C).length)) with
          | error e => rw [hL] at ha; cases ha
          | ok Z =>
            rw [hL] at ha
            simp only [Except.map, Except.ok.injEq] at ha
            subst ha
            intro x hx
            rcases List.mem_append.1 hx with m | m
            · exact hchk x m
            · exact hdoe _ Z hL x m
        · cases ha
          exact hchk
    · exact hdoe _ _ ha

/-- **C180, the whole run.**  Under the same assumption about the points, `run()` in the new terms evaluates the same points in the same order, stops after the same number of steps for
the same reason and returns the same point. -/
theorem c180_run_partial {G : Type*} (cfg : Cfg ℝ) (u u' : RunSetup) (hu : u' = { u with vars := u'.vars })
    (h : SpaceRecoded cs (u.vars.map Prod.snd) (u'.vars.map Prod.snd)) (hS : ToldApart cs (u.vars.map Prod.snd) (u'.vars.map Prod.snd) S) (w w' : ℕ → StepWorld G)
    (hw : ∀ i, SameWorld cs S u.vars u'.vars (w i) (w' i)) (fuel : ℕ) :
    fullRun cfg u' w' fuel 0 {} [] = recodeOut cs (fullRun cfg u w fuel 0 {} []) := by
  have key : ∀ (fuel i : ℕ) (s : OptState Row ℝ) (log : List (ℕ × Row × Obs ℝ)), (∀ r ∈ s.data.getD [], r.x ∈ S) →
      fullRun cfg u' w' fuel i (recodeOpt cs s) (log.map fun e => (e.1, recodeRow cs e.2.1, e.2.2)) = recodeOut cs (fullRun cfg u w fuel i s log) := by
    intro fuel
    induction fuel with
    | zero => intro i s log _; rfl
    | succ fuel ih =>
      intro i s log hs
      unfold fullRun
      rw [stop_recoded']
      have hdata := stop_data cfg s
      rcases hcs : checkStop cfg s with ⟨s1, e | b⟩
      · rfl
      · cases b with
        | true =>
          dsimp only
          rw [best_recoded']
          cases xopt cfg s1 with
          | error e => rfl
          | ok o => cases o <;> rfl
        | false =>
          rw [hcs] at hdata
          dsimp only at hdata ⊢
          have hs1 : ∀ r ∈ s1.data.getD [], r.x ∈ S := by rw [hdata]; exact hs
          have hask : askFull (w' i).env (askStateOf u' (recodeOpt cs s1)) none none =
              (askFull (w i).env (askStateOf u s1) none none).map (List.map (recodeRow cs)) := by
            have e1 : askStateOf u' (recodeOpt cs s1) =
                { askStateOf u s1 with vars := u'.vars, data := (askStateOf u s1).data.map (recodeRow cs) } := by
              rw [hu]
              unfold askStateOf recodeOpt
              cases s1.data with
              | none => rfl
              | some d =>
                simp only [Option.map_some, Option.getD_some, List.map_map, Option.isSome_some]
                rfl
            unfold askFull
            rw [e1]
            have e2 := c180_ask_partial (askStateOf u s1) u'.vars h hS (by
                intro x hx
                obtain ⟨r, hr, rfl⟩ := List.mem_map.1 hx
                exact hs1 r hr) none (acquisitionBest (w i).env u.vars []) (hw i).searched (designSample (w i).env u.vars []) (hw i).sampled
            have e3 : acquisitionBest (w' i).env u'.vars [] = fun j => recodeRow cs (acquisitionBest (w i).env u.vars [] j) := funext (hw i).search
            have e4 : designSample (w' i).env u'.vars [] = fun k n => (designSample (w i).env u.vars [] k n).map (recodeRow cs) := by
              funext k n; exact (hw i).sample k n
            simp only [Option.getD_none]
            rw [e3, e4]
            exact e2
          rw [hask]
          cases hA : askFull (w i).env (askStateOf u s1) none none with
          | error e => rfl
          | ok X =>
            have hX : ∀ x ∈ X, x ∈ S := by
              unfold askFull at hA
              exact ask_points (hw i).searched (fun k n x hx => by simpa [askStateOf] using (hS x ((hw i).sampled k n x hx)).1.1) (precise h).1 (hw i).sampled hA
            simp only [Except.map]
            have hv : (X.map (recodeRow cs)).map (w' i).objective = X.map (w i).objective := by
              rw [List.map_map]
              exact List.map_congr_left fun x hx => (hw i).objective x (hX x hx)
            have hl : log.map (fun e => (e.1, recodeRow cs e.2.1, e.2.2)) ++ (X.map (recodeRow cs)).map (fun x => (i, x, (w' i).objective x)) =
                (log ++ X.map fun x => (i, x, (w i).objective x)).map fun e => (e.1, recodeRow cs e.2.1, e.2.2) := by
              rw [List.map_append, List.map_map, List.map_map]
              congr 1
              refine List.map_congr_left fun x hx => ?_
              simp only [Function.comp_apply, (hw i).objective x (hX x hx)]
            rw [hv, (hw i).oracle, tell_recoded, hl]
            have hpts := @told_points cfg s1 { X := X, vals := X.map (w i).objective, oracle := (w i).oracle }
            rcases ht : tell cfg s1 { X := X, vals := X.map (w i).objective, oracle := (w i).oracle } with ⟨s2, e | _⟩
            · rfl
            · rw [ht] at hpts
              refine ih (i + 1) s2 _ fun r hr => ?_
              rcases hpts hr with m | m
              · exact hs1 r m
              · exact hX _ m
  exact key fuel 0 {} [] (by simp)

/-! ### Spaces without real variables -/

private theorem still_not_real {c : Recode} {k k' : Kind} (h : c.Relates k k') (hk : k.vtype ≠ .real) : k'.vtype ≠ .real := by
  cases c with
  | level g => exact h.2.1.1
  | integer d => cases k <;> cases k' <;> simp_all [Recode.Relates, Kind.vtype]
  | real a b => cases k <;> cases k' <;> simp_all [Recode.Relates, Kind.vtype]

private theorem value_injective {c : Recode} {k k' : Kind} (h : c.Relates k k') (hk : k.vtype ≠ .real) (hn : ∀ g, c = .level g → Function.Injective g) :
    Function.Injective c.value := by
  cases c with
  | real a b => cases k <;> cases k' <;> simp_all [Recode.Relates, Kind.vtype]
  | integer d =>
    intro p q e
    cases p <;> cases q <;> simp_all [Recode.value]
  | level g =>
    have hg := hn g rfl
    intro p q e
    cases p <;> cases q <;> simp_all [Recode.value]
    exact hg e

/-- **C180 without real variables.**  For spaces of integer and categorical variables nothing has to be assumed about the points: whatever the origin of the integers and the names of the
levels, `ask` returns the same points in the new terms, or raises the same exception. -/
theorem c180_ask_no_reals (s : AskState) (vars' : Vars) (h : SpaceRecoded cs (s.vars.map Prod.snd) (vars'.map Prod.snd)) (hr : ∀ v ∈ s.vars, v.2.vtype ≠ .real)
    (hn : ∀ g, Recode.level g ∈ cs → Function.Injective g) (hd : ∀ x ∈ s.data, x.length = s.vars.length) (n? : Option ℤ) (best : ℕ → Row)
    (hb : ∀ i, (best i).length = s.vars.length ∨ best i = []) (sample : ℕ → ℤ → List Row) (hs : ∀ k n, ∀ x ∈ sample k n, x.length = s.vars.length) :
    ask { s with vars := vars', data := s.data.map (recodeRow cs) } n? none (fun i => recodeRow cs (best i)) (fun k n => (sample k n).map (recodeRow cs)) =
      (ask s n? none best sample).map (List.map (recodeRow cs)) := by
  have hlen : (s.vars.map Prod.snd).length = s.vars.length := by simp
  have hreal : ∀ (j : ℕ) (k : Kind), (s.vars.map Prod.snd)[j]? = some k → k.vtype ≠ .real := by
    intro j k hk
    obtain ⟨v, hv, rfl⟩ := List.mem_map.1 (List.mem_of_getElem? hk)
    exact hr v hv
  refine c180_ask_partial (S := {x | x.length = s.vars.length}) s vars' h (fun x hx => ⟨⟨by rw [hlen]; exact hx, fun j k hk ht => absurd ht (hreal j k hk)⟩, fun y hy hxy => ?_⟩)
    hd n? best hb sample hs
  obtain ⟨j, hj⟩ : ∃ j : ℕ, x[j]? ≠ y[j]? := by
    by_contra hc
    push Not at hc
    exact hxy (List.ext_getElem? hc)
  have hjl : j < (s.vars.map Prod.snd).length := by
    by_contra hc
    push Not at hc
    rw [List.getElem?_eq_none (by rw [show x.length = s.vars.length from hx]; omega), List.getElem?_eq_none (by rw [show y.length = s.vars.length from hy]; omega)] at hj
    exact hj rfl
  have hk := List.getElem?_eq_getElem hjl
  have hk' : (vars'.map Prod.snd)[j]? = some ((vars'.map Prod.snd)[j]'(h.kinds ▸ hjl)) := List.getElem?_eq_getElem _
  have hc : cs[j]? = some (cs[j]'(h.codes ▸ hjl)) := List.getElem?_eq_getElem _
  have hrel := h.relates _ _ _ _ hc hk hk'
  have hk1 := hreal _ _ hk
  have hk2 := still_not_real hrel hk1
  have hinj := value_injective hrel hk1 fun g hg => hn g (hg ▸ List.getElem_mem _)
  refine ⟨⟨j, _, hk, fun _ => hj.symm, fun ht => absurd ht hk1⟩, ⟨j, _, hk', fun _ e => hj.symm ?_, fun ht => absurd ht hk2⟩⟩
  rw [row_at, row_at, List.getD_eq_getElem?_getD, hc] at e
  exact Option.map_injective hinj e

/-! ### Spaces in which every two points count as duplicates -/

private theorem all_match (hk : ∀ k ∈ ks, Indistinct k) {x y : Row} (hx : PointOf ks x) (hy : PointOf ks y) : matchesRow ks y x := by
  have none_else : ∀ (j : ℕ) (k : Kind), ks[j]? = some k → k.vtype = .real := by
    intro j k h
    have := hk k (List.mem_of_getElem? h)
    cases k <;> simp_all [Indistinct, Kind.vtype]
  refine ⟨fun j hj => ?_, fun j hj => ?_, fun j hj => ?_⟩
  · obtain ⟨k, h1, h2⟩ := mem_typeIds.1 hj
    have hjl : j < ks.length := (List.getElem?_eq_some_iff.1 h1).1
    have hind := hk k (List.mem_of_getElem? h1)
    cases k with
    | real v =>
      have a1 : x[j]? = some (x[j]'(hx.1 ▸ hjl)) := List.getElem?_eq_getElem _
      have b1 : y[j]? = some (y[j]'(hy.1 ▸ hjl)) := List.getElem?_eq_getElem _
      have a2 := hx.2 j _ _ h1 a1
      have b2 := hy.2 j _ _ h1 b1
      rw [a1, b1]
      generalize x[j]'(hx.1 ▸ hjl) = p at a2
      generalize y[j]'(hy.1 ▸ hjl) = q at b2
      cases p with
      | real a =>
        cases q with
        | real b => exact hind.2 b a b2.1 b2.2 a2.1 a2.2
        | _ => exact b2.elim
      | _ => exact a2.elim
    | _ => exact hind.elim
  · obtain ⟨k, h1, h2⟩ := mem_typeIds.1 hj
    rw [none_else j k h1] at h2
    cases h2
  · obtain ⟨k, h1, h2, -⟩ := mem_categoricalIds.1 hj
    exact absurd (none_else j k h1) h2

private theorem check_nothing (hk : ∀ k ∈ ks, Indistinct k) {data X : List Row} (hd : ∀ x ∈ data, PointOf ks x) (hX : ∀ x ∈ X, PointOf ks x)
    (h : data ≠ [] ∨ X.length ≠ 1) : preEvalCheck ks data X = [] := by
  rw [List.eq_nil_iff_forall_not_mem]
  intro x hx
  obtain ⟨i, hi, h1, h2⟩ := mem_preEvalCheck.1 hx
  have hxX := List.mem_of_getElem? hi
  rcases h with h | h
  · obtain ⟨d, hdm⟩ := List.exists_mem_of_ne_nil _ h
    exact h1 d hdm (all_match hk (hX x hxX) (hd d hdm))
  · have hil : i < X.length := (List.getElem?_eq_some_iff.1 hi).1
    obtain ⟨j, hj, hji⟩ : ∃ j, j < X.length ∧ j ≠ i := by
      by_cases e : i = 0
      · exact ⟨1, by omega, by omega⟩
      · exact ⟨0, by omega, by omega⟩
    exact h2 j _ (List.getElem?_eq_getElem hj) hji (all_match hk (hX x hxX) (hX _ (List.getElem_mem hj)))

private theorem doe_nothing (hk : ∀ k ∈ vars.map Prod.snd, Indistinct k) {data : List Row} {sample : ℕ → ℤ → List Row} {n : ℤ} (hd : ∀ x ∈ data, PointOf (vars.map Prod.snd) x)
    (hs : ∀ k, ∀ x ∈ sample k n, PointOf (vars.map Prod.snd) x) (h : data ≠ [] ∨ ∀ k, (sample k n).length ≠ 1) :
    ∀ k, doeLoop vars [] data sample k n [] = some [] := by
  intro k
  induction k with
  | zero => rfl
  | succ k ih =>
    unfold doeLoop
    rw [fillin_nothing _ _ (fun x hx => by rw [names_length]; exact (hs k x hx).1)]
    split_ifs
    · rfl
    · simp only [Option.bind_some]
      split_ifs
      · exact ih
      · have r1 : (sample k n).map (roundRow (vars.map Prod.snd)) = sample k n := by
          conv_rhs => rw [← List.map_id (sample k n)]
          exact List.map_congr_left fun x hx => round_id (fun v hv => (hk _ hv).1) (hs k x hx).1
        rw [r1, check_nothing hk hd (hs k) (h.imp_right fun h => h k)]
        simpa using ih

/-- **C180, refuted: with small units no second point.**  If the duplicate check takes all values of all variables for equal, then `ask` never returns anything once a point is recorded,
whatever the search and the sampler deliver. -/
theorem c180_never_again_refuted (s : AskState) (hk : ∀ k ∈ s.vars.map Prod.snd, Indistinct k) (hd : ∀ x ∈ s.data, PointOf (s.vars.map Prod.snd) x) (hne : s.data ≠ [])
    (n? : Option ℤ) (best : ℕ → Row) (hb : ∀ i, PointOf (s.vars.map Prod.snd) (best i) ∨ best i = []) (sample : ℕ → ℤ → List Row)
    (hs : ∀ k n, ∀ x ∈ sample k n, PointOf (s.vars.map Prod.snd) x) (X : List Row) : ask s n? none best sample ≠ .ok X := by
  have hdoe : ∀ n, createDoE s.vars none s.data sample n = some [] := fun n => doe_nothing hk hd (fun k => hs k n) (.inl hne) 4
  intro h
  unfold ask at h
  have hp : askPoints s n? none best sample = .ok [] ∨ ∃ e, askPoints s n? none best sample = .error e := by
    unfold askPoints
    dsimp only
    by_cases hf : s.fitted = true
    · rw [if_pos hf]
      cases hc : argMaxAcquisition s (n?.getD s.nPoint) none best with
      | error e => exact .inr ⟨e, rfl⟩
      | ok C =>
        have hC : ∀ x ∈ C, PointOf (s.vars.map Prod.snd) x := by
          have key : ∀ l : List Row, (∀ x ∈ l, PointOf (s.vars.map Prod.snd) x ∨ x = []) → ∀ x ∈ l.filter (fun c => !c.isEmpty), PointOf (s.vars.map Prod.snd) x := by
            intro l hl' x hx
            obtain ⟨h1, h2⟩ := List.mem_filter.1 hx
            rcases hl' x h1 with m | rfl
            · exact m
            · simp at h2
          unfold argMaxAcquisition at hc
          dsimp only [fillin] at hc
          split_ifs at hc
          · simp only [Except.bind, Except.ok.injEq] at hc
            subst hc
            exact key _ (by intro x hx; obtain ⟨i, -, rfl⟩ := List.mem_map.1 hx; exact hb i)
          · cases hc
          · simp only [Except.bind, Except.ok.injEq] at hc
            subst hc
            exact key _ (by simpa using hb 0)
        left
        simp only [Except.bind]
        rw [check_nothing hk hd hC (.inl hne), hdoe]
        split_ifs <;> rfl
    · rw [if_neg hf, hdoe]
      exact .inl rfl
  rcases hp with hp | ⟨e, hp⟩ <;> rw [hp] at h <;> simp [Except.bind] at h

/-- **C180, refuted: no initial design.**  In such a space the first `ask` for several points raises, whatever points the sampler delivers. -/
theorem c180_no_design_refuted (s : AskState) (hk : ∀ k ∈ s.vars.map Prod.snd, Indistinct k) (hd : s.data = []) (hf : s.fitted = false) (n? : Option ℤ) (n : ℤ)
    (hn? : n?.getD s.doeSize = n) (best : ℕ → Row) (sample : ℕ → ℤ → List Row) (hs : ∀ k, ∀ x ∈ sample k n, PointOf (s.vars.map Prod.snd) x) (hl : ∀ k, ((sample k n).length : ℤ) = n) (hn : 2 ≤ n) :
    ask s n? none best sample = .error .empty := by
  have h1 : createDoE s.vars none s.data sample n = some [] :=
    doe_nothing hk (by simp [hd]) hs (.inr fun k h => by have := hl k; rw [h] at this; norm_num at this; omega) 4
  unfold ask askPoints
  simp [hf, hn?, h1, liftShape, Except.bind]

/-- A length between 0 and 10 nanometres, given in metres, and a time within four and a half hours, given in seconds since 1970. -/
theorem c180_indistinct_examples : Indistinct (.real { lo := 0, hi := 1 / 10 ^ 8 }) ∧ Indistinct (.real { lo := 1600000000, hi := 1600016000 }) := by
  refine ⟨⟨rfl, fun a b h1 h2 h3 h4 => ?_⟩, ⟨rfl, fun a b h1 h2 h3 h4 => ?_⟩⟩
  · dsimp only at h1 h2 h3 h4
    have := abs_nonneg b
    have : |a - b| ≤ 1 / 10 ^ 8 := abs_sub_le_iff.2 ⟨by linarith, by linarith⟩
    linarith
  · dsimp only at h1 h2 h3 h4
    rw [abs_of_pos (show 0 < b by linarith)]
    refine abs_sub_le_iff.2 ⟨?_, ?_⟩ <;> linarith

/-- **C180, refuted.**  The same length in nanometres and in metres, the same two sampled points: in nanometres `ask` returns them, in metres it raises. -/
theorem c180_units_refuted : ∃ (cs : List Recode) (s s' : AskState) (sample : ℕ → ℤ → List Row) (X : List Row),
    SpaceRecoded cs (s.vars.map Prod.snd) (s'.vars.map Prod.snd) ∧ s' = { s with vars := s'.vars } ∧ s.data = [] ∧
      (∀ k n, ∀ x ∈ sample k n, PointOf (s.vars.map Prod.snd) x) ∧ X.length = 2 ∧ ask s none none (fun _ => []) sample = .ok X ∧
      ask s' none none (fun _ => []) (fun k n => (sample k n).map (recodeRow cs)) = .error .empty := by
  let vars : Vars := [("x", .real { lo := 0, hi := 10 })]
  let vars' : Vars := [("x", .real { lo := 0, hi := 1 / 10 ^ 8 })]
  let s : AskState := { vars := vars, data := [], fitted := false, parallel := false, nPoint := 1, doeSize := 2 }
  let X : List Row := [[.real 1], [.real 9]]
  have hX : ∀ x ∈ X, PointOf (vars.map Prod.snd) x := by
    intro x hx
    have : x = [.real 1] ∨ x = [.real 9] := by simpa [X] using hx
    rcases this with rfl | rfl
    all_goals
      refine ⟨rfl, fun j k v hk hv => ?_⟩
      match j with
      | 0 =>
        obtain rfl := Option.some.inj hk; obtain rfl := Option.some.inj hv
        norm_num [Kind.contains, RealVar.contains]
      | j + 1 => simp [vars] at hk
  refine ⟨[.real (1 / 10 ^ 9) 0], s, { s with vars := vars' }, fun _ _ => X, X, ⟨rfl, rfl, fun j c k k' h1 h2 h3 => ?_⟩, rfl, rfl, fun _ _ => hX, rfl, ?_, ?_⟩
  · match j with
    | 0 =>
      obtain rfl := Option.some.inj h1; obtain rfl := Option.some.inj h2; obtain rfl := Option.some.inj h3
      norm_num [Recode.Relates]
    | j + 1 => simp at h1
  · have hp : ∀ v, Kind.real v ∈ vars.map Prod.snd → v.precision = none := by
      intro v hv
      have : v = { lo := 0, hi := 10 } := by simpa [vars] using hv
      rw [this]
    have hr : X.map (roundRow (vars.map Prod.snd)) = X := by
      conv_rhs => rw [← List.map_id X]
      exact List.map_congr_left fun x hx => round_id hp (hX x hx).1
    have hD : ∀ a b : ℝ, (a = 1 ∧ b = 9) ∨ (a = 9 ∧ b = 1) → ¬ matchesRow (vars.map Prod.snd) [.real a] [.real b] := by
      intro a b hab
      refine not_matches_of_differs ⟨0, _, rfl, fun h => absurd rfl h, fun _ p q hp hq => ?_⟩
      have e1 : a = p := by simpa using hp
      have e2 : b = q := by simpa using hq
      subst e1 e2
      rcases hab with ⟨rfl, rfl⟩ | ⟨rfl, rfl⟩ <;> norm_num
    have hchk : preEvalCheck (vars.map Prod.snd) [] X = X := by
      have n1 := hD 9 1 (.inr ⟨rfl, rfl⟩)
      have n2 := hD 1 9 (.inl ⟨rfl, rfl⟩)
      unfold preEvalCheck
      simp [X, List.range_succ, n1, n2]
    have hdoe : createDoE vars none [] (fun _ _ => X) 2 = some X := by
      unfold createDoE doeLoop
      simp only [Option.getD_none]
      rw [if_neg (by norm_num), fillin_nothing _ _ (fun x hx => by rw [names_length]; exact (hX x hx).1)]
      simp only [Option.bind_some]
      rw [if_neg (by simp [X]), hr, hchk]
      unfold doeLoop
      simp [X]
    unfold ask askPoints
    simp [s, hdoe, liftShape, Except.bind, X]
  · refine c180_no_design_refuted { s with vars := vars' } ?_ rfl rfl none 2 rfl _ _ ?_ (fun _ => rfl) le_rfl
    · intro k hk
      have : k = .real { lo := 0, hi := 1 / 10 ^ 8 } := by simpa [vars'] using hk
      rw [this]
      exact c180_indistinct_examples.1
    · intro k x hx
      have : x = [.real (1 / 10 ^ 9 * 1 + 0)] ∨ x = [.real (1 / 10 ^ 9 * 9 + 0)] := by simpa [X, recodeRow, Recode.value] using hx
      rcases this with rfl | rfl
      all_goals
        refine ⟨rfl, fun j k v hk hv => ?_⟩
        match j with
        | 0 =>
          obtain rfl := Option.some.inj hk; obtain rfl := Option.some.inj hv
          norm_num [Kind.contains, RealVar.contains]
        | j + 1 => simp [vars'] at hk

/-- The example of `c146_concrete_run` with its variable written as 100 to 300 instead of 0 to 1. -/
private noncomputable def farSetup : RunSetup := { demoSetup with vars := [("a", .real { lo := 100, hi := 300 })] }

private noncomputable def farWorld : ℕ → StepWorld Unit := fun _ =>
  { env := { zeroEnv .bfgs none none [200] with nRestart := 1 }
    objective := fun
      | [.real a] => .fin (1 - (a - 100) / 200)
      | _ => .nan }

private theorem zero_design (v : RealVar) (hv : v.sample 0 = some v.lo) (lower : List ℝ) (k : ℕ) (n : ℤ) :
    designSample { zeroEnv .bfgs none none lower with nRestart := 1 } [("a", .real v)] [] k n = List.replicate n.toNat [.real v.lo] := by
  have hfk : freeKinds [("a", .real v)] [] = [.real v] := by simp [freeKinds]
  unfold designSample
  simp only [hfk]
  rw [if_neg (by simp [zeroEnv])]
  simp [sampleFree, sampledRows, sampleRaw, pureType, sampleGroup, realCols, toRows, Kind.vtype, Kind.ofUniform, zeroEnv, hv, List.zipIdx]
  split_ifs with hn
  · simp [Int.toNat_of_nonpos hn]
  · simp

private theorem zero_best (vars : Vars) (a : ℝ) (i : ℕ) : acquisitionBest { zeroEnv .bfgs none none [a] with nRestart := 1 } vars [] i = [.real a] := by
  simp [acquisitionBest, argmaxRestart, restartRun, restartLoop, restartStep, restartFeasible, innerRun, zeroEnv, nanSort, List.range_succ,
    List.insertionSort]

/-- The hypotheses of `c180_run_partial` hold for the run of `c146_concrete_run`, which evaluates 0 and 1/2, and for the same variable written from 100 to
300. -/
theorem c180_concrete : farSetup = { demoSetup with vars := farSetup.vars } ∧
    SpaceRecoded [.real 200 100] (demoSetup.vars.map Prod.snd) (farSetup.vars.map Prod.snd) ∧
    ToldApart [.real 200 100] (demoSetup.vars.map Prod.snd) (farSetup.vars.map Prod.snd) {[.real 0], [.real (1 / 2)]} ∧
    ∀ i, SameWorld [.real 200 100] {[.real 0], [.real (1 / 2)]} demoSetup.vars farSetup.vars (demoWorld demoObjective i) (farWorld i) := by
  have hs : unitVar.sample 0 = some unitVar.lo := by
    simp [RealVar.sample, unitVar, affine, scaleTrans, RealVar.toLinear, scaleInv, RealVar.round]
  have hs' : ({ lo := 100, hi := 300 } : RealVar).sample 0 = some 100 := by
    simp [RealVar.sample, affine, scaleTrans, RealVar.toLinear, scaleInv, RealVar.round]
  have hrow : ∀ a : ℝ, recodeRow [.real 200 100] [.real a] = [.real (200 * a + 100)] := by
    intro a; simp [recodeRow, Recode.value]
  have hd : ∀ i k n, designSample (demoWorld demoObjective i).env demoSetup.vars [] k n = List.replicate n.toNat [.real 0] := fun _ k n =>
    zero_design unitVar hs _ k n
  have hd' : ∀ i k n, designSample (farWorld i).env farSetup.vars [] k n = List.replicate n.toNat [.real 100] := fun _ k n =>
    zero_design _ hs' _ k n
  have hb : ∀ i j, acquisitionBest (demoWorld demoObjective i).env demoSetup.vars [] j = [.real (1 / 2)] := fun _ j => zero_best _ _ j
  have hb' : ∀ i j, acquisitionBest (farWorld i).env farSetup.vars [] j = [.real 200] := fun _ j => zero_best _ _ j
  refine ⟨rfl, ⟨rfl, rfl, fun j c k k' h1 h2 h3 => ?_⟩, ?_, fun i => ⟨fun j => ?_, fun k n x hx => ?_, fun j => ?_, fun k n => ?_, ?_, rfl⟩⟩
  · match j with
    | 0 =>
      obtain rfl := Option.some.inj h1; obtain rfl := Option.some.inj h2; obtain rfl := Option.some.inj h3
      norm_num [Recode.Relates, unitVar]
    | j + 1 => simp at h1
  · have hrf : ∀ a : ℝ, RowFor (demoSetup.vars.map Prod.snd) [.real a] := by
      refine fun a => ⟨rfl, fun j k hk _ => ?_⟩
      match j with
      | 0 => exact ⟨a, rfl⟩
      | j + 1 => simp [demoSetup] at hk
    have hdiff : ∀ (v : RealVar) (a b : ℝ), 1 / 10 ^ 8 + 1 / 10 ^ 5 * |a| < |b - a| → Differs [.real v] [.real a] [.real b] := by
      intro v a b hab
      refine ⟨0, _, rfl, fun h => absurd rfl h, fun _ p q hp hq => ?_⟩
      have e1 : b = p := by simpa using hp
      have e2 : a = q := by simpa using hq
      subst e1 e2
      exact hab
    rintro x (rfl | rfl)
    · refine ⟨hrf _, ?_⟩
      rintro y (rfl | rfl) hne
      · exact absurd rfl hne
      · rw [hrow, hrow]
        exact ⟨hdiff _ _ _ (by norm_num [abs_of_pos]), hdiff _ _ _ (by norm_num [abs_of_pos])⟩
    · refine ⟨hrf _, ?_⟩
      rintro y (rfl | rfl) hne
      · rw [hrow, hrow]
        exact ⟨hdiff _ _ _ (by norm_num [abs_of_pos]), hdiff _ _ _ (by norm_num [abs_of_pos])⟩
      · exact absurd rfl hne
  · exact .inl (by rw [hb]; exact .inr rfl)
  · rw [hd] at hx
    exact .inl (List.eq_of_mem_replicate hx)
  · rw [hb, hb', hrow]; norm_num
  · rw [hd, hd', List.map_replicate, hrow]; norm_num
  · rintro x (rfl | rfl)
    · rw [hrow]; norm_num [farWorld, demoWorld, demoObjective]
    · rw [hrow]; norm_num [farWorld, demoWorld, demoObjective]

end Verif.Props
