import Verif.Spec.Conditional
import Verif.Props.Node

/-!
# Properties C58 and C40: unconditional sub-spaces and the conditional optimiser
-/
namespace Verif.Props
open Verif.Model Verif.Spec Verif.Proofs

/-! ## C58 -/

private theorem mem_product {α : Type*} (ls : List (List α)) (xs : List α) :
    xs ∈ product ls ↔ List.Forall₂ (fun x l => x ∈ l) xs ls := by
  induction ls generalizing xs with
  | nil => simp [product]
  | cons l ls ih =>
    simp only [product, List.mem_flatMap, List.mem_map]
    constructor
    · rintro ⟨x, hx, ys, hys, rfl⟩
      exact .cons hx ((ih ys).1 hys)
    · intro h
      cases h with
      | cons h1 h2 => exact ⟨_, h1, _, (ih _).2 h2, rfl⟩

private theorem foldl_dictSet {K V : Type*} [DecidableEq K] (l d : List (K × V)) (k : K) :
    (∀ v, dictGet (l.foldl (fun d kv => dictSet d kv.1 kv.2) d) k = some v → (k, v) ∈ l ∨ dictGet d k = some v) ∧
    ((∃ v, (k, v) ∈ l) → ∃ v, dictGet (l.foldl (fun d kv => dictSet d kv.1 kv.2) d) k = some v) ∧
    (dictGet d k ≠ none → ∃ v, dictGet (l.foldl (fun d kv => dictSet d kv.1 kv.2) d) k = some v) := by
  induction l generalizing d with
  | nil =>
    refine ⟨fun v h => Or.inr h, by simp, fun h => Option.ne_none_iff_exists'.1 h⟩
  | cons x l ih =>
    obtain ⟨h1, h2, h3⟩ := ih (dictSet d x.1 x.2)
    refine ⟨?_, ?_, ?_⟩
    · intro v hv
      rcases h1 v hv with h | h
      · exact Or.inl (List.mem_cons_of_mem _ h)
      · rw [dictGet_set] at h
        split_ifs at h with hk
        · cases h
          left
          rw [← hk]
          exact List.mem_cons_self
        · exact Or.inr h
    · rintro ⟨v, hv⟩
      rw [List.mem_cons] at hv
      rcases hv with hv | hv
      · apply h3
        rw [dictGet_set, if_pos (by rw [← hv])]
        simp
      · exact h2 ⟨v, hv⟩
    · intro hd
      apply h3
      rw [dictGet_set]
      split_ifs
      · simp
      · exact hd

private theorem mapM_mem {α β : Type*} (f : α → Option β) (l : List α) (r : List β) (h : l.mapM f = some r) (y : β) :
    y ∈ r ↔ ∃ x ∈ l, f x = some y := by
  induction l generalizing r with
  | nil =>
    simp only [List.mapM_nil] at h
    cases h
    simp
  | cons a l ih =>
    rw [List.mapM_cons] at h
    simp only [Option.bind_eq_bind, Option.bind_eq_some_iff] at h
    obtain ⟨b, hb, bs, hbs, he⟩ := h
    cases he
    simp only [List.mem_cons, ih bs hbs, exists_eq_or_imp, hb]
    constructor
    · rintro (rfl | h)
      · exact Or.inl rfl
      · exact Or.inr h
    · rintro (h | h)
      · exact Or.inl (Option.some.inj h).symm
      · exact Or.inr h

private theorem mapM_total {α β : Type*} (f : α → Option β) (l : List α) (h : ∀ x ∈ l, (f x).isSome) :
    ∃ r, l.mapM f = some r := by
  induction l with
  | nil => exact ⟨[], rfl⟩
  | cons a l ih =>
    obtain ⟨r, hr⟩ := ih (fun x hx => h x (List.mem_cons_of_mem _ hx))
    obtain ⟨b, hb⟩ := Option.isSome_iff_exists.1 (h a List.mem_cons_self)
    exact ⟨b :: r, by rw [List.mapM_cons, hb, hr]; rfl⟩

private theorem mem_pathItems (ord : List String → List String) (hord : SetOrder ord) (t : Node) (ht : t.children ≠ [])
    (x : List String × Option (List String)) :
    x ∈ pathItems ord t ↔ leavesAt t x.1 ≠ [] ∧ x.2 = some (leavesAt t x.1) := by
  unfold pathItems
  rw [if_neg (by simpa using ht), List.mem_map]
  have hp := fun k => c25_paths ord hord t ht k
  constructor
  · rintro ⟨⟨k, v⟩, hkv, rfl⟩
    have := dictGet_of_mem (hp k).1 hkv
    rw [(hp k).2] at this
    split_ifs at this with hk
    exact ⟨hk, this.symm⟩
  · rintro ⟨h1, h2⟩
    refine ⟨(x.1, leavesAt t x.1), dictGet_mem ?_, ?_⟩
    · rw [(hp x.1).2, if_neg h1]
    · rw [← h2]

private theorem joinChoice_eq (ord : List String → List String) (hord : SetOrder ord) (trees : List Node)
    (ht : ∀ t ∈ trees, t.children ≠ []) (c : List (List String × Option (List String)))
    (hc : c ∈ product (trees.map (pathItems ord))) :
    ∃ ks, List.Forall₂ (fun k t => leavesAt t k ≠ []) ks trees ∧
      joinChoice c = some (ks.flatten, (List.zipWith leavesAt trees ks).flatten) := by
  rw [mem_product] at hc
  have key : ∀ (ts : List Node) (c : List (List String × Option (List String))), (∀ t ∈ ts, t.children ≠ []) →
      List.Forall₂ (fun x l => x ∈ l) c (ts.map (pathItems ord)) →
      List.Forall₂ (fun k t => leavesAt t k ≠ []) (c.map Prod.fst) ts ∧
        c.mapM Prod.snd = some (List.zipWith leavesAt ts (c.map Prod.fst)) := by
    intro ts
    induction ts with
    | nil =>
      intro c _ h
      cases h
      exact ⟨.nil, rfl⟩
    | cons t ts ih =>
      intro c ht h
      cases h with
      | cons h1 h2 =>
        obtain ⟨i1, i2⟩ := ih _ (fun t h => ht t (List.mem_cons_of_mem _ h)) h2
        obtain ⟨j1, j2⟩ := (mem_pathItems ord hord t (ht t List.mem_cons_self) _).1 h1
        refine ⟨.cons j1 i1, ?_⟩
        rw [List.mapM_cons, j2, i2]
        rfl
  obtain ⟨h1, h2⟩ := key trees c ht hc
  refine ⟨c.map Prod.fst, h1, ?_⟩
  unfold joinChoice
  rw [h2]
  rfl

/-- C58, partial: when every condition tree has an edge, `get_unconditional_subspace` succeeds.  It has an entry
for a sequence of conditions iff that sequence joins one root-to-leaf path per tree, and its variables are the
unconditional ones followed by the leaves at the end of such paths.  In particular no variable appears whose
conditions are not all assumed (`c58_only_active`).  Missing: active variables on shorter paths are left out
(`c58_active_variable_missing`), and a tree reduced to its root makes the call raise (`c58_bare_root_raises`). -/
theorem c58_subspaces_partial (ord : List String → List String) (hord : SetOrder ord) (varName : List String)
    (trees : List Node) (ht : ∀ t ∈ trees, t.children ≠ []) :
    ∃ out, unconditionalSubspaces ord varName trees = some out ∧
      (∀ cond, (∃ vars, (cond, vars) ∈ out) ↔
        ∃ ks, List.Forall₂ (fun k t => leavesAt t k ≠ []) ks trees ∧ ks.flatten = cond) ∧
      ∀ cond vars, (cond, vars) ∈ out → ∃ isolated ks, isolated.Nodup ∧
        (∀ v, v ∈ isolated ↔ v ∈ varName ∧ ∀ t ∈ trees, v ∉ t.getAllName) ∧
        List.Forall₂ (fun k t => leavesAt t k ≠ []) ks trees ∧ ks.flatten = cond ∧
        vars = isolated ++ (List.zipWith leavesAt trees ks).flatten := by
  obtain ⟨l, hl⟩ := mapM_total joinChoice (product (trees.map (pathItems ord))) (fun c hc => by
    obtain ⟨ks, _, h⟩ := joinChoice_eq ord hord trees ht c hc
    rw [h]
    rfl)
  have hmem := mapM_mem joinChoice _ l hl
  have hd : conditionDict ord trees = some (dictUpdate [] l) := by
    unfold conditionDict
    rw [hl]
    rfl
  have hnd : ((dictUpdate [] l).map Prod.fst).Nodup := nodup_update (d := ([] : List (List String × List String))) (by simp [keys])
  have hkey : ∀ cond v, (cond, v) ∈ dictUpdate [] l →
      ∃ ks, List.Forall₂ (fun k t => leavesAt t k ≠ []) ks trees ∧ ks.flatten = cond ∧
        v = (List.zipWith leavesAt trees ks).flatten := by
    intro cond v h
    have hg := dictGet_of_mem hnd h
    rcases (foldl_dictSet l [] cond).1 v hg with h | h
    · obtain ⟨c, hc, hj⟩ := (hmem _).1 h
      obtain ⟨ks, h1, h2⟩ := joinChoice_eq ord hord trees ht c hc
      rw [h2] at hj
      cases hj
      exact ⟨ks, h1, rfl, rfl⟩
    · simp [dictGet] at h
  refine ⟨_, by unfold unconditionalSubspaces; rw [hd]; rfl, ?_, ?_⟩
  · intro cond
    constructor
    · rintro ⟨vars, hv⟩
      rw [List.mem_map] at hv
      obtain ⟨⟨k, v⟩, hkv, he⟩ := hv
      cases he
      obtain ⟨ks, h1, h2, _⟩ := hkey _ v hkv
      exact ⟨ks, h1, h2⟩
    · rintro ⟨ks, h1, rfl⟩
      have hc : List.zipWith (fun t k => (k, some (leavesAt t k))) trees ks ∈ product (trees.map (pathItems ord)) := by
        rw [mem_product]
        clear hl hmem hd hnd hkey
        induction h1 with
        | nil => exact .nil
        | cons h _ ih =>
          refine .cons ?_ (ih (fun t h => ht t (List.mem_cons_of_mem _ h)))
          exact (mem_pathItems ord hord _ (ht _ List.mem_cons_self) _).2 ⟨h, rfl⟩
      have hj : joinChoice (List.zipWith (fun t k => (k, some (leavesAt t k))) trees ks) =
          some (ks.flatten, (List.zipWith leavesAt trees ks).flatten) := by
        have : ∀ (ts : List Node) (ks : List (List String)), ks.length = ts.length →
            (List.zipWith (fun t k => (k, some (leavesAt t k))) ts ks).mapM Prod.snd =
              some (List.zipWith leavesAt ts ks) ∧
            (List.zipWith (fun t k => (k, some (leavesAt t k))) ts ks).map Prod.fst = ks := by
          intro ts
          induction ts with
          | nil =>
            intro ks h
            rw [List.length_nil, List.length_eq_zero_iff] at h
            subst h
            exact ⟨rfl, rfl⟩
          | cons t ts ih =>
            intro ks h
            cases ks with
            | nil => simp at h
            | cons k ks =>
              obtain ⟨i1, i2⟩ := ih ks (by simpa using h)
              refine ⟨?_, ?_⟩
              · rw [List.zipWith_cons_cons, List.mapM_cons, i1]
                rfl
              · rw [List.zipWith_cons_cons, List.map_cons, i2]
        obtain ⟨j1, j2⟩ := this trees ks h1.length_eq
        unfold joinChoice
        rw [j1, j2]
        rfl
      obtain ⟨v, hv⟩ := (foldl_dictSet l [] ks.flatten).2.1 ⟨_, (hmem _).2 ⟨_, hc, hj⟩⟩
      exact ⟨_, List.mem_map.2 ⟨_, dictGet_mem hv, rfl⟩⟩
  · intro cond vars hv
    rw [List.mem_map] at hv
    obtain ⟨⟨k, v⟩, hkv, he⟩ := hv
    cases he
    obtain ⟨ks, h1, h2, h3⟩ := hkey _ v hkv
    refine ⟨_, ks, (hord _).1, ?_, h1, h2, by rw [h3]⟩
    intro v
    rw [(hord _).2, List.mem_filter]
    simp [List.mem_flatMap]

/-- C58: every conditional variable of a sub-space is a leaf of a tree all of whose conditions are assumed. -/
theorem c58_only_active (ord : List String → List String) (hord : SetOrder ord) (varName : List String)
    (trees : List Node) (ht : ∀ t ∈ trees, t.children ≠ []) (out : List (List String × List String))
    (hout : unconditionalSubspaces ord varName trees = some out) (cond vars : List String)
    (h : (cond, vars) ∈ out) (v : String) (hv : v ∈ vars) :
    (v ∈ varName ∧ ∀ t ∈ trees, v ∉ t.getAllName) ∨
      ∃ t ∈ trees, ∃ k, (k, v) ∈ leaves t ∧ ∀ c ∈ k, c ∈ cond := by
  obtain ⟨out', ho, h2, h3⟩ := c58_subspaces_partial ord hord varName trees ht
  rw [hout] at ho
  cases ho
  obtain ⟨iso, ks, _, hiso, hks, hc, rfl⟩ := h3 cond vars h
  rw [List.mem_append] at hv
  rcases hv with hv | hv
  · exact Or.inl ((hiso v).1 hv)
  · right
    subst hc
    clear hout h h3 hiso ht h2
    induction hks with
    | nil => simp at hv
    | @cons k t ks ts _ _ ih =>
      rw [List.zipWith_cons_cons, List.flatten_cons, List.mem_append] at hv
      rcases hv with hv | hv
      · refine ⟨t, List.mem_cons_self, k, ?_, ?_⟩
        · unfold leavesAt at hv
          rw [List.mem_map] at hv
          obtain ⟨l, hl, rfl⟩ := hv
          rw [List.mem_filter] at hl
          have := of_decide_eq_true hl.2
          rw [← this]
          exact hl.1
        · intro c hc
          rw [List.flatten_cons, List.mem_append]
          exact Or.inl hc
      · obtain ⟨t', ht', k', h1, h2⟩ := ih hv
        refine ⟨t', List.mem_cons_of_mem _ ht', k', h1, ?_⟩
        intro c hc
        rw [List.flatten_cons, List.mem_append]
        exact Or.inr (h2 c hc)

/-- C58 is false in general: when `a==1` and `b==3`, the variable `x` (whose only condition is `a==1`) is active,
but the sub-space for these conditions holds `z` only. -/
theorem c58_active_variable_missing :
    (["a==1"], "x") ∈ leaves exTree ∧
    (unconditionalSubspaces List.dedup ["a", "b", "x", "y", "z"] [exTree]).map
      (fun out => dictGet out ["a==1", "b==3"]) = some (some ["z"]) := by
  constructor <;> decide

/-- C58 is false for a tree reduced to its root, as `filter` leaves behind: the call raises. -/
theorem c58_bare_root_raises (ord : List String → List String) (varName : List String) (n : String) :
    unconditionalSubspaces ord varName [.mk n []] = none := by
  simp [unconditionalSubspaces, conditionDict, pathItems, product, joinChoice, Node.children]

example : ∀ t ∈ [exTree, Node.mk "c" [("c==0", .mk "w" [])]], t.children ≠ [] := by
  intro t ht
  simp only [List.mem_cons, List.not_mem_nil, or_false] at ht
  rcases ht with rfl | rfl <;> simp [exTree, Node.children]

/-! ## C40 -/

private theorem tell_choice (s : CondBO) (xs : List Point) (ys : List ℚ) :
    ((s.tell xs ys).getD s).nSub = s.nSub ∧ ((s.tell xs ys).getD s).nextInit = s.nextInit := by
  have key : ∀ (l : List (ℕ × Point × ℚ)) (s s' : CondBO), l.foldlM (fun (s : CondBO) kxy =>
      (subPoint (s.fixedVars.getD kxy.1 []) kxy.2.1).map
        (fun x => { s with told := s.told ++ [(kxy.1, x, kxy.2.2)] })) s = some s' →
      s'.nSub = s.nSub ∧ s'.nextInit = s.nextInit := by
    intro l
    induction l with
    | nil => intro s s' h; cases h; exact ⟨rfl, rfl⟩
    | cons a l ih =>
      intro s s' h
      rw [List.foldlM_cons] at h
      cases hp : subPoint (s.fixedVars.getD a.1 []) a.2.1 with
      | none => rw [hp] at h; simp at h
      | some x =>
        rw [hp] at h
        exact ih { s with told := s.told ++ [(a.1, x, a.2.2)] } s' h
  unfold CondBO.tell
  split_ifs
  · exact ⟨rfl, rfl⟩
  · cases h : (s.boIdx.zip (xs.zip ys)).foldlM (fun (s : CondBO) kxy =>
      (subPoint (s.fixedVars.getD kxy.1 []) kxy.2.1).map
        (fun x => { s with told := s.told ++ [(kxy.1, x, kxy.2.2)] })) s with
    | none => exact ⟨rfl, rfl⟩
    | some s' => exact key _ s s' h

private theorem used_spec (ord : List String → List String) (cs : List CondCall) :
    ∀ s : CondBO, s.nextInit ≤ s.nSub → (∀ c ∈ cs, c.ok s.nSub) →
      (subspacesUsed ord s cs).length = (cs.map CondCall.points).sum ∧
      (∀ k ∈ subspacesUsed ord s cs, k < s.nSub) ∧
      (subspacesUsed ord s cs).take (s.nSub - s.nextInit) =
        (List.range (min (s.nSub - s.nextInit) (cs.map CondCall.points).sum)).map (fun i => s.nextInit + i) := by
  induction cs with
  | nil => intro s _ _; simp [subspacesUsed]
  | cons c cs ih =>
    intro s hs hok
    have hrest := fun c' h => hok c' (List.mem_cons_of_mem _ h)
    cases c with
    | tell xs ys =>
      obtain ⟨t1, t2⟩ := tell_choice s xs ys
      have := ih ((s.tell xs ys).getD s) (by rw [t1, t2]; exact hs) (by rw [t1]; exact hrest)
      rw [t1, t2] at this
      simpa [subspacesUsed, CondCall.points] using this
    | ask n pick sub =>
      obtain ⟨hp1, hp2⟩ : n ≤ pick.length ∧ ∀ k ∈ pick, k < s.nSub := hok _ List.mem_cons_self
      obtain ⟨i1, i2, i3⟩ := ih (s.ask ord n pick sub).1 (Nat.min_le_left _ _) hrest
      have hnext : (s.ask ord n pick sub).1.nextInit = min s.nSub (s.nextInit + n) := rfl
      have hn : (s.ask ord n pick sub).1.nSub = s.nSub := rfl
      rw [hn] at i2
      rw [hn, hnext] at i3
      have hidx : (s.ask ord n pick sub).1.boIdx =
          (List.range (min n (s.nSub - s.nextInit))).map (fun i => s.nextInit + i) ++
            pick.take (n - min n (s.nSub - s.nextInit)) := by
        show s.choose n pick = _
        unfold CondBO.choose
        rw [← List.map_take, List.take_range]
        simp
      have hlen : (s.ask ord n pick sub).1.boIdx.length = n := by
        rw [hidx]
        simp
        omega
      simp only [subspacesUsed, List.map_cons, List.sum_cons, CondCall.points]
      refine ⟨by rw [List.length_append, hlen, i1], ?_, ?_⟩
      · intro k hk
        rw [List.mem_append] at hk
        rcases hk with hk | hk
        · rw [hidx, List.mem_append] at hk
          rcases hk with hk | hk
          · rw [List.mem_map] at hk
            obtain ⟨i, hi, rfl⟩ := hk
            rw [List.mem_range] at hi
            omega
          · exact hp2 k (List.mem_of_mem_take hk)
        · exact i2 k hk
      · rw [List.take_append, hlen]
        by_cases hcase : s.nextInit + n ≤ s.nSub
        · have h1 : min s.nSub (s.nextInit + n) = s.nextInit + n := by omega
          have h2 : min n (s.nSub - s.nextInit) = n := by omega
          rw [h1] at i3
          rw [hidx, h2, show s.nSub - s.nextInit - n = s.nSub - (s.nextInit + n) by omega, i3]
          have h3 : min (s.nSub - s.nextInit) (n + (cs.map CondCall.points).sum) =
              n + min (s.nSub - (s.nextInit + n)) (cs.map CondCall.points).sum := by omega
          rw [h3, List.range_add, List.map_append, List.map_map]
          congr 1
          · rw [Nat.sub_self, List.take_zero, List.append_nil, List.take_of_length_le (by simp; omega)]
          · apply List.map_congr_left
            intro i _
            simp
            omega
        · have h2 : min n (s.nSub - s.nextInit) = s.nSub - s.nextInit := by omega
          have h3 : min (s.nSub - s.nextInit) (n + (cs.map CondCall.points).sum) = s.nSub - s.nextInit := by omega
          rw [h3, hidx, h2, show s.nSub - s.nextInit - n = 0 by omega, List.take_zero, List.append_nil,
            List.take_append_of_le_length (by simp), List.take_of_length_le (by simp)]

/-- C40: in every history the first proposals come from sub-spaces `0, 1, 2, ...` in turn, until each sub-space has
been used once; every request is answered with as many points as asked, all from existing sub-spaces. -/
theorem c40_every_subspace_first (ord : List String → List String) (s : CondBO) (h0 : s.nextInit = 0)
    (cs : List CondCall) (hok : ∀ c ∈ cs, c.ok s.nSub) :
    let used := subspacesUsed ord s cs
    used.length = (cs.map CondCall.points).sum ∧ (∀ k ∈ used, k < s.nSub) ∧
      used.take s.nSub = List.range (min s.nSub used.length) := by
  obtain ⟨h1, h2, h3⟩ := used_spec ord cs s (by omega) hok
  refine ⟨h1, h2, ?_⟩
  rw [h0] at h3
  simp only [Nat.sub_zero, Nat.zero_add, List.map_id'] at h3
  rw [h3, h1]

private theorem dictGet_filter {K V : Type*} [DecidableEq K] (d : List (K × V)) (p : K × V → Bool) (hd : (keys d).Nodup)
    (k : K) : dictGet (d.filter p) k = (dictGet d k).filter (fun v => p (k, v)) := by
  induction d with
  | nil => simp [dictGet]
  | cons kv d ih =>
    obtain ⟨k', v'⟩ := kv
    simp only [keys, List.map_cons, List.nodup_cons] at hd
    have ih := ih hd.2
    rw [List.filter_cons]
    by_cases hk : k' = k
    · subst hk
      have hnone : dictGet d k' = none := dictGet_eq_none.2 hd.1
      split_ifs with hp
      · simp [dictGet, hp, Option.filter]
      · rw [ih, hnone]
        simp [dictGet, hp, Option.filter]
    · split_ifs with hp
      · simp only [dictGet, hk, if_false]
        exact ih
      · simp only [dictGet, hk, if_false]
        exact ih

/-- C40: `ask` returns complete points: every variable of the space gets the value fixed by the conditions of its
sub-space, else the value proposed by the sub-optimiser, else `None`; no other value is changed. -/
theorem c40_complete_points (ord : List String → List String) (hord : SetOrder ord) (s : CondBO) (k : ℕ) (p : Point)
    (hf : ((s.fixedVars.getD k []).map Prod.fst).Nodup) (v : String) (hv : v ∈ s.varNames) :
    dictGet (s.complete ord k p) v =
      some (((dictGet (s.fixedVars.getD k []) v).or (dictGet p v)).getD none) := by
  have hx : ∀ w, dictGet (dictUpdate p (s.fixedVars.getD k [])) w =
      (dictGet (s.fixedVars.getD k []) w).or (dictGet p w) := fun w => dictGet_update _ _ hf w
  unfold CondBO.complete
  simp only
  have hkeys : keys ((ord (s.varNames.filter (fun v =>
      !((dictUpdate p (s.fixedVars.getD k [])).map Prod.fst).contains v))).map (fun v => (v, (none : PointVal)))) =
      ord (s.varNames.filter (fun v => !((dictUpdate p (s.fixedVars.getD k [])).map Prod.fst).contains v)) := by
    unfold keys
    rw [List.map_map]
    exact List.map_id _
  rw [dictGet_update _ _ (by rw [hkeys]; exact (hord _).1), hx]
  cases hc : (dictGet (s.fixedVars.getD k []) v).or (dictGet p v) with
  | none =>
    have hmem : (v, (none : PointVal)) ∈ (ord (s.varNames.filter (fun v =>
        !((dictUpdate p (s.fixedVars.getD k [])).map Prod.fst).contains v))).map (fun v => (v, (none : PointVal))) := by
      rw [List.mem_map]
      refine ⟨v, ?_, rfl⟩
      rw [(hord _).2, List.mem_filter]
      refine ⟨hv, ?_⟩
      have := dictGet_eq_none.1 ((hx v).trans hc)
      simpa [keys] using this
    rw [dictGet_of_mem (by rw [hkeys]; exact (hord _).1) hmem]
    rfl
  | some w =>
    have hnot : dictGet ((ord (s.varNames.filter (fun v =>
        !((dictUpdate p (s.fixedVars.getD k [])).map Prod.fst).contains v))).map (fun v => (v, (none : PointVal)))) v =
        none := by
      rw [dictGet_eq_none, hkeys, (hord _).2, List.mem_filter]
      rintro ⟨_, h⟩
      have hne : dictGet (dictUpdate p (s.fixedVars.getD k [])) v ≠ none := by
        rw [hx, hc]; simp
      apply hne
      rw [dictGet_eq_none]
      simpa [keys] using h
    rw [hnot]
    rfl

private theorem subPoint_spec (fixed : Point) (hf : (keys fixed).Nodup) :
    ∀ x : Point, (keys x).Nodup → (∀ k ∈ keys fixed, k ∈ keys x) →
      ∃ y, fixed.foldlM (fun (x : Point) kv => if (x.map Prod.fst).contains kv.1 then
          some (x.filter (fun e => e.1 ≠ kv.1)) else none) x = some y ∧ (keys y).Nodup ∧
        ∀ v, dictGet y v = if v ∈ keys fixed then none else dictGet x v := by
  induction fixed with
  | nil =>
    intro x hx _
    exact ⟨x, rfl, hx, by simp [keys]⟩
  | cons kv fixed ih =>
    intro x hx hin
    simp only [keys, List.map_cons, List.nodup_cons] at hf
    have hmem : (x.map Prod.fst).contains kv.1 = true := by
      have := hin kv.1 (by simp [keys])
      simpa [keys] using this
    have hnd : (keys (x.filter (fun e => e.1 ≠ kv.1))).Nodup :=
      hx.sublist (List.filter_sublist.map _)
    obtain ⟨y, h1, h2, h3⟩ := ih hf.2 (x.filter (fun e => e.1 ≠ kv.1)) hnd (by
      intro k hk
      have hne : k ≠ kv.1 := by rintro rfl; exact hf.1 hk
      have := hin k (by simp only [keys, List.map_cons, List.mem_cons]; exact Or.inr hk)
      simp only [keys, List.mem_map] at this ⊢
      obtain ⟨e, he, rfl⟩ := this
      exact ⟨e, List.mem_filter.2 ⟨he, by simpa using hne⟩, rfl⟩)
    refine ⟨y, ?_, h2, ?_⟩
    · rw [List.foldlM_cons]
      simp only [hmem, if_true]
      exact h1
    · intro v
      rw [h3, dictGet_filter _ _ hx]
      by_cases hv : v = kv.1
      · subst hv
        have hmk : kv.1 ∈ keys (kv :: fixed) := by simp [keys]
        rw [if_pos hmk, if_neg hf.1]
        cases dictGet x kv.1 <;> simp
      · have : v ∈ keys (kv :: fixed) ↔ v ∈ keys fixed := by simp [keys, hv]
        simp only [this]
        congr 1
        cases dictGet x v <;> simp [hv]

/-- C40, partial: what `tell` passes to the sub-optimiser is the value of every variable that is not fixed by the
conditions and not `None`, if all these values and all fixed values are truthy.  Missing: values such as 0, `False`
or the empty string, see `c40_zero_dropped` and `c40_zero_condition_raises`. -/
theorem c40_tell_point_partial (fixed x : Point) (hx : (x.map Prod.fst).Nodup) (hf : (fixed.map Prod.fst).Nodup)
    (htrue : ∀ kv ∈ x, kv.2 ≠ none → truthy kv.2 = true)
    (hfix : ∀ kv ∈ fixed, ∃ w : Base, dictGet x kv.1 = some (some w)) :
    ∃ y, subPoint fixed x = some y ∧ ∀ v (w : Base), dictGet y v = some (some w) ↔
      dictGet x v = some (some w) ∧ v ∉ fixed.map Prod.fst := by
  have hnd : (keys (x.filter (fun e => truthy e.2))).Nodup := hx.sublist (List.filter_sublist.map _)
  have hg : ∀ v, dictGet (x.filter (fun e => truthy e.2)) v = (dictGet x v).filter (fun w => truthy w) :=
    fun v => dictGet_filter x _ hx v
  obtain ⟨y, h1, _, h3⟩ := subPoint_spec fixed hf (x.filter (fun e => truthy e.2)) hnd (by
    intro k hk
    simp only [keys, List.mem_map] at hk
    obtain ⟨e, he, rfl⟩ := hk
    obtain ⟨w, hw⟩ := hfix e he
    by_contra hne
    have := dictGet_eq_none.2 hne
    rw [hg, hw] at this
    have ht := htrue _ (dictGet_mem hw) (by simp)
    simp [ht] at this)
  refine ⟨y, h1, ?_⟩
  intro v w
  rw [h3, hg]
  by_cases hv : v ∈ keys fixed
  · rw [if_pos hv]
    simp only [keys] at hv
    simp [hv]
  · rw [if_neg hv]
    simp only [keys] at hv
    constructor
    · intro h
      rw [Option.filter_eq_some_iff] at h
      exact ⟨h.1, hv⟩
    · rintro ⟨h, _⟩
      rw [h]
      have ht := htrue _ (dictGet_mem h) (by simp)
      simp [ht]

/-- C40 is false for the value 0: the sub-optimiser never receives it. -/
theorem c40_zero_dropped (v : String) (fixed x : Point) (hx : (x.map Prod.fst).Nodup)
    (h0 : dictGet x v = some (some (.int 0))) (y : Point) (hy : subPoint fixed x = some y) : dictGet y v = none := by
  have hsub : ∀ (fixed x y : Point), v ∉ keys x → fixed.foldlM (fun (x : Point) kv =>
      if (x.map Prod.fst).contains kv.1 then some (x.filter (fun e => e.1 ≠ kv.1)) else none) x = some y →
      v ∉ keys y := by
    intro fixed
    induction fixed with
    | nil => intro x y h1 h2; cases h2; exact h1
    | cons kv fixed ih =>
      intro x y h1 h2
      rw [List.foldlM_cons] at h2
      split_ifs at h2
      · refine ih _ y ?_ h2
        intro hm
        simp only [keys, List.mem_map, List.mem_filter] at hm h1
        obtain ⟨e, ⟨he, _⟩, rfl⟩ := hm
        exact h1 ⟨e, he, rfl⟩
      · simp at h2
  rw [dictGet_eq_none]
  refine hsub fixed _ y ?_ hy
  rw [← dictGet_eq_none, dictGet_filter x _ hx, h0]
  rfl

/-- C40 is false for conditions such as `a == 0`: telling the very point that `ask` proposed raises. -/
theorem c40_zero_condition_raises :
    let s : CondBO := { nSub := 1, varNames := ["a", "x"], fixedVars := [[("a", some (.int 0))]] }
    let r := s.ask List.dedup 1 [0] (fun _ _ => [("x", some (.int 5))])
    (r.1.tell r.2 [0]).isNone = true := by
  decide

/-- Non-vacuity: two sub-spaces, four points in two batches. -/
example : (∀ c ∈ [CondCall.ask 3 [0, 1, 1] (fun _ _ => []), .tell [] [], .ask 1 [1] (fun _ _ => [])],
    c.ok 2) ∧ subspacesUsed List.dedup { nSub := 2, varNames := ["x"], fixedVars := [[], []] }
      [CondCall.ask 3 [0, 1, 1] (fun _ _ => []), .tell [] [], .ask 1 [1] (fun _ _ => [])] = [0, 1, 0, 1] := by
  refine ⟨?_, by decide⟩
  intro c hc
  simp only [List.mem_cons, List.not_mem_nil, or_false] at hc
  rcases hc with rfl | rfl | rfl <;> simp [CondCall.ok]

example : let x : Point := [("a", some (.int 1)), ("x", some (.int 5)), ("y", none)]
    (x.map Prod.fst).Nodup ∧ (∀ kv ∈ x, kv.2 ≠ none → truthy kv.2 = true) ∧
      ∀ kv ∈ [("a", some (Base.int 1))], ∃ w : Base, dictGet x kv.1 = some (some w) := by
  refine ⟨by decide, by decide, ?_⟩
  intro kv h
  rw [List.mem_singleton] at h
  subst h
  exact ⟨.int 1, rfl⟩

end Verif.Props
