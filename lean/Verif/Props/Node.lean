import Mathlib.Data.List.Dedup
import Verif.Proofs.Node

/-!
# Properties C24, C25, C57: condition trees
-/
namespace Verif.Props
open Verif.Model Verif.Spec Verif.Proofs

/-- The example tree: `a` with children `b` (when `a==1`), `x` (when `a==1`), `y` (when `a==2`); `b` has the
child `z` (when `b==3`). -/
def exTree : Node :=
  .mk "a" [("a==1", .mk "b" [("b==3", .mk "z" [])]), ("a==1", .mk "x" []), ("a==2", .mk "y" [])]

/-! ## C24 -/

/-- C24, partial: `remove(names, invert=True)` returns `None` if the root is not listed, and otherwise the tree of
exactly those nodes that are listed together with all their ancestors, in the same order and with the same
conditions.  Missing: `invert=False` and `deepcopy`, where the property is false. -/
theorem c24_remove_keep_partial (names : List String) (t : Node) :
    (t.name ∉ names → t.remove names true = none) ∧
    (t.name ∈ names → ∃ t', t.remove names true = some t' ∧ t'.name = t.name ∧
      addresses t' = (addresses t).filter (fun a => a.all (fun e => names.contains e.2))) := by
  constructor
  · intro h
    cases t with
    | mk n cs =>
      simp only [Node.name] at h
      simp [Node.remove, dropTest, h]
  · intro h
    have : t.remove names true ≠ none := by
      cases t with
      | mk n cs =>
        simp only [Node.name] at h
        simp [Node.remove, dropTest, h]
    obtain ⟨t', ht'⟩ := Option.ne_none_iff_exists'.1 this
    exact ⟨t', ht', remove_name ht', addresses_remove names t t' ht'⟩

/-- C24 is false for `invert=False`: whatever the names, the result is `None`. -/
theorem c24_remove_drop_always_none (names : List String) (t : Node) : t.remove names false = none := by
  cases t with
  | mk n cs => simp [Node.remove, dropTest]

/-- C24 is false for `deepcopy`: it returns `None` for every tree. -/
theorem c24_deepcopy_none (t : Node) : t.deepcopy = none := c24_remove_drop_always_none [] t

/-- Non-vacuity: keeping `a`, `b`, `y` and `z` drops only `x`. -/
example : exTree.name ∈ ["a", "b", "y", "z"] ∧
    (addresses exTree).filter (fun a => a.all (fun e => ["a", "b", "y", "z"].contains e.2)) =
      [[], [("a==1", "b")], [("a==1", "b"), ("b==3", "z")], [("a==2", "y")]] := by
  constructor
  · simp [exTree, Node.name]
  · decide

/-! ## C25 -/

/-- C25: whatever the iteration order of sets, for a tree with at least one edge `get_all_path()` is a dictionary
whose entry at a sequence of conditions is the list of the leaves reached through exactly these conditions,
in pre-order, and which has no entry for sequences leading to no leaf. -/
theorem c25_paths (ord : List String → List String) (hord : SetOrder ord) (t : Node) (ht : t.children ≠ [])
    (k : List String) :
    ((t.getAllPath ord).map Prod.fst).Nodup ∧
    dictGet (t.getAllPath ord) k = if leavesAt t k = [] then none else some (leavesAt t k) := by
  obtain ⟨h1, h2⟩ := getAllPath_spec ord hord t
  refine ⟨h1.1, ?_⟩
  rw [goodDict_get h1 k, h2 ht k]

mutual
/-- The leaves are the ends of the addresses. -/
private theorem leaf_address : (t : Node) → ∀ l ∈ leaves t, ∃ a ∈ addresses t,
    a.map Prod.fst = l.1 ∧ (a.map Prod.snd).getLast?.getD t.name = l.2
  | .mk n [] => by simp [leaves, addresses, addressesList, Node.name]
  | .mk n (c :: cs) => by
    intro l hl
    simp only [leaves] at hl
    obtain ⟨a, ha, h1, h2⟩ := leafList_address (c :: cs) l hl
    refine ⟨a, by simp [addresses, ha], h1, ?_⟩
    rw [h2]
    rfl
private theorem leafList_address : (cs : List (String × Node)) → ∀ l ∈ leavesList cs, ∃ a ∈ addressesList cs,
    a.map Prod.fst = l.1 ∧ (a.map Prod.snd).getLast? = some l.2
  | [] => by simp [leavesList]
  | (b, c) :: cs => by
    intro l hl
    simp only [leavesList, List.mem_append, List.mem_map] at hl
    rcases hl with ⟨l', hl', rfl⟩ | hl
    · obtain ⟨a, ha, h1, h2⟩ := leaf_address c l' hl'
      refine ⟨(b, c.name) :: a, ?_, by simp [h1], ?_⟩
      · simp only [addressesList, List.mem_append, List.mem_map]
        exact Or.inl ⟨a, ha, rfl⟩
      · rw [List.map_cons, List.getLast?_cons, h2]
    · obtain ⟨a, ha, h1, h2⟩ := leafList_address cs l hl
      exact ⟨a, by simp [addressesList, ha], h1, h2⟩
end

/-- C25: every path reported for a name is the condition sequence of a chain of edges from the root ending in a
node of that name. -/
theorem c25_path_is_chain (ord : List String → List String) (hord : SetOrder ord) (t : Node)
    (ht : t.children ≠ []) (k : List String) (vs : List String) (h : dictGet (t.getAllPath ord) k = some vs)
    (v : String) (hv : v ∈ vs) :
    ∃ a ∈ addresses t, a.map Prod.fst = k ∧ (a.map Prod.snd).getLast?.getD t.name = v := by
  rw [(c25_paths ord hord t ht k).2] at h
  split_ifs at h
  cases h
  unfold leavesAt at hv
  rw [List.mem_map] at hv
  obtain ⟨l, hl, rfl⟩ := hv
  rw [List.mem_filter] at hl
  obtain ⟨a, ha, h1, h2⟩ := leaf_address t l hl.1
  refine ⟨a, ha, ?_, h2⟩
  rw [h1]
  simpa using hl.2

mutual
private theorem names_pre : (t : Node) → t.getAllName =
    t.name :: (addresses t).tail.map (fun a => (a.getLast?.map Prod.snd).getD "")
  | .mk n cs => by
    simp only [Node.getAllName, addresses, List.tail_cons, Node.name, namesList_pre cs]
private theorem namesList_pre : (cs : List (String × Node)) → getAllNameList cs =
    (addressesList cs).map (fun a => (a.getLast?.map Prod.snd).getD "")
  | [] => by simp [getAllNameList, addressesList]
  | (b, c) :: cs => by
    have h := names_pre c
    simp only [getAllNameList, addressesList, List.map_append, namesList_pre cs]
    congr 1
    rw [h]
    have : addresses c = [] :: (addresses c).tail := by
      cases c with
      | mk n ds => simp [addresses]
    rw [this]
    simp only [List.map_cons, List.tail_cons, List.map_map, List.getLast?_singleton, Option.map_some,
      Option.getD_some, List.cons.injEq, true_and]
    apply List.map_congr_left
    intro a ha
    have hne : a ≠ [] := by
      rintro rfl
      have hall : ∀ cs : List (String × Node), [] ∉ addressesList cs := by
        intro cs
        induction cs with
        | nil => simp [addressesList]
        | cons bc cs ih => obtain ⟨b, c⟩ := bc; simp [addressesList, ih]
      cases c with
      | mk n ds => simp only [addresses, List.tail_cons] at ha; exact hall ds ha
    simp only [Function.comp]
    obtain ⟨x, hx⟩ := Option.ne_none_iff_exists'.1 (fun h => hne (List.getLast?_eq_none_iff.1 h))
    rw [List.getLast?_cons, hx]
    rfl
end

/-- C25: `get_all_name` lists the root and then the last name of every other address, in pre-order. -/
theorem c25_names (t : Node) : t.getAllName =
    t.name :: (addresses t).tail.map (fun a => (a.getLast?.map Prod.snd).getD "") := names_pre t

/-- C25, remark on the natural reading: internal nodes below the root are never reported, only leaves. -/
theorem c25_internal_nodes_unreported (ord : List String → List String) (hord : SetOrder ord) :
    ∀ kv ∈ exTree.getAllPath ord, "b" ∉ kv.2 := by
  rintro ⟨k, vs⟩ h hb
  have h1 := (c25_paths ord hord exTree (by simp [exTree, Node.children]) k)
  have h2 := dictGet_of_mem h1.1 h
  rw [h1.2] at h2
  split_ifs at h2
  cases h2
  simp only [leavesAt, List.mem_map, List.mem_filter] at hb
  obtain ⟨l, ⟨hl, _⟩, hlb⟩ := hb
  simp [exTree, leaves, leavesList] at hl
  rcases hl with rfl | rfl | rfl <;> simp at hlb

/-- Non-vacuity: first-occurrence order is a set order, and the example has three paths. -/
example : SetOrder List.dedup ∧ exTree.children ≠ [] ∧ leavesAt exTree ["a==1", "b==3"] = ["z"] ∧
    leavesAt exTree ["a==1"] = ["x"] := by
  refine ⟨fun l => ⟨List.nodup_dedup l, fun b => List.mem_dedup⟩, by simp [exTree, Node.children], ?_, ?_⟩ <;>
    simp [exTree, leavesAt, leaves, leavesList]

/-! ## C57 -/

/-- C57, partial: `Node.from_dict(t.to_dict())` is `[t]` for every tree with at least one edge and distinct names.
Missing: repeated names (`c57_shared_name_lost`). -/
theorem c57_round_trip_partial (t : Node) (ht : t.children ≠ []) (hnd : t.getAllName.Nodup) :
    ∃ depth, ∀ fuel, depth ≤ fuel → nodesFromDict t.toDict fuel = some [t] := by
  refine ⟨height t, fun fuel hf => ?_⟩
  have hkeys := toDict_keys t
  -- every key is the name of a sub-tree, which is what unfolding returns
  have hsub : ∀ k ∈ t.getAllName, ∃ s ∈ subtrees t, s.name = k := by
    intro k hk
    rw [← names_subtrees, List.mem_map] at hk
    exact hk
  have hunf : ∀ s ∈ subtrees t, unfoldTree t.toDict fuel s.name = some s := by
    have hall : ∀ (u : Node), height u ≤ fuel → (∀ s ∈ subtrees u, s ∈ subtrees t) →
        ∀ s ∈ subtrees u, unfoldTree t.toDict fuel s.name = some s := by
      intro u
      induction hk : sizeOf u using Nat.strongRecOn generalizing u with
      | _ k IH =>
        intro hh hin s hs
        obtain ⟨n, cs⟩ := u
        simp only [subtrees, List.mem_cons] at hs
        rcases hs with rfl | hs
        · exact unfold_spec t.toDict _ (fun s hs => toDict_spec t hnd s (hin s hs)) fuel hh
        · have hs' := hs
          rw [mem_subtreesList] at hs
          obtain ⟨⟨b, c⟩, hbc, hsc⟩ := hs
          have hsz : sizeOf c < sizeOf (Node.mk n cs) := by
            have h1 := List.sizeOf_lt_of_mem hbc
            simp only [Prod.mk.sizeOf_spec] at h1
            simp only [Node.mk.sizeOf_spec]
            omega
          have hch : height c ≤ heightList cs := by
            clear hs' hin hh IH hsz hk
            induction cs with
            | nil => simp at hbc
            | cons d cs ih =>
              obtain ⟨b', c'⟩ := d
              simp only [heightList]
              rw [List.mem_cons] at hbc
              rcases hbc with h | h
              · cases h
                exact Nat.le_max_left _ _
              · exact Nat.le_trans (ih h) (Nat.le_max_right _ _)
          simp only [height] at hh
          refine IH _ (hk ▸ hsz) c rfl (by omega) ?_ s hsc
          intro s' hs''
          apply hin
          simp only [subtrees, List.mem_cons]
          right
          rw [mem_subtreesList]
          exact ⟨(b, c), hbc, hs''⟩
    exact hall t hf (fun s hs => hs)
  -- child names are the names of all nodes except the root
  have hchild : ∀ s ∈ subtrees t, (s.name ∈ (t.toDict.flatMap (fun kv => kv.2.map Prod.fst)) ↔ s ≠ t) := by
    have hent : ∀ kv ∈ t.toDict, ∃ s ∈ subtrees t, s.name = kv.1 ∧ kv.2 = infos s.children := by
      rintro ⟨k, v⟩ hkv
      have hk := hkeys.2 k (List.mem_map_of_mem (f := Prod.fst) hkv)
      obtain ⟨s, hs, rfl⟩ := hsub k hk
      have h1 := dictGet_of_mem hkeys.1 hkv
      have h2 := toDict_spec t hnd s hs
      rw [h1] at h2
      exact ⟨s, hs, rfl, h2⟩
    have hinj : ∀ s ∈ subtrees t, ∀ s' ∈ subtrees t, s.name = s'.name → s = s' := by
      have : ((subtrees t).map Node.name).Nodup := by rw [names_subtrees]; exact hnd
      intro s hs s' hs' h
      exact List.inj_on_of_nodup_map this hs hs' h
    -- a proper sub-tree is the child of some sub-tree
    have hpar : ∀ (u : Node), ∀ s ∈ subtrees u, s = u ∨ ∃ p ∈ subtrees u, s.name ∈ (infos p.children).map Prod.fst := by
      intro u
      induction hk : sizeOf u using Nat.strongRecOn generalizing u with
      | _ k IH =>
        intro s hs
        obtain ⟨n, cs⟩ := u
        simp only [subtrees, List.mem_cons] at hs
        rcases hs with rfl | hs
        · left; rfl
        · rw [mem_subtreesList] at hs
          obtain ⟨⟨b, c⟩, hbc, hsc⟩ := hs
          have hsz : sizeOf c < sizeOf (Node.mk n cs) := by
            have h1 := List.sizeOf_lt_of_mem hbc
            simp only [Prod.mk.sizeOf_spec] at h1
            simp only [Node.mk.sizeOf_spec]
            omega
          right
          rcases IH _ (hk ▸ hsz) c rfl s hsc with rfl | ⟨p, hp, hpn⟩
          · refine ⟨.mk n cs, by simp [subtrees], ?_⟩
            simp only [Node.children, infos, List.map_map, List.mem_map]
            exact ⟨(b, s), hbc, rfl⟩
          · refine ⟨p, ?_, hpn⟩
            simp only [subtrees, List.mem_cons]
            right
            rw [mem_subtreesList]
            exact ⟨(b, c), hbc, hp⟩
    -- the root's name is not a child name
    have hroot : ∀ p ∈ subtrees t, t.name ∉ (infos p.children).map Prod.fst := by
      have hdesc : ∀ (u : Node), u.getAllName.Nodup → ∀ p ∈ subtrees u, u.name ∉ (infos p.children).map Prod.fst := by
        intro u hu p hp hmem
        obtain ⟨n, cs⟩ := u
        simp only [Node.getAllName, List.nodup_cons] at hu
        simp only [Node.name] at hmem
        -- all child names below are in `getAllNameList cs`
        have hin : ∀ q ∈ subtrees (.mk n cs), ∀ m ∈ (infos q.children).map Prod.fst, m ∈ getAllNameList cs := by
          have hgen : ∀ (v : Node), ∀ q ∈ subtrees v, ∀ m ∈ (infos q.children).map Prod.fst,
              m ∈ getAllNameList v.children := by
            intro v
            induction hk : sizeOf v using Nat.strongRecOn generalizing v with
            | _ k IH =>
              intro q hq m hm
              obtain ⟨n', ds⟩ := v
              simp only [subtrees, List.mem_cons] at hq
              rw [← namesList_subtrees]
              rcases hq with rfl | hq
              · simp only [Node.children, infos, List.map_map, List.mem_map] at hm
                obtain ⟨⟨b, c⟩, hbc, rfl⟩ := hm
                rw [List.mem_map]
                refine ⟨c, ?_, rfl⟩
                simp only [Node.children]
                rw [mem_subtreesList]
                exact ⟨(b, c), hbc, self_mem_subtrees c⟩
              · rw [mem_subtreesList] at hq
                obtain ⟨⟨b, c⟩, hbc, hqc⟩ := hq
                have hsz : sizeOf c < sizeOf (Node.mk n' ds) := by
                  have h1 := List.sizeOf_lt_of_mem hbc
                  simp only [Prod.mk.sizeOf_spec] at h1
                  simp only [Node.mk.sizeOf_spec]
                  omega
                have := IH _ (hk ▸ hsz) c rfl q hqc m hm
                rw [← namesList_subtrees, List.mem_map] at this
                obtain ⟨w, hw, rfl⟩ := this
                rw [List.mem_map]
                refine ⟨w, ?_, rfl⟩
                simp only [Node.children]
                rw [mem_subtreesList]
                refine ⟨(b, c), hbc, ?_⟩
                obtain ⟨n'', es⟩ := c
                simp only [subtrees, List.mem_cons]
                exact Or.inr hw
          intro q hq m hm
          exact hgen _ q hq m hm
        exact hu.1 (hin p hp n hmem)
      exact hdesc t hnd
    intro s hs
    rw [List.mem_flatMap]
    constructor
    · rintro ⟨kv, hkv, hm⟩ rfl
      obtain ⟨p, hp, _, h2⟩ := hent kv hkv
      rw [h2] at hm
      exact hroot p hp hm
    · intro hne
      rcases hpar t s hs with h | ⟨p, hp, hpn⟩
      · exact absurd h hne
      · have h2 := toDict_spec t hnd p hp
        cases hg : dictGet t.toDict p.name with
        | none =>
          rw [hg] at h2
          simp only [Option.getD_none] at h2
          rw [← h2] at hpn
          simp at hpn
        | some v =>
          rw [hg] at h2
          simp only [Option.getD_some] at h2
          exact ⟨_, dictGet_mem hg, by simpa [h2] using hpn⟩
  -- assemble
  unfold nodesFromDict
  simp only []
  have hmap : ∀ ks : List (String × List (String × String)), (∀ kv ∈ ks, kv.1 ∈ t.getAllName) →
      ∃ ts, ks.mapM (fun kv => unfoldTree t.toDict fuel kv.1) = some ts ∧ ts.map Node.name = ks.map Prod.fst ∧
        ∀ s ∈ ts, s ∈ subtrees t := by
    intro ks hks
    induction ks with
    | nil => exact ⟨[], by simp, rfl, by simp⟩
    | cons kv ks ih =>
      obtain ⟨ts, h1, h2, h3⟩ := ih (fun kv h => hks kv (List.mem_cons_of_mem _ h))
      obtain ⟨s, hs, hsn⟩ := hsub kv.1 (hks kv (by simp))
      have hu := hunf s hs
      rw [hsn] at hu
      refine ⟨s :: ts, ?_, by simp [h2, hsn], ?_⟩
      · rw [List.mapM_cons, hu, h1]
        rfl
      · intro s' hs'
        rw [List.mem_cons] at hs'
        rcases hs' with rfl | hs'
        · exact hs
        · exact h3 s' hs'
  obtain ⟨ts, h1, h2, h3⟩ := hmap (t.toDict.filter (fun kv => !kv.2.isEmpty)) (by
    intro kv hkv
    exact hkeys.2 kv.1 (List.mem_map_of_mem (List.mem_filter.1 hkv).1))
  rw [h1, Option.map_some]
  congr 1
  have hts : ts.Nodup := by
    apply List.Nodup.of_map Node.name
    rw [h2]
    exact (List.Nodup.sublist (List.Sublist.map _ List.filter_sublist) hkeys.1)
  have htm : t ∈ ts := by
    have hroot := toDict_spec t hnd t (self_mem_subtrees t)
    have hg : ∃ v, dictGet t.toDict t.name = some v ∧ v ≠ [] := by
      cases hg : dictGet t.toDict t.name with
      | none =>
        rw [hg] at hroot
        simp [infos] at hroot
        exact absurd hroot ht
      | some v =>
        refine ⟨v, rfl, ?_⟩
        rintro rfl
        rw [hg] at hroot
        simp [infos] at hroot
        exact ht hroot
    obtain ⟨v, hv, hvne⟩ := hg
    have hm : t.name ∈ ts.map Node.name := by
      rw [h2, List.mem_map]
      refine ⟨(t.name, v), ?_, rfl⟩
      rw [List.mem_filter]
      refine ⟨dictGet_mem hv, ?_⟩
      cases v with
      | nil => exact absurd rfl hvne
      | cons a as => rfl
    rw [List.mem_map] at hm
    obtain ⟨s, hs, hsn⟩ := hm
    have h4 := hunf s (h3 s hs)
    rw [hsn, hunf t (self_mem_subtrees t)] at h4
    cases h4
    exact hs
  have hfil : ∀ s ∈ ts, ((!(t.toDict.flatMap (fun kv => kv.2.map Prod.fst)).contains s.name) = true ↔ s = t) := by
    intro s hs
    have := hchild s (h3 s hs)
    simp only [Bool.not_eq_true', List.contains_eq_mem, decide_eq_false_iff_not]
    rw [this]
    exact not_not
  have hone : ∀ (l : List Node), l.Nodup → t ∈ l →
      (∀ s ∈ l, ((!(t.toDict.flatMap (fun kv => kv.2.map Prod.fst)).contains s.name) = true ↔ s = t)) →
      l.filter (fun s => !(t.toDict.flatMap (fun kv => kv.2.map Prod.fst)).contains s.name) = [t] := by
    intro l hl hm hp
    induction l with
    | nil => simp at hm
    | cons a as ih =>
      rw [List.nodup_cons] at hl
      rw [List.filter_cons]
      rw [List.mem_cons] at hm
      by_cases ha : a = t
      · subst ha
        rw [if_pos ((hp a (by simp)).2 rfl)]
        congr 1
        rw [List.filter_eq_nil_iff]
        intro s hs h
        have := (hp s (List.mem_cons_of_mem _ hs)).1 h
        subst this
        exact hl.1 hs
      · rw [if_neg (fun h => ha ((hp a (by simp)).1 h))]
        exact ih hl.2 (hm.resolve_left (Ne.symm ha)) (fun s hs => hp s (List.mem_cons_of_mem _ hs))
  exact hone ts hts htm hfil

/-- C57 fails for repeated names: in `a -> {b -> {x}, c -> {b}}` the second `b` is a leaf, but comes back with
the children of the first. -/
theorem c57_shared_name_lost :
    let t : Node := .mk "a" [("p", .mk "b" [("q", .mk "x" [])]), ("r", .mk "c" [("s", .mk "b" [])])]
    (nodesFromDict t.toDict 10).map (·.map addresses) ≠ some [addresses t] := by
  decide

/-- C57: applying `_set_structure` to an already structured space with conditions (as slicing, `filter`, `pop`,
`remove` and `-` do) adds every conditional variable once more to its parent. -/
theorem c57_reapplied_structure_doubles :
    let vars : List (String × Option Cond) := [("a", none), ("x", some ⟨"a==1", ["a"]⟩)]
    (setStructure 10 vars []).map (·.map addresses) = some [[[], [("a==1", "x")]]] ∧
    ((setStructure 10 vars []).bind (fun s => setStructure 10 vars (s.map some))).map (·.map addresses) =
      some [[[], [("a==1", "x")], [("a==1", "x")]]] := by
  constructor <;> decide

/-- C57: a structure list containing `None` (as produced by `deepcopy`) raises. -/
theorem c57_none_tree_raises (fuel : ℕ) (vars : List (String × Option Cond)) (s : List (Option Node))
    (h : none ∈ s) : setStructure fuel vars s = none := by
  have : s.mapM id = none := by
    induction s with
    | nil => simp at h
    | cons a as ih =>
      rw [List.mapM_cons]
      cases a with
      | none => rfl
      | some a =>
        rw [List.mem_cons] at h
        rw [ih (h.resolve_left (by simp))]
        rfl
  unfold setStructure
  rw [this]
  rfl

/-- Non-vacuity: the example tree has distinct names. -/
example : exTree.children ≠ [] ∧ exTree.getAllName.Nodup := by
  constructor
  · simp [exTree, Node.children]
  · decide

end Verif.Props
