import Verif.Proofs.Dict
import Verif.Spec.Node

/-!
# Lemmas on condition trees
-/
namespace Verif.Proofs
open Verif.Model Verif.Spec

theorem remove_name {names : List String} {inv : Bool} {t t' : Node} (h : t.remove names inv = some t') :
    t'.name = t.name := by
  cases t with
  | mk n cs =>
    simp only [Node.remove] at h
    split_ifs at h
    cases h
    rfl

mutual
theorem addresses_remove (names : List String) :
    (t : Node) → ∀ t', t.remove names true = some t' →
      addresses t' = (addresses t).filter (fun a => a.all (fun e => names.contains e.2))
  | .mk n cs => by
    intro t' h
    simp only [Node.remove] at h
    split_ifs at h
    cases h
    simp only [addresses, List.filter_cons, List.all_nil, if_true, List.cons.injEq, true_and]
    exact addressesList_remove names cs
theorem addressesList_remove (names : List String) :
    (cs : List (String × Node)) →
      addressesList (removeList names true cs) =
        (addressesList cs).filter (fun a => a.all (fun e => names.contains e.2))
  | [] => by simp [removeList, addressesList]
  | (b, c) :: cs => by
    have ih := addressesList_remove names cs
    have hc := addresses_remove names c
    simp only [removeList, addressesList, List.filter_append]
    cases hr : c.remove names true with
    | none =>
      have hn : names.contains c.name = false := by
        cases c with
        | mk n ds =>
          simp only [Node.remove] at hr
          split_ifs at hr with h
          simpa [dropTest, Node.name] using h
      have : (List.map (fun a => (b, c.name) :: a) (addresses c)).filter
          (fun a => a.all (fun e => names.contains e.2)) = [] := by
        rw [List.filter_eq_nil_iff]
        intro a ha
        rw [List.mem_map] at ha
        obtain ⟨a, _, rfl⟩ := ha
        simp only [List.all_cons, hn, Bool.false_and, Bool.false_eq_true, not_false_iff]
      rw [this, List.nil_append]
      exact ih
    | some c' =>
      have hn : names.contains c.name = true := by
        cases c with
        | mk n ds =>
          simp only [Node.remove] at hr
          split_ifs at hr with h
          simpa [dropTest, Node.name] using h
      simp only [addressesList, ih, hc c' hr, remove_name hr]
      rw [List.filter_map]
      congr 2
      apply List.filter_congr
      intro a _
      simp only [Function.comp, List.all_cons, hn, Bool.true_and]
end

/-! ### paths -/

theorem mergeOne (m : List (List String × List String)) (k : List String) (vs : List String) (k' : List String) :
    (dictGet (vs.foldl (fun m v => dictAppend m k v) m) k').getD [] =
      (dictGet m k').getD [] ++ (if k = k' then vs else []) := by
  induction vs generalizing m with
  | nil => simp
  | cons v vs ih =>
    rw [List.foldl_cons, ih, dictGet_append]
    split_ifs with h
    · subst h
      simp
    · simp

/-- Lookups in the merged dictionary. -/
theorem merge_get (ps : List (List String × List String)) (k : List String) :
    (dictGet (mergePaths ps) k).getD [] = (ps.filter (fun p => p.1 = k)).flatMap Prod.snd := by
  unfold mergePaths
  have : ∀ m : List (List String × List String),
      (dictGet (ps.foldl (fun m kv => kv.2.foldl (fun m v => dictAppend m kv.1 v) m) m) k).getD [] =
        (dictGet m k).getD [] ++ (ps.filter (fun p => p.1 = k)).flatMap Prod.snd := by
    induction ps with
    | nil => intro m; simp
    | cons p ps ih =>
      intro m
      rw [List.foldl_cons, ih, mergeOne, List.filter_cons]
      by_cases h : p.1 = k
      · simp [h]
      · simp [h]
  rw [this]
  simp [dictGet]

/-- A well-formed path dictionary: distinct keys, no empty value list. -/
def GoodDict (d : List (List String × List String)) : Prop := (keys d).Nodup ∧ ∀ kv ∈ d, kv.2 ≠ []

theorem goodDict_append {d : List (List String × List String)} (h : GoodDict d) (k : List String) (v : String) :
    GoodDict (dictAppend d k v) := by
  refine ⟨nodup_append h.1 k v, ?_⟩
  rintro ⟨k', vs⟩ hm
  have := dictGet_of_mem (nodup_append h.1 k v) hm
  rw [dictGet_append] at this
  split_ifs at this with hk
  · cases this
    simp
  · exact h.2 _ (dictGet_mem this)

theorem goodDict_merge (ps : List (List String × List String)) : GoodDict (mergePaths ps) := by
  unfold mergePaths
  have : ∀ m, GoodDict m →
      GoodDict (ps.foldl (fun m kv => kv.2.foldl (fun m v => dictAppend m kv.1 v) m) m) := by
    induction ps with
    | nil => intro m h; exact h
    | cons p ps ih =>
      intro m h
      rw [List.foldl_cons]
      apply ih
      generalize p.2 = vs
      induction vs generalizing m with
      | nil => exact h
      | cons v vs ih' => exact ih' _ (goodDict_append h _ _)
  exact this [] ⟨by simp [keys], by simp⟩

theorem goodDict_update {d e : List (List String × List String)} (hd : GoodDict d) (he : GoodDict e) :
    GoodDict (dictUpdate d e) := by
  refine ⟨nodup_update hd.1, ?_⟩
  rintro ⟨k, vs⟩ hm
  have := dictGet_of_mem (nodup_update hd.1) hm
  rw [dictGet_update _ _ he.1] at this
  cases h : dictGet e k with
  | some w =>
    rw [h] at this
    cases this
    exact he.2 _ (dictGet_mem h)
  | none =>
    rw [h, Option.none_or] at this
    exact hd.2 _ (dictGet_mem this)

theorem goodDict_get {d : List (List String × List String)} (hd : GoodDict d) (k : List String) :
    dictGet d k = if (dictGet d k).getD [] = [] then none else some ((dictGet d k).getD []) := by
  cases h : dictGet d k with
  | none => simp
  | some v =>
    have := hd.2 _ (dictGet_mem h)
    simp only [] at this
    simp [this]

theorem goodDict_flat {d : List (List String × List String)} (hd : GoodDict d) (k : List String) :
    (d.filter (fun p => p.1 = k)).flatMap Prod.snd = (dictGet d k).getD [] := by
  replace hd := hd.1
  induction d with
  | nil => simp [dictGet]
  | cons p d ih =>
    obtain ⟨k', v⟩ := p
    simp only [keys, List.map_cons, List.nodup_cons] at hd
    rw [List.filter_cons]
    simp only [dictGet, decide_eq_true_eq]
    split_ifs with h
    · subst h
      have hn := dictGet_eq_none.2 hd.1
      simp only [List.flatMap_cons, ih hd.2, hn]
      simp
    · exact ih hd.2

/-- Every child's contribution starts with its branch. -/
theorem subPaths_branch (ord : List String → List String) (cs : List (String × Node)) :
    ∀ s ∈ subPaths ord cs, ∀ pv ∈ s.2, ∃ p, pv.1 = s.1 :: p := by
  induction cs with
  | nil => simp [subPaths]
  | cons bc cs ih =>
    obtain ⟨b, c⟩ := bc
    intro s hs pv hpv
    simp only [subPaths, List.mem_cons] at hs
    rcases hs with rfl | hs
    · unfold childPaths at hpv
      simp only [] at hpv
      split_ifs at hpv
      · rw [List.mem_singleton] at hpv
        exact ⟨[], by rw [hpv]⟩
      · rw [List.mem_map] at hpv
        obtain ⟨q, _, rfl⟩ := hpv
        exact ⟨q.1, rfl⟩
    · exact ih s hs pv hpv

theorem mem_keys_merge {ps : List (List String × List String)} {k : List String}
    (h : k ∈ keys (mergePaths ps)) : ∃ pv ∈ ps, pv.1 = k := by
  have h1 : dictGet (mergePaths ps) k ≠ none := by
    rw [Ne, dictGet_eq_none]
    simpa using h
  have h2 := goodDict_get (goodDict_merge ps) k
  rw [merge_get] at h2
  by_contra hc
  push Not at hc
  apply h1
  rw [h2, if_pos]
  have : ps.filter (fun p => p.1 = k) = [] := by
    rw [List.filter_eq_nil_iff]
    intro a ha
    simpa using hc a ha
  rw [this]
  rfl

theorem foldPaths (sub : List (String × List (List String × List String)))
    (hsub : ∀ s ∈ sub, ∀ pv ∈ s.2, ∃ p, pv.1 = s.1 :: p) (brs : List String) (hb : brs.Nodup)
    (d : List (List String × List String)) (hd : GoodDict d)
    (hdk : ∀ b p, b ∈ brs → b :: p ∉ keys d) :
    let r := brs.foldl
      (fun path br => dictUpdate path (mergePaths ((sub.filter (fun s => s.1 = br)).flatMap Prod.snd))) d
    GoodDict r ∧ (∀ b p, (dictGet r (b :: p)).getD [] = (dictGet d (b :: p)).getD [] ++ if b ∈ brs then
      (((sub.filter (fun s => s.1 = b)).flatMap Prod.snd).filter (fun q => q.1 = b :: p)).flatMap Prod.snd else [])
      ∧ dictGet r [] = dictGet d [] := by
  induction brs generalizing d with
  | nil => exact ⟨hd, by simp, rfl⟩
  | cons br brs ih =>
    intro r
    rw [List.nodup_cons] at hb
    set e := mergePaths ((sub.filter (fun s => s.1 = br)).flatMap Prod.snd) with he
    have hkey : ∀ k ∈ keys e, ∃ p, k = br :: p := by
      intro k hk
      obtain ⟨pv, hpv, rfl⟩ := mem_keys_merge hk
      rw [List.mem_flatMap] at hpv
      obtain ⟨s, hs, hps⟩ := hpv
      rw [List.mem_filter] at hs
      obtain ⟨p, hp⟩ := hsub s hs.1 pv hps
      have := hs.2
      simp only [decide_eq_true_eq] at this
      exact ⟨p, by rw [hp, this]⟩
    have hge : GoodDict e := goodDict_merge _
    have hgd := goodDict_update hd hge
    have hget : ∀ k, dictGet (dictUpdate d e) k = (dictGet e k).or (dictGet d k) :=
      fun k => dictGet_update d e hge.1 k
    have hek : ∀ k, (∀ p, k ≠ br :: p) → dictGet e k = none := by
      intro k hk
      rw [dictGet_eq_none]
      intro h
      obtain ⟨p, hp⟩ := hkey k h
      exact hk p hp
    obtain ⟨i1, i2, i3⟩ := ih hb.2 (dictUpdate d e) hgd (by
      intro b p hb'
      have hbb : b ≠ br := by rintro rfl; exact hb.1 hb'
      rw [← dictGet_eq_none, hget, hek _ (by intro q hq; cases hq; exact hbb rfl), Option.none_or,
        dictGet_eq_none]
      exact hdk b p (List.mem_cons_of_mem _ hb'))
    refine ⟨i1, fun b p => ?_, ?_⟩
    · show (dictGet (List.foldl _ (dictUpdate d e) brs) (b :: p)).getD [] = _
      rw [i2 b p, hget]
      by_cases hbb : b = br
      · subst hbb
        rw [if_neg hb.1, if_pos (by simp)]
        have hdn := dictGet_eq_none.2 (hdk b p (by simp))
        rw [hdn, Option.or_none, he, merge_get]
        simp
      · rw [hek _ (by intro q hq; cases hq; exact hbb rfl), Option.none_or]
        simp only [List.mem_cons, hbb, false_or]
    · show dictGet (List.foldl _ (dictUpdate d e) brs) [] = _
      rw [i3, hget, hek _ (by intro q hq; cases hq), Option.none_or]

theorem leavesList_nil_path (cs : List (String × Node)) : ∀ l ∈ leavesList cs, l.1 ≠ [] := by
  induction cs with
  | nil => simp [leavesList]
  | cons bc cs ih =>
    obtain ⟨b, c⟩ := bc
    intro l hl
    simp only [leavesList, List.mem_append, List.mem_map] at hl
    rcases hl with ⟨q, _, rfl⟩ | hl
    · simp
    · exact ih l hl

theorem leaves_of_children {t : Node} (h : t.children ≠ []) : leaves t = leavesList t.children := by
  cases t with
  | mk n cs =>
    cases cs with
    | nil => exact absurd rfl h
    | cons c cs => simp [leaves, Node.children]

mutual
/-- The path dictionary of an internal node lists exactly its leaves. -/
theorem getAllPath_spec (ord : List String → List String) (hord : SetOrder ord) :
    (t : Node) → GoodDict (t.getAllPath ord) ∧ (t.children ≠ [] → ∀ k,
      (dictGet (t.getAllPath ord) k).getD [] = leavesAt t k)
  | .mk n cs => by
    have ih := subPaths_spec ord hord cs
    obtain ⟨f1, f2, f3⟩ := foldPaths (subPaths ord cs) (subPaths_branch ord cs) (ord (cs.map Prod.fst))
      (hord _).1 [] ⟨by simp [keys], by simp⟩ (by simp [keys])
    have hunf : (Node.mk n cs).getAllPath ord = (ord (cs.map Prod.fst)).foldl
      (fun path br => dictUpdate path
        (mergePaths (((subPaths ord cs).filter (fun s => s.1 = br)).flatMap Prod.snd))) [] := by
      simp only [Node.getAllPath]
    refine ⟨by rw [hunf]; exact f1, fun hne k => ?_⟩
    have hl : leavesAt (.mk n cs) k = ((leavesList cs).filter (fun l => l.1 = k)).map Prod.snd := by
      unfold leavesAt
      rw [leaves_of_children hne]
      rfl
    rw [hunf, hl]
    cases k with
    | nil =>
      rw [f3]
      have : (leavesList cs).filter (fun l => l.1 = []) = [] := by
        rw [List.filter_eq_nil_iff]
        intro a ha
        simpa using leavesList_nil_path cs a ha
      rw [this]
      rfl
    | cons b p =>
      rw [f2 b p]
      rw [← ih b p]
      by_cases hb : b ∈ ord (cs.map Prod.fst)
      · simp [hb, dictGet]
      · simp only [hb, if_false, dictGet, Option.getD_none, List.append_nil]
        rw [(hord _).2] at hb
        have hempty : (subPaths ord cs).filter (fun s => s.1 = b) = [] := by
          rw [List.filter_eq_nil_iff]
          intro s hs
          have hfst : ∀ cs : List (String × Node), (subPaths ord cs).map Prod.fst = cs.map Prod.fst := by
            intro cs
            induction cs with
            | nil => simp [subPaths]
            | cons bc cs ih => obtain ⟨b, c⟩ := bc; simp [subPaths, ih]
          have hm : s.1 ∈ (subPaths ord cs).map Prod.fst := List.mem_map_of_mem (f := Prod.fst) hs
          rw [hfst] at hm
          simp only [decide_eq_true_eq]
          rintro rfl
          exact hb hm
        rw [hempty]
        simp
theorem subPaths_spec (ord : List String → List String) (hord : SetOrder ord) :
    (cs : List (String × Node)) → ∀ b p,
      ((((subPaths ord cs).filter (fun s => s.1 = b)).flatMap Prod.snd).filter
        (fun q => q.1 = b :: p)).flatMap Prod.snd =
      ((leavesList cs).filter (fun l => l.1 = b :: p)).map Prod.snd
  | [] => by simp [subPaths, leavesList]
  | (b', c) :: cs => by
    intro b p
    have ih := subPaths_spec ord hord cs b p
    have hc := getAllPath_spec ord hord c
    simp only [subPaths, leavesList, List.filter_append, List.map_append]
    rw [← ih, List.filter_cons]
    have hmap : (((leaves c).map (fun l => (b' :: l.1, l.2))).filter (fun l => l.1 = b :: p)).map Prod.snd =
        if b' = b then leavesAt c p else [] := by
      rw [List.filter_map, List.map_map]
      split_ifs with h
      · subst h
        unfold leavesAt
        congr 1
        apply List.filter_congr
        intro a _
        simp [Function.comp]
      · have : (leaves c).filter ((fun l : List String × String => decide (l.1 = b :: p)) ∘
            fun l => (b' :: l.1, l.2)) = [] := by
          rw [List.filter_eq_nil_iff]
          intro a _
          simp [Function.comp, h]
        rw [this]
        rfl
    rw [hmap]
    by_cases hb : b' = b
    · subst hb
      simp only [decide_true, if_true, List.flatMap_cons, List.filter_append, List.flatMap_append]
      congr 1
      unfold childPaths
      split_ifs with hleaf
      · have hcc : c.children = [] := by simpa [List.isEmpty_iff] using hleaf
        have hlv : leaves c = [([], c.name)] := by
          cases c with
          | mk n ds =>
            simp only [Node.children] at hcc
            subst hcc
            simp [leaves, Node.name]
        unfold leavesAt
        rw [hlv]
        cases p with
        | nil => simp
        | cons q p => simp
      · have hcc : c.children ≠ [] := by simpa [List.isEmpty_iff] using hleaf
        rw [← hc.2 hcc p, ← goodDict_flat hc.1 p, List.filter_map, List.flatMap_map]
        congr 1
        apply List.filter_congr
        intro a _
        simp [Function.comp]
    · simp [hb]
end

/-! ### dictionary form -/

/-- The entry of `to_dict` for a node. -/
def infos (cs : List (String × Node)) : List (String × String) := cs.map (fun bc => (bc.2.name, bc.1))

mutual
/-- All sub-trees in pre-order. -/
def subtrees : Node → List Node
  | .mk n cs => .mk n cs :: subtreesList cs
/-- All sub-trees of a list of children. -/
def subtreesList : List (String × Node) → List Node
  | [] => []
  | (_, c) :: cs => subtrees c ++ subtreesList cs
end

mutual
/-- The height of a tree. -/
def height : Node → ℕ
  | .mk _ cs => heightList cs + 1
/-- The largest height in a list. -/
def heightList : List (String × Node) → ℕ
  | [] => 0
  | (_, c) :: cs => max (height c) (heightList cs)
end

theorem name_mem_getAllName (t : Node) : t.name ∈ t.getAllName := by
  cases t with
  | mk n cs => simp [Node.getAllName, Node.name]

theorem self_mem_subtrees (t : Node) : t ∈ subtrees t := by
  cases t with
  | mk n cs => simp [subtrees]

mutual
theorem names_subtrees : (t : Node) → (subtrees t).map Node.name = t.getAllName
  | .mk n cs => by
    simp only [subtrees, Node.getAllName, List.map_cons, namesList_subtrees cs]
    rfl
theorem namesList_subtrees : (cs : List (String × Node)) → (subtreesList cs).map Node.name = getAllNameList cs
  | [] => by simp [subtreesList, getAllNameList]
  | (b, c) :: cs => by
    simp only [subtreesList, getAllNameList, List.map_append, names_subtrees c, namesList_subtrees cs]
end

mutual
theorem toDict_keys : (t : Node) → (keys t.toDict).Nodup ∧ ∀ k ∈ keys t.toDict, k ∈ t.getAllName
  | .mk n cs => by
    have h := toDictList_keys n cs [] (by simp [keys])
    simp only [Node.toDict]
    refine ⟨h.1, fun k hk => ?_⟩
    rcases h.2 k hk with h | h | h
    · simp [keys] at h
    · simp [Node.getAllName, h]
    · simp [Node.getAllName, h]
theorem toDictList_keys (n : String) : (cs : List (String × Node)) →
    ∀ out, (keys out).Nodup → (keys (toDictList n cs out)).Nodup ∧
      ∀ k ∈ keys (toDictList n cs out), k ∈ keys out ∨ k = n ∨ k ∈ getAllNameList cs
  | [] => by
    intro out h
    simp only [toDictList]
    exact ⟨h, fun k hk => Or.inl hk⟩
  | (b, c) :: cs => by
    intro out h
    have hc := toDict_keys c
    have h' : (keys (dictUpdate (dictAppend out n (c.name, b)) c.toDict)).Nodup :=
      nodup_update (nodup_append h _ _)
    have ih := toDictList_keys n cs _ h'
    simp only [toDictList]
    refine ⟨ih.1, fun k hk => ?_⟩
    rcases ih.2 k hk with hk | hk | hk
    · by_cases hkc : k ∈ keys c.toDict
      · right; right
        simp only [getAllNameList, List.mem_append]
        exact Or.inl (hc.2 k hkc)
      · have : dictGet (dictAppend out n (c.name, b)) k ≠ none := by
          have := mt dictGet_eq_none.1 (not_not_intro hk)
          rw [dictGet_update _ _ hc.1, dictGet_eq_none.2 hkc, Option.none_or] at this
          exact this
        rw [dictGet_append] at this
        split_ifs at this with hn
        · exact Or.inr (Or.inl hn.symm)
        · left
          by_contra hc'
          exact this (dictGet_eq_none.2 hc')
    · exact Or.inr (Or.inl hk)
    · right; right
      simp only [getAllNameList, List.mem_append]
      exact Or.inr hk
end

theorem toDictList_self (n : String) (cs : List (String × Node)) (hn : n ∉ getAllNameList cs) (out) :
    (dictGet (toDictList n cs out) n).getD [] = (dictGet out n).getD [] ++ infos cs := by
  induction cs generalizing out with
  | nil => simp [toDictList, infos]
  | cons bc cs ih =>
    obtain ⟨b, c⟩ := bc
    simp only [getAllNameList, List.mem_append, not_or] at hn
    simp only [toDictList]
    rw [ih hn.2, dictGet_update _ _ (toDict_keys c).1,
      dictGet_eq_none.2 (fun h => hn.1 ((toDict_keys c).2 _ h)), Option.none_or, dictGet_append]
    simp [infos]

theorem toDictList_other (n : String) (cs : List (String × Node)) (m : String) (hm : m ≠ n)
    (hmc : m ∉ getAllNameList cs) (out) : dictGet (toDictList n cs out) m = dictGet out m := by
  induction cs generalizing out with
  | nil => simp [toDictList]
  | cons bc cs ih =>
    obtain ⟨b, c⟩ := bc
    simp only [getAllNameList, List.mem_append, not_or] at hmc
    simp only [toDictList]
    rw [ih hmc.2, dictGet_update _ _ (toDict_keys c).1,
      dictGet_eq_none.2 (fun h => hmc.1 ((toDict_keys c).2 _ h)), Option.none_or, dictGet_append,
      if_neg hm.symm]

theorem toDictList_child (n : String) (cs : List (String × Node)) (hnd : (n :: getAllNameList cs).Nodup)
    (b : String) (c : Node) (hc : (b, c) ∈ cs) (m : String) (hm : m ∈ c.getAllName) (out)
    (hout : dictGet out m = none) :
    dictGet (toDictList n cs out) m = dictGet c.toDict m := by
  induction cs generalizing out with
  | nil => simp at hc
  | cons bc cs ih =>
    obtain ⟨b', c'⟩ := bc
    simp only [getAllNameList, List.nodup_cons, List.mem_append, not_or, List.nodup_append] at hnd
    obtain ⟨⟨hn1, hn2⟩, hd1, hd2, hd3⟩ := hnd
    simp only [toDictList]
    rw [List.mem_cons] at hc
    rcases hc with hc | hc
    · cases hc
      have hmn : m ≠ n := by rintro rfl; exact hn1 hm
      rw [toDictList_other n cs m hmn (fun h => hd3 m hm m h rfl), dictGet_update _ _ (toDict_keys c).1,
        dictGet_append, if_neg hmn.symm, hout, Option.or_none]
    · have hmcs : m ∈ getAllNameList cs := by
        clear ih hn2 hd2 hd3
        induction cs with
        | nil => simp at hc
        | cons bc cs ih =>
          obtain ⟨b'', c''⟩ := bc
          simp only [getAllNameList, List.mem_append]
          rw [List.mem_cons] at hc
          rcases hc with hc | hc
          · cases hc
            exact Or.inl hm
          · exact Or.inr (ih hc)
      have hmn : m ≠ n := by rintro rfl; exact hn2 hmcs
      apply ih (List.nodup_cons.2 ⟨hn2, hd2⟩) hc
      rw [dictGet_update _ _ (toDict_keys c').1,
        dictGet_eq_none.2 (fun h => hd3 m ((toDict_keys c').2 _ h) m hmcs rfl), Option.none_or, dictGet_append,
        if_neg hmn.symm, hout]

theorem mem_subtreesList {cs : List (String × Node)} {s : Node} :
    s ∈ subtreesList cs ↔ ∃ bc ∈ cs, s ∈ subtrees bc.2 := by
  induction cs with
  | nil => simp [subtreesList]
  | cons bc cs ih =>
    obtain ⟨b, c⟩ := bc
    simp [subtreesList, ih]

theorem nodup_child {cs : List (String × Node)} (h : (getAllNameList cs).Nodup) {bc : String × Node}
    (hbc : bc ∈ cs) : bc.2.getAllName.Nodup ∧ ∀ m ∈ bc.2.getAllName, m ∈ getAllNameList cs := by
  induction cs with
  | nil => simp at hbc
  | cons d cs ih =>
    obtain ⟨b', c'⟩ := d
    simp only [getAllNameList, List.nodup_append] at h
    simp only [getAllNameList, List.mem_append]
    rw [List.mem_cons] at hbc
    rcases hbc with rfl | hbc
    · exact ⟨h.1, fun m hm => Or.inl hm⟩
    · exact ⟨(ih h.2.1 hbc).1, fun m hm => Or.inr ((ih h.2.1 hbc).2 m hm)⟩

/-- The dictionary of a tree with distinct names describes every node of the tree. -/
theorem toDict_spec (t : Node) (hnd : t.getAllName.Nodup) (s : Node) (hs : s ∈ subtrees t) :
    (dictGet t.toDict s.name).getD [] = infos s.children := by
  induction hk : sizeOf t using Nat.strongRecOn generalizing t with
  | _ k IH =>
    obtain ⟨n, cs⟩ := t
    simp only [Node.getAllName] at hnd
    rw [List.nodup_cons] at hnd
    simp only [subtrees, List.mem_cons] at hs
    rcases hs with rfl | hs
    · simp only [Node.toDict, Node.name, Node.children]
      rw [toDictList_self n cs hnd.1]
      simp [dictGet]
    · rw [mem_subtreesList] at hs
      obtain ⟨⟨b, c⟩, hbc, hs⟩ := hs
      have hc := nodup_child hnd.2 hbc
      have hsn : s.name ∈ c.getAllName := by
        rw [← names_subtrees]
        exact List.mem_map_of_mem hs
      simp only [Node.toDict]
      rw [toDictList_child n cs (List.nodup_cons.2 hnd) b c hbc s.name hsn [] rfl]
      have : sizeOf c < sizeOf (Node.mk n cs) := by
        have h1 := List.sizeOf_lt_of_mem hbc
        simp only [Prod.mk.sizeOf_spec] at h1
        simp only [Node.mk.sizeOf_spec]
        omega
      exact IH _ (hk ▸ this) c hc.1 hs rfl

mutual
/-- Unfolding a dictionary that describes the nodes of `t` rebuilds `t`. -/
theorem unfold_spec (d : List (String × List (String × String))) :
    (t : Node) → (∀ s ∈ subtrees t, (dictGet d s.name).getD [] = infos s.children) → ∀ fuel, height t ≤ fuel →
      unfoldTree d fuel t.name = some t
  | .mk n cs => by
    intro h fuel hf
    simp only [height] at hf
    obtain ⟨f, rfl⟩ : ∃ f, fuel = f + 1 := ⟨fuel - 1, by omega⟩
    have h0 := h (.mk n cs) (by simp [subtrees])
    simp only [Node.name, Node.children] at h0
    simp only [unfoldTree, Node.name]
    rw [h0, unfoldList_spec d cs (fun s hs => h s (by simp [subtrees, hs])) f (by omega)]
    rfl
theorem unfoldList_spec (d : List (String × List (String × String))) :
    (cs : List (String × Node)) →
      (∀ s ∈ subtreesList cs, (dictGet d s.name).getD [] = infos s.children) → ∀ fuel, heightList cs ≤ fuel →
      (infos cs).mapM (fun info => (unfoldTree d fuel info.1).map (fun c => (info.2, c))) = some cs
  | [] => by intro _ _ _; simp [infos]
  | (b, c) :: cs => by
    intro h fuel hf
    simp only [heightList] at hf
    have h1 := unfold_spec d c (fun s hs => h s (by simp [subtreesList, hs])) fuel (by omega)
    have h2 := unfoldList_spec d cs (fun s hs => h s (by simp [subtreesList, hs])) fuel (by omega)
    simp only [infos, List.map_cons, List.mapM_cons] at h2 ⊢
    rw [h1, h2]
    rfl
end

end Verif.Proofs
