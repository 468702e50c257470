import Verif.Model.Node

/-!
# Python dictionaries as association lists
-/
namespace Verif.Proofs
open Verif.Model
variable {K V : Type*} [DecidableEq K]

/-- The keys of a dictionary. -/
abbrev keys (d : List (K × V)) : List K := d.map Prod.fst

theorem dictGet_eq_none {d : List (K × V)} {k : K} : dictGet d k = none ↔ k ∉ keys d := by
  induction d with
  | nil => simp [dictGet]
  | cons kv d ih =>
    obtain ⟨k', v⟩ := kv
    simp only [dictGet, keys, List.map_cons, List.mem_cons]
    split_ifs with h
    · simp [h]
    · rw [ih]
      simp [keys, Ne.symm h]

theorem dictGet_mem {d : List (K × V)} {k : K} {v : V} (h : dictGet d k = some v) : (k, v) ∈ d := by
  induction d with
  | nil => simp [dictGet] at h
  | cons kv d ih =>
    obtain ⟨k', v'⟩ := kv
    simp only [dictGet] at h
    split_ifs at h with hk
    · cases h
      simp [hk]
    · exact List.mem_cons_of_mem _ (ih h)

theorem dictGet_of_mem {d : List (K × V)} (hd : (keys d).Nodup) {k : K} {v : V} (h : (k, v) ∈ d) :
    dictGet d k = some v := by
  induction d with
  | nil => simp at h
  | cons kv d ih =>
    obtain ⟨k', v'⟩ := kv
    simp only [keys, List.map_cons, List.nodup_cons] at hd
    simp only [dictGet]
    rw [List.mem_cons] at h
    rcases h with h | h
    · cases h
      simp
    · rw [if_neg, ih hd.2 h]
      rintro rfl
      exact hd.1 (List.mem_map_of_mem (f := Prod.fst) h)

theorem dictGet_set (d : List (K × V)) (k : K) (v : V) (k' : K) :
    dictGet (dictSet d k v) k' = if k = k' then some v else dictGet d k' := by
  induction d with
  | nil => simp [dictSet, dictGet]
  | cons kv d ih =>
    obtain ⟨k₀, v₀⟩ := kv
    simp only [dictSet]
    split_ifs with h1 h2 h2
    · subst h1; subst h2
      simp [dictGet]
    · subst h1
      simp [dictGet, h2]
    · subst h2
      simp only [dictGet]
      rw [if_neg h1, ih]
      simp
    · simp only [dictGet]
      split_ifs with h3
      · rfl
      · rw [ih, if_neg h2]

theorem keys_set (d : List (K × V)) (k : K) (v : V) :
    keys (dictSet d k v) = if k ∈ keys d then keys d else keys d ++ [k] := by
  induction d with
  | nil => simp [dictSet, keys]
  | cons kv d ih =>
    obtain ⟨k₀, v₀⟩ := kv
    simp only [dictSet, keys, List.map_cons, List.mem_cons] at *
    split_ifs with h1 h2 h2
    · simp [h1]
    · exact absurd (Or.inl h1.symm) h2
    · rcases h2 with h2 | h2
      · exact absurd h2.symm h1
      · simp [ih, h2]
    · push Not at h2
      simp [ih, h2.2]

theorem nodup_set {d : List (K × V)} (hd : (keys d).Nodup) (k : K) (v : V) : (keys (dictSet d k v)).Nodup := by
  rw [keys_set]
  split_ifs with h
  · exact hd
  · rw [List.nodup_append]
    refine ⟨hd, by simp, ?_⟩
    intro a ha b hb
    rw [List.mem_singleton] at hb
    subst hb
    rintro rfl
    exact h ha

theorem dictGet_update (d e : List (K × V)) (he : (keys e).Nodup) (k : K) :
    dictGet (dictUpdate d e) k = (dictGet e k).or (dictGet d k) := by
  unfold dictUpdate
  induction e generalizing d with
  | nil => simp [dictGet]
  | cons kv e ih =>
    obtain ⟨k', v⟩ := kv
    simp only [keys, List.map_cons, List.nodup_cons] at he
    rw [List.foldl_cons, ih _ he.2, dictGet_set]
    simp only [dictGet]
    split_ifs with h
    · subst h
      rw [dictGet_eq_none.2 he.1]
      simp
    · rfl

theorem nodup_update {d e : List (K × V)} (hd : (keys d).Nodup) : (keys (dictUpdate d e)).Nodup := by
  unfold dictUpdate
  induction e generalizing d with
  | nil => exact hd
  | cons kv e ih =>
    rw [List.foldl_cons]
    exact ih (nodup_set hd _ _)

theorem dictGet_append (d : List (K × List V)) (k : K) (v : V) (k' : K) :
    dictGet (dictAppend d k v) k' = if k = k' then some ((dictGet d k).getD [] ++ [v]) else dictGet d k' := by
  induction d with
  | nil => simp [dictAppend, dictGet]
  | cons kv d ih =>
    obtain ⟨k₀, v₀⟩ := kv
    simp only [dictAppend]
    split_ifs with h1 h2 h2
    · subst h1; subst h2
      simp [dictGet]
    · subst h1
      simp [dictGet, h2]
    · subst h2
      simp only [dictGet]
      rw [if_neg h1, ih, if_neg h1]
      simp
    · simp only [dictGet]
      split_ifs with h3
      · rfl
      · rw [ih, if_neg h2]

theorem keys_append (d : List (K × List V)) (k : K) (v : V) :
    keys (dictAppend d k v) = if k ∈ keys d then keys d else keys d ++ [k] := by
  induction d with
  | nil => simp [dictAppend, keys]
  | cons kv d ih =>
    obtain ⟨k₀, v₀⟩ := kv
    simp only [dictAppend, keys, List.map_cons, List.mem_cons] at *
    split_ifs with h1 h2 h2
    · simp [h1]
    · exact absurd (Or.inl h1.symm) h2
    · rcases h2 with h2 | h2
      · exact absurd h2.symm h1
      · simp [ih, h2]
    · push Not at h2
      simp [ih, h2.2]

theorem nodup_append {d : List (K × List V)} (hd : (keys d).Nodup) (k : K) (v : V) :
    (keys (dictAppend d k v)).Nodup := by
  rw [keys_append]
  split_ifs with h
  · exact hd
  · rw [List.nodup_append]
    refine ⟨hd, by simp, ?_⟩
    intro a ha b hb
    rw [List.mem_singleton] at hb
    subst hb
    rintro rfl
    exact h ha

end Verif.Proofs
