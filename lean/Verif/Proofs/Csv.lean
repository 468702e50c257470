import Verif.Spec.Csv
import Verif.Proofs.Dict

namespace Verif.Proofs
open Verif.Model Verif.Spec

theorem pieces_ne (c : Char) (t : List Char) : pieces c t ≠ [] := by
  cases t with
  | nil => simp [pieces]
  | cons x t =>
    unfold pieces
    split_ifs
    · simp
    · cases pieces c t <;> simp

theorem pieces_clean {c : Char} {t : List Char} (h : c ∉ t) : pieces c t = [t] := by
  induction t with
  | nil => rfl
  | cons x t ih =>
    rw [List.mem_cons, not_or] at h
    unfold pieces
    rw [if_neg (fun e => h.1 e.symm), ih h.2]

theorem pieces_append {c : Char} {t : List Char} (h : c ∉ t) (rest : List Char) : pieces c (t ++ c :: rest) = t :: pieces c rest := by
  induction t with
  | nil => simp [pieces]
  | cons x t ih =>
    rw [List.mem_cons, not_or] at h
    rw [List.cons_append]
    conv_lhs => unfold pieces
    rw [if_neg (fun e => h.1 e.symm), ih h.2]

/-- Splitting what was joined. -/
theorem pieces_intercalate {c : Char} (cells : List (List Char)) (hne : cells ≠ []) (h : ∀ t ∈ cells, c ∉ t) :
    pieces c (List.intercalate [c] cells) = cells := by
  induction cells with
  | nil => exact absurd rfl hne
  | cons t cells ih =>
    cases cells with
    | nil => simpa [List.intercalate] using pieces_clean (h t (by simp))
    | cons u cells =>
      have : List.intercalate [c] (t :: u :: cells) = t ++ c :: List.intercalate [c] (u :: cells) := by simp [List.intercalate]
      rw [this, pieces_append (h t (by simp)), ih (by simp) fun s hs => h s (List.mem_cons_of_mem _ hs)]

theorem newline_intercalate {d : Char} (hd : d ≠ '\n') (cells : List (List Char)) (h : ∀ t ∈ cells, '\n' ∉ t) : '\n' ∉ List.intercalate [d] cells := by
  induction cells with
  | nil => simp [List.intercalate]
  | cons t cells ih =>
    cases cells with
    | nil => simpa [List.intercalate] using h t (by simp)
    | cons u cells =>
      have : List.intercalate [d] (t :: u :: cells) = t ++ d :: List.intercalate [d] (u :: cells) := by simp [List.intercalate]
      rw [this, List.mem_append, List.mem_cons]
      rintro (h1 | h1 | h1)
      · exact h t (by simp) h1
      · exact hd h1.symm
      · exact ih (fun s hs => h s (List.mem_cons_of_mem _ hs)) h1

/-- Reading lines back. -/
theorem readTable_lines {d : Char} (hd : d ≠ '\n') (rows : List (List (List Char)))
    (h : ∀ r ∈ rows, r ≠ [] ∧ ∀ t ∈ r, CleanCell d t) : readTable d ((rows.map (csvLine [d])).flatten) = rows := by
  unfold readTable
  have key : pieces '\n' ((rows.map (csvLine [d])).flatten) = rows.map (List.intercalate [d]) ++ [[]] := by
    induction rows with
    | nil => rfl
    | cons r rows ih =>
      rw [List.map_cons, List.flatten_cons]
      unfold csvLine at *
      rw [List.append_assoc, List.singleton_append, pieces_append (newline_intercalate hd r fun t ht => ((h r (by simp)).2 t ht).2),
        ih fun s hs => h s (List.mem_cons_of_mem _ hs)]
      rfl
  rw [key, List.dropLast_concat, List.map_map]
  refine (List.map_congr_left fun r hr => ?_).trans (List.map_id rows)
  exact pieces_intercalate r (h r hr).1 fun t ht => ((h r hr).2 t ht).1

end Verif.Proofs
