import Verif.Model.RandomForest

/-! # Specification for C44 and C66 -/
namespace Verif.Spec
open Verif.Model

variable {α K : Type*}

/-- The categorical variables are different columns of a sample with `d` columns, each with distinct levels. -/
def LevelsOk (levels : RfLevels α) (d : ℕ) : Prop :=
  (levels.map Prod.fst).Nodup ∧ ∀ kl ∈ levels, kl.1 < d ∧ kl.2.Nodup

/-- A row of the search space: levels where the variable is categorical, numbers elsewhere. -/
def RowOk (toFloat : α → Option K) (levels : RfLevels α) (row : List α) : Prop :=
  (∀ kl ∈ levels, ∃ a ∈ kl.2, row[kl.1]? = some a) ∧
  ∀ (i : ℕ) (a : α), row[i]? = some a → i ∉ levels.map Prod.fst → (toFloat a).isSome

/-- Conversion to numbers does not identify different entries. -/
def FloatInj (toFloat : α → Option K) : Prop := ∀ a b x, toFloat a = some x → toFloat b = some x → a = b

end Verif.Spec
