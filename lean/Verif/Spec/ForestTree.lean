import Verif.Model.ForestTree
import Verif.Spec.RandomForest

/-! Specification for C190. -/
namespace Verif.Spec

open Verif.Model

/-- Every leaf holds at least one training sample, and only samples that exist. -/
def TrainedOn {K : Type*} (n : ℕ) : RegTree K → Prop
  | .leaf samples => samples ≠ [] ∧ ∀ i ∈ samples, i < n
  | .node _ _ low high => TrainedOn n low ∧ TrainedOn n high

/-- The same sample with the level `a` of the categorical variable `k` called `f k a`. -/
def renameLevels {α : Type*} (keys : List ℕ) (f : ℕ → α → α) (row : List α) : List α :=
  row.mapIdx fun i a => if i ∈ keys then f i a else a

/-- The same description of the categorical variables with the new names of the levels. -/
def renameDescription {α : Type*} (f : ℕ → α → α) (levels : RfLevels α) : RfLevels α := levels.map fun kl => (kl.1, kl.2.map (f kl.1))

end Verif.Spec
