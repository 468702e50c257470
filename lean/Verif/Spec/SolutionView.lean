import Verif.Model.SolutionView

/-!
# What indexing solutions should give
-/
namespace Verif.Spec

open Verif.Model

/-- The rows of a solution with their fitness, evaluation count and label. -/
def viewRecords {α F : Type*} (st : MetaStore F) (v : SolView α) : List (List α × SolMeta F) := v.rows.zip (v.metas st)

/-- Each row has attributes, in entries of its own. -/
structure ViewOk {α F : Type*} (st : MetaStore F) (v : SolView α) : Prop where
  lengths : v.pos.length = v.rows.length
  distinct : v.pos.Nodup
  alive : ∃ b, st[v.buf]? = some b ∧ ∀ p ∈ v.pos, p < b.length

/-- The fitness values as they are read. -/
def fitnesses {α F : Type*} (st : MetaStore F) (v : SolView α) : List F := (v.metas st).map SolMeta.fitness

/-- A chain of slices by `start:stop:step`. -/
def sliceChain {α : Type*} (v : SolView α) (slices : List (Option ℤ × Option ℤ × ℕ)) : SolView α :=
  slices.foldl (fun v s => v.sliceRows s.1 s.2.1 s.2.2) v

end Verif.Spec
