import Mathlib.Logic.Function.Basic
import Mathlib.Data.List.Basic

/-!
# Model of the pointers of `MultiList` (`bayes_optim/utils/multi_objective/hypervolume.py:231-309`)

The lists for different objectives do not share pointers, so one list is modelled.  Nodes are numbers and `0` is the
sentinel.  The tensor `bounds` that `remove` and `reinsert` also update is in `Model/Hypervolume.lean`.
-/
namespace Verif.Model

/-- `next[i]` and `prev[i]` of all nodes, for one `i` (lines 224-225). -/
structure Links where
  next : ℕ → ℕ
  prev : ℕ → ℕ

/-- Lines 247-250: the sentinel points at itself. -/
def Links.empty : Links := { next := fun _ => 0, prev := fun _ => 0 }

/-- Lines 252-264 `append`. -/
def Links.append (l : Links) (x : ℕ) : Links :=
  let last := l.prev 0
  let next1 := Function.update l.next x 0
  let prev1 := Function.update l.prev x last
  let prev2 := Function.update prev1 0 x
  { next := Function.update next1 last x, prev := prev2 }

/-- Lines 266-275 `extend`. -/
def Links.extend (l : Links) (xs : List ℕ) : Links := xs.foldl Links.append l

/-- Lines 285-289 of `remove`, for one list. -/
def Links.remove (l : Links) (x : ℕ) : Links :=
  let predecessor := l.prev x
  let successor := l.next x
  { next := Function.update l.next predecessor successor, prev := Function.update l.prev successor predecessor }

/-- Lines 306-308 of `reinsert`, for one list. -/
def Links.reinsert (l : Links) (x : ℕ) : Links :=
  { next := Function.update l.next (l.prev x) x, prev := Function.update l.prev (l.next x) x }

end Verif.Model
