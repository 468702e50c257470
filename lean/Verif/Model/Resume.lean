import Verif.Model.Optimizer

/-!
# Histories in which the user changes the stopping conditions

`max_FEs`, `ftarget` and `minimize` are plain attributes (_base.py:41-45): a user may assign to them between calls, for
instance to continue a run that has reached its budget, or one that was saved and loaded.
-/
namespace Verif.Model

variable {P K : Type*} [Field K] [LinearOrder K] [IsStrictOrderedRing K]

/-- The state after a history of calls, each made under the attributes current at that time.  `stop_dict` is created in
_base.py:50 and never cleared. -/
def executeWith (ops : List (Cfg K × Op P K)) : OptState P K :=
  ops.foldl (fun s o => (applyOp o.1 s o.2).1) {}

end Verif.Model
