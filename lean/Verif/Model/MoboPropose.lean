import Verif.Model.InnerSearch
import Verif.Model.PartialArgument
import Mathlib.Data.Real.Basic

/-!
# Construction and proposals of the multi-objective optimisers (`bayes_optim/mobo.py:23-50, 165-235`)
-/
namespace Verif.Model

/-- What `obj_fun` can be: left out, not iterable, or a sequence whose entries are callable or not. -/
inductive ObjFuns where
  | missing
  | notIterable
  | funs (callable : List Bool)

/-- What `minimize` can be: a `bool`, a sequence with a length, or another single value such as `0`. -/
inductive MinimizeArg where
  | flag (b : Bool)
  | flags (l : List Bool)
  | single (b : Bool)

/-- The attribute `minimize`: one flag per objective, or an array without dimensions (which numpy broadcasts). -/
inductive MinimizeAttr where
  | each (l : List Bool)
  | all (b : Bool)

/-- mobo.py:37-50 `_check_obj_fun`: the number of objectives; `none` is an `AssertionError`. -/
def moboObjectives (nObj : ℕ) : ObjFuns → Option ℕ
  | .missing => some nObj
  | .notIterable => none
  | .funs cs =>
    if cs.all id then
      let n := if cs.length ≠ nObj then cs.length else nObj
      if n > 1 then some n else none
    else none

/-- mobo.py:29-35 `_check_minimize`. -/
def moboMinimize (nObj : ℕ) : MinimizeArg → Option MinimizeAttr
  | .flag b => some (.each (List.replicate nObj b))
  | .flags l => if l.length = nObj then some (.each l) else none
  | .single b => some (.all b)

/-- mobo.py:23-27: the constructor of the base class; it calls `BO.__init__` without the number of objectives, so that `self.n_obj` is 1 (_base.py:18) while the
acquisition search is configured (base.py:201). -/
def moboInit (eval : String → Option ℚ) (o : InnerOptions) (types : List VType) (hasGradient hasH hasG : Bool) (nObj : ℕ) (f : ObjFuns) (mi : MinimizeArg) :
    Option (InnerSearch × ℕ × MinimizeAttr) :=
  (setInternal eval o ⟨types, hasGradient, 1, hasH, hasG⟩).bind fun s =>
    (moboObjectives nObj f).bind fun n => (moboMinimize n mi).map fun a => (s, n, a)

/-- `a, b = values` -/
def unpackTwo {α : Type*} : List α → Option (α × α)
  | [a, b] => some (a, b)
  | _ => none

/-- What becomes of a proposal. -/
inductive Proposal where
  | searched (a : Algo)      -- the algorithm runs on the criterion
  | nothing                  -- no restart, hence no candidate
  | raised

/-- base.py:448-474 with mobo.py:173-182 (`MOBO`): one point is searched on the EHVI with fixed variables; the search of acquisition/optim/__init__.py:74-122 by
L-BFGS-B unpacks the result of the criterion into a value and a gradient (line 45), starting at `x0`.  `ehvi` is the criterion on an array of points. -/
def moboPropose (s : InnerSearch) (freeTypes : List VType) (names : List String) (fixed : FixedDict ℝ) (ehvi : List (List ℝ) → List ℝ) (x0 : List ℝ) (n : ℤ) : Proposal :=
  if n > 1 then .raised
  else if s.nRestart ≤ 0 then .nothing
  else match runsAlgo s.optimizer freeTypes with
    | none => .raised
    | some .bfgs => if ((partialArgument ehvi names fixed (.single x0)).bind unpackTwo).isSome then .searched .bfgs else .raised
    | some a => .searched a

/-- The classes of acquisition/acquisition_fun.py:22-238, among which `getattr(AcquisitionFunction, name)` looks. -/
def acquisitionClasses : List String := ["AcquisitionFunction", "ImprovementBased", "UCB", "EI", "EpsilonPI", "PI", "MGFI"]

/-- mobo.py:188-195 and bayes_opt.py:21 for `MOBO_qEHVI`: the name is fixed to `qEHVI`, whatever was asked for, and is looked up before the search. -/
def qehviCriterion (_asked : String) : Option String :=
  if acquisitionClasses.contains "qEHVI" then some "qEHVI" else none

/-- mobo.py:234: the candidates of the search over the `n`-fold product of the free variables are cut into pieces of `dim` entries. -/
def qSlices {α : Type*} (dim n : ℕ) (c : List α) : List (List α) :=
  (List.range n).map fun i => (c.take ((i + 1) * dim)).drop (i * dim)

/-- mobo.py:210-235 with base.py:466-474: `MOBO_qEHVI` proposes `n` points; `search` is the result of the acquisition search. -/
def qehviPropose {α : Type*} (asked : String) (dim n : ℕ) (search : String → List α) : Option (List (List α)) :=
  (qehviCriterion asked).map fun name => if n > 1 then qSlices dim n (search name) else [search name]

end Verif.Model
