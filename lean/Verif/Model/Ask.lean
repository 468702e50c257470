import Verif.Model.Sampling

/-!
# Model of `ask`: acquisition maximisers, duplicate check and random top-up

`BaseBO.ask`, `create_DoE`, `arg_max_acquisition` (bayes_optim/base.py), `BO.pre_eval_check`
(bayes_optim/bayes_opt.py) and `fillin_fixed_value` (bayes_optim/utils/utils.py).  A point is a row of values.
The sampler and the acquisition optimiser are arbitrary functions; what is known about them is a hypothesis
of the theorems.
-/
namespace Verif.Model

/-- A decision point. -/
abbrev Row := List Val

/-- The variables of a space: names and kinds, in order. -/
abbrev Vars := List (String × Kind)

/-- search_space.py:226-228: `categorical_id`. -/
def categoricalIds (ks : List Kind) : List ℕ :=
  typeIds ks .discrete ++ typeIds ks .ordinal ++ typeIds ks .bool ++ typeIds ks .subset

/-- `np.isclose(a, b)` with the default tolerances `rtol = 1e-5`, `atol = 1e-8`; `b` is the reference. -/
def isClose (a b : ℝ) : Prop := |a - b| ≤ 1 / 10 ^ 8 + 1 / 10 ^ 5 * |b|

/-- `np.isclose` on two entries of a real column (bayes_opt.py:44-47).  Simplification: an entry that is not a
float counts as different (the conversion would raise). -/
def closeAt (a b : Option Val) : Prop :=
  match a, b with
  | some (.real x), some (.real y) => isClose x y
  | _, _ => False

/-- bayes_opt.py:43-52: row `y` counts as a duplicate of the candidate `x`. -/
def matchesRow (ks : List Kind) (y x : Row) : Prop :=
  (∀ j ∈ typeIds ks .real, closeAt y[j]? x[j]?) ∧
  (∀ j ∈ typeIds ks .integer, y[j]? = x[j]?) ∧
  (∀ j ∈ categoricalIds ks, y[j]? = x[j]?)

open Classical in
/-- bayes_opt.py:27-55 `BO.pre_eval_check`: keep the candidates that match no *other* row among all candidates
and the recorded data (`data = []` when nothing is recorded). -/
noncomputable def preEvalCheck (ks : List Kind) (data X : List Row) : List Row :=
  ((List.range X.length).filter (fun i =>
    ! (List.range (X ++ data).length).any (fun j =>
      decide (j ≠ i ∧ matchesRow ks ((X ++ data).getD j []) ((X ++ data).getD i []))))).map
    (fun i => (X ++ data).getD i [])

/-- utils.py:149-160 for one row: the free values are dealt to the positions that are not fixed; `none` is the
shape error of line 156.  Simplification: numpy would also broadcast a single free value. -/
def fillRow (fixed : List (String × Val)) : List String → Row → Option Row
  | [], [] => some []
  | [], _ :: _ => none
  | n :: ns, xs =>
    match fixed.lookup n with
    | some v => (fillRow fixed ns xs).map (v :: ·)
    | none =>
      match xs with
      | [] => none
      | x :: xs => (fillRow fixed ns xs).map (x :: ·)

/-- utils.py:149-160 `fillin_fixed_value`. -/
def fillin (names : List String) (fixed : Option (List (String × Val))) (X : List Row) : Option (List Row) :=
  match fixed with
  | none => some X
  | some f => if X.isEmpty then some X else X.mapM (fillRow f names)

/-- search_space.py:570-578 with variable.py:250-257: one value of a row rounded to the precision. -/
noncomputable def roundVal : Kind → Val → Val
  | .real v, .real x => .real (v.round x)
  | _, x => x

/-- search_space.py:570-578 `SearchSpace.round` on one row. -/
noncomputable def roundRow (ks : List Kind) (r : Row) : Row := List.zipWith roundVal ks r

/-- base.py:378-399, the loop of `create_DoE`: at most `rounds` more samples; `sample k n` is what the sampler
of the free sub-space returns when `n` points are requested and `k` rounds remain after this one. -/
noncomputable def doeLoop (vars : Vars) (fixed : List (String × Val)) (data : List Row)
    (sample : ℕ → ℤ → List Row) : ℕ → ℤ → List Row → Option (List Row)
  | 0, _, acc => some acc
  | k + 1, n, acc =>
    if n = 0 then some acc
    else
      (fillin (vars.map Prod.fst) (some fixed) (sample k n)).bind (fun X =>
        if X.isEmpty then doeLoop vars fixed data sample k n acc
        else
          let X := preEvalCheck (vars.map Prod.snd) data (X.map (roundRow (vars.map Prod.snd)))
          doeLoop vars fixed data sample k (n - X.length) (acc ++ X))

/-- base.py:362-400 `create_DoE`: `count > 3` ends the loop after the fourth sample. -/
noncomputable def createDoE (vars : Vars) (fixed : Option (List (String × Val))) (data : List Row)
    (sample : ℕ → ℤ → List Row) (n : ℤ) : Option (List Row) :=
  doeLoop vars (fixed.getD []) data sample 4 n []

/-- Exceptions leaving `ask`. -/
inductive AskErr where
  | empty            -- base.py:293-294 `AskEmptyError`
  | shape            -- utils.py:156
  | notImplemented   -- base.py:496-497: `BO` has no batch strategy
deriving DecidableEq

/-- What `ask` reads from the optimiser: variables, recorded points (bayes_opt.py:36-37), whether a fitted model
exists, the class (`ParallelBO` or `BO`) and the default sizes (base.py:106, 139-149). -/
structure AskState where
  vars : Vars
  data : List Row
  fitted : Bool
  parallel : Bool
  nPoint : ℤ
  doeSize : ℤ

/-- base.py:448-480 `arg_max_acquisition`: `best i` is the `i`-th result of the acquisition optimiser over the
free sub-space, `[]` when no feasible point was found. -/
def argMaxAcquisition (s : AskState) (n : ℤ) (fixed : Option (List (String × Val))) (best : ℕ → Row) :
    Except AskErr (List Row) :=
  let run : Except AskErr (List Row) :=
    if n > 1 then
      if s.parallel then .ok ((List.range n.toNat).map best) else .error .notImplemented
    else .ok [best 0]
  run.bind (fun cands =>
    match fillin (s.vars.map Prod.fst) fixed (cands.filter (fun c => !c.isEmpty)) with
    | none => .error .shape
    | some X => .ok X)

/-- `none` from the random design is the shape error. -/
def liftShape {α : Type*} : Option α → Except AskErr α
  | none => .error .shape
  | some a => .ok a

/-- base.py:272-290: the candidates collected by `ask`. -/
noncomputable def askPoints (s : AskState) (n? : Option ℤ) (fixed : Option (List (String × Val)))
    (best : ℕ → Row) (sample : ℕ → ℤ → List Row) : Except AskErr (List Row) :=
  if s.fitted then
    let n := n?.getD s.nPoint
    (argMaxAcquisition s n fixed best).bind (fun C =>
      let X := preEvalCheck (s.vars.map Prod.snd) s.data C
      if (X.length : ℤ) < n then
        (liftShape (createDoE s.vars fixed s.data sample (n - X.length))).map (X ++ ·)
      else .ok X)
  else liftShape (createDoE s.vars fixed s.data sample (n?.getD s.doeSize))

/-- base.py:258-307 `ask`; the conversion to lists or dictionaries at the end is not modelled. -/
noncomputable def ask (s : AskState) (n? : Option ℤ) (fixed : Option (List (String × Val)))
    (best : ℕ → Row) (sample : ℕ → ℤ → List Row) : Except AskErr (List Row) :=
  (askPoints s n? fixed best sample).bind (fun X => if X.isEmpty then .error .empty else .ok X)

end Verif.Model
