import Mathlib.Analysis.SpecialFunctions.Pow.Real

/-!
# Model of the dynamic penalty (`bayes_optim/utils/utils.py:272-344`)

Numbers are reals (rounding is not modelled).  A constraint function returns the list of its values, or `none` if it
raises; a scalar result is a list of length one.
-/
namespace Verif.Model

/-- The argument `X`: one point, or a batch of points. -/
inductive PenArg (α : Type*) where
  | point (x : List α)
  | batch (X : List (List α))

/-- What a constraint function is called with: a point, or (utils.py:315, when the first coordinate of a single
point is itself a collection, for instance the value of a `Subset` variable) a single coordinate. -/
inductive Cand (α : Type*) where
  | point (x : List α)
  | coord (v : α)

/-- Possible exceptions. -/
inductive PenErr where
  | index
  | constraint
  deriving DecidableEq

/-- utils.py:315-317: `X = [X]` unless the first entry of `X` is iterable and not a string (`iter`).  A batch whose
rows numpy would turn into a three-dimensional table (all entries tuples of one length) is treated like any other
batch. -/
def penRows {α : Type*} (iter : α → Bool) : PenArg α → Except PenErr (List (Cand α))
  | .point [] => .error .index
  | .point (v :: x) => if iter v then .ok ((v :: x).map .coord) else .ok [.point (v :: x)]
  | .batch [] => .error .index
  | .batch (r :: X) => .ok ((r :: X).map .point)

/-- Do all rows have the length of the first one? -/
def sameLength (V : List (List ℝ)) : Bool := V.all (fun v => v.length == (V.headD []).length)

/-- utils.py:323-326 and 331-334: the table of constraint values; an exception of the function, and rows of different
lengths, become `ConstraintEvaluationError`. -/
def constraintTable {α : Type*} (f : Cand α → Option (List ℝ)) (X : List (Cand α)) : Except PenErr (List (List ℝ)) :=
  match X.mapM f with
  | none => .error .constraint
  | some V => if sameLength V then .ok V else .error .constraint

/-- utils.py:327-328 for one row. -/
noncomputable def eqTerm (eps : ℝ) (v : List ℝ) : ℝ := (v.map (fun a => |if |a| ≤ eps then 0 else a|)).sum

/-- utils.py:338-339 for one row. -/
noncomputable def ineqTerm (beta : ℝ) (v : List ℝ) : ℝ := (v.map (fun a => |if a ≤ 0 then 0 else a| ^ beta)).sum

/-- utils.py:322-328 / 330-339: the contributions of one optional constraint function, one per row. -/
def penTerms {α : Type*} (term : List ℝ → ℝ) (f : Option (Cand α → Option (List ℝ))) (X : List (Cand α)) :
    Except PenErr (List ℝ) :=
  match f with
  | none => .ok (X.map (fun _ => 0))
  | some f => (constraintTable f X).map (fun V => V.map term)

/-- The numeric parameters (utils.py:276-280). -/
structure PenPar where
  t : ℝ
  C : ℝ
  alpha : ℝ
  beta : ℝ
  eps : ℝ
  minimize : Bool

/-- The default values (utils.py:274-280). -/
noncomputable def PenPar.default (t : ℝ) (minimize : Bool) : PenPar := ⟨t, 1 / 2, 1, 3 / 2, 1 / 10, minimize⟩

/-- utils.py:341: scaling and sign. -/
noncomputable def penScale (par : PenPar) (p : ℝ) : ℝ :=
  (par.C * par.t) ^ par.alpha * p * (if par.minimize then 1 else -1)

/-- utils.py:272-344 `dynamic_penalty`. -/
noncomputable def dynamicPenalty {α : Type*} (iter : α → Bool) (h g : Option (Cand α → Option (List ℝ))) (par : PenPar)
    (X : PenArg α) : Except PenErr (List ℝ) :=
  (penRows iter X).bind (fun rows =>
    (penTerms (eqTerm par.eps) h rows).bind (fun p1 =>
      (penTerms (ineqTerm par.beta) g rows).map (fun p2 =>
        (List.zipWith (· + ·) p1 p2).map (penScale par))))

end Verif.Model
