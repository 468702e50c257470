import Verif.Model.Variables

/-!
# Model of `round` and `to_linear_scale` of search spaces: `bayes_optim/search_space/search_space.py` 569-588, 756-769, 775-781

Both methods take a list or an array and convert the columns of the real variables.  The model follows what happens to the
caller's array: numpy arrays are mutable and the method of the general class writes into its argument.

Simplified: a row of numbers and other values; a value that is not a number makes `astype(float)` fail (text that spells a
number, and `None`, are left out); the rows of an array without rows have no width to be checked.
-/
namespace Verif.Model

noncomputable section

/-- A value of a design. -/
inductive DesignEntry where
  | num (x : ℝ)
  | other (s : String)

/-- The element type of an array: `object`, `float` or `int`. -/
inductive ElemType where
  | object | float | int
deriving DecidableEq

/-- The argument: a list of rows, a single row as a list, an array of two dimensions or of one. -/
inductive DesignArg where
  | rows (x : List (List DesignEntry))
  | row (x : List DesignEntry)
  | array (t : ElemType) (x : List (List DesignEntry))
  | vector (t : ElemType) (x : List DesignEntry)

/-- The class of the space: `RealSpace`, one of the classes of discrete spaces, or the general `SearchSpace`. -/
inductive SpaceClass where
  | real | discrete | general
deriving DecidableEq

/-- A search space: its class and, for each column, the real variable or `none` (search_space.py:258-262 `real_id`). -/
structure DesignSpace where
  cls : SpaceClass
  vars : List (Option RealVar)

/-- What a call leaves behind: the returned array, and the argument afterwards. -/
structure Converted where
  result : List (List DesignEntry)
  argument : DesignArg

/-- A float written into an array: truncated towards zero if the elements are integers. -/
def writeAs (t : ElemType) (x : ℝ) : ℝ :=
  if t = .int then (if 0 ≤ x then (⌊x⌋ : ℝ) else (⌈x⌉ : ℝ)) else x

/-- search_space.py:577, 587 for one row: `X[:, real_id] = op(X[:, real_id].astype(float))`; `none` is an exception (no such
column, or not a number).  Columns beyond the variables stay. -/
def overwriteRow (op : RealVar → ℝ → ℝ) (t : ElemType) : List (Option RealVar) → List DesignEntry → Option (List DesignEntry)
  | [], es => some es
  | none :: vs, [] => overwriteRow op t vs []
  | none :: vs, e :: es => (overwriteRow op t vs es).map (e :: ·)
  | some v :: vs, .num x :: es => (overwriteRow op t vs es).map (.num (writeAs t (op v x)) :: ·)
  | some _ :: _, _ => none

/-- All rows; the assignment takes place after all of them are converted, so that an exception leaves the argument as it was. -/
def overwriteRows (op : RealVar → ℝ → ℝ) (t : ElemType) (vs : List (Option RealVar)) (x : List (List DesignEntry)) : Option (List (List DesignEntry)) :=
  x.mapM (overwriteRow op t vs)

/-- The rows of the argument seen as an array with two dimensions; `none` for a list of rows that is no matrix
(`np.array` then makes something else of it). -/
def matrixOf : DesignArg → Option (List (List DesignEntry))
  | .rows x => if x.isEmpty = false ∧ ∀ r ∈ x, r.length = (x.headD []).length then some x else none
  | .row x => some [x]
  | .array _ x => some x
  | .vector _ x => some [x]

/-- search_space.py:569-588, the general class: a list is turned into a new array of objects (line 571), an array with one dimension
is reshaped, which is a view (line 573), and the columns are overwritten. -/
def convertGeneral (op : RealVar → ℝ → ℝ) (vs : List (Option RealVar)) (a : DesignArg) : Option Converted :=
  (matrixOf a).bind fun x =>
    match a with
    | .rows _ => (overwriteRows op .object vs x).map fun y => ⟨y, a⟩
    | .row _ => (overwriteRows op .object vs x).map fun y => ⟨y, a⟩
    | .array t _ => (overwriteRows op t vs x).map fun y => ⟨y, .array t y⟩
    | .vector t _ => (overwriteRows op t vs x).map fun y => ⟨y, .vector t (y.headD [])⟩

/-- search_space.py:756-769 `RealSpace`: `astype(float)` makes a copy; the width is checked. -/
def convertReal (op : RealVar → ℝ → ℝ) (vs : List (Option RealVar)) (a : DesignArg) : Option Converted :=
  (matrixOf a).bind fun x =>
    if ∀ r ∈ x, r.length = vs.length then (overwriteRows op .float vs x).map fun y => ⟨y, a⟩ else none

/-- search_space.py:775-781, the discrete spaces: the argument is returned. -/
def convertDiscrete (a : DesignArg) : Option Converted := (matrixOf a).map fun x => ⟨x, a⟩

/-- The method of the class of the space. -/
def convertDesign (op : RealVar → ℝ → ℝ) (s : DesignSpace) (a : DesignArg) : Option Converted :=
  match s.cls with
  | .real => convertReal op s.vars a
  | .discrete => convertDiscrete a
  | .general => convertGeneral op s.vars a

/-- search_space.py:569-578, 756-761, 775-777 `round`. -/
def spaceRound (s : DesignSpace) (a : DesignArg) : Option Converted := convertDesign RealVar.round s a

/-- search_space.py:580-588, 764-769, 779-781 `to_linear_scale`. -/
def spaceToLinear (s : DesignSpace) (a : DesignArg) : Option Converted := convertDesign (fun v x => v.toLinear (some x)) s a

end

end Verif.Model
