import Verif.Model.Optimizer
import Verif.Model.Pcabo

/-!
# Histories of PCA-BO (`bayes_optim/extension.py:102-208`, class `PCABO`)

The numerical part of the fit (principal components, Gaussian process) is an oracle that may fail; the weights that precede it are those of
`Verif.Model.Pcabo`.  Logging is not modelled.
-/
namespace Verif.Model

/-- The exceptions of `PCABO.tell` and of the constructor. -/
inductive PcaErr where
  | shortValues   -- line 156, `new_y[i]`
  | emptyInput    -- solution.py:74
  | badLength     -- solution.py:99, `assert len(fitness) == obj.N`
  | dictMode      -- line 162 with base.py:190: unexpected keyword `n_eval`
  | warmKeyword   -- base.py:172: unexpected keyword `warm_start`
  | noRows        -- line 167, two empty tables
  | emptyData     -- line 169, no rows
  | nanWeights    -- lines 45-48: division by zero, PCA rejects NaN
  | fitFailed     -- lines 169-174: exception of the PCA or the Gaussian process

/-- The attributes (`_base.py:48-51`, extension.py:164-167). -/
structure PcaState (P : Type*) where
  evalCount : ℕ := 0
  iterCount : ℕ := 0
  data : Option (List (Rec P ℝ)) := none
  histF : List ℝ := []

/-- One call `tell(new_X, new_y)`; `fitOk` says whether PCA and Gaussian process succeed. -/
structure PcaCall (P : Type*) where
  X : List P
  vals : List (Obs ℝ)
  fitOk : Bool := true

variable {P : Type*}

/-- Lines 158-160: `np.arange(len(new_X))`, shifted by the number of recorded points. -/
def pcaLabels (k n : ℕ) : List String := (List.range n).map (fun i => toString (i + k))

/-- Lines 166-167: the rows with a finite value; `n_eval` is 1 (line 162). -/
def pcaKept : List ((P × Obs ℝ) × String) → List (Rec P ℝ)
  | [] => []
  | ((x, .fin v), l) :: rest => ⟨x, v, 1, l⟩ :: pcaKept rest
  | ((_, _), _) :: rest => pcaKept rest

open Classical in
/-- Lines 168-175: the fit on the extended data. -/
noncomputable def pcaRefit (minimize fitOk : Bool) (d : List (Rec P ℝ)) : Except PcaErr Unit :=
  if d.isEmpty then .error .emptyData
  else if (rawWeights minimize (d.map (fun r => r.f))).sum = 0 then .error .nanWeights
  else if fitOk = false then .error .fitFailed
  else .ok ()

/-- The number of recorded points, for line 160. -/
def pcaCount (s : PcaState P) : ℕ := (s.data.map (fun d => d.length)).getD 0

/-- Line 167: the extended data; `none` is the exception for two empty tables. -/
def pcaExtend (s : PcaState P) (kept : List (Rec P ℝ)) : Option (List (Rec P ℝ)) :=
  match s.data with
  | none => some kept
  | some d => if (d ++ kept).isEmpty then none else some (d ++ kept)

/-- Lines 153-175 `tell`; `evalDict` is `eval_type == "dict"`. -/
noncomputable def pcaTell (minimize evalDict : Bool) (s : PcaState P) (a : PcaCall P) : PcaState P × Except PcaErr Unit :=
  if a.vals.length < a.X.length then (s, .error .shortValues)
  else if evalDict then (s, .error .dictMode)
  else if a.X.isEmpty then (s, .error .emptyInput)
  else if a.vals.length ≠ a.X.length then (s, .error .badLength)
  else
    let s1 := { s with iterCount := s.iterCount + 1, evalCount := s.evalCount + a.X.length }
    match pcaExtend s (pcaKept ((a.X.zip a.vals).zip (pcaLabels (pcaCount s) a.X.length))) with
    | none => (s1, .error .noRows)
    | some d => ({ s1 with data := some d }, pcaRefit minimize a.fitOk d)

/-- The state after a sequence of calls; the caller catches the exceptions. -/
noncomputable def pcaHistory (minimize evalDict : Bool) (calls : List (PcaCall P)) : PcaState P :=
  calls.foldl (fun s a => (pcaTell minimize evalDict s a).1) {}

/-- base.py:153-172 (lines 156-158 and 172) as inherited: `warm_data` given to the constructor of `PCABO` ends in `self.tell(X, y, warm_start=True)`. -/
def pcaWarm {α : Type*} (warm : Option (List α)) : Except PcaErr Unit :=
  match warm with
  | none => .ok ()
  | some l => if l.isEmpty then .ok () else .error .warmKeyword

/-- Lines 143-148 `xopt`. -/
noncomputable def pcaXopt (minimize : Bool) (s : PcaState P) : Option (Rec P ℝ) := s.data.bind (incumbent minimize)

end Verif.Model
