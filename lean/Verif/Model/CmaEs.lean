import Verif.Model.BoxConstraint
import Mathlib.Analysis.SpecialFunctions.Pow.Real
import Mathlib.Data.Matrix.Mul
import Mathlib.Data.Matrix.Diagonal

/-!
# Model of the CMA-ES for the parameters of Gaussian processes: `bayes_optim/surrogate/gaussian_process/cma_es.py` and its call in
`bayes_optim/surrogate/gaussian_process/gpr.py:1164-1178`

Numbers are reals, the objective returns a finite number.  Random numbers, `argsort` and `eigh` are arguments.  Modelled is the standard mutation
(`sampling_method = 0`, the only one the library uses) with finite bounds that differ (for equal bounds see `BoxConstraint`), `damps` and
`_mu` not given in `opts`, and no recording of the history.  The objective is evaluated point by point (cma_es.py:390).  Of
the criteria of `check_stop_criteria` those that set a flag are modelled for `ftarget` and `maxfevals` only (the others are flags
that nothing but the test in line 601 reads), and the one that resets the state.
-/
namespace Verif.Model

open Matrix

noncomputable section

variable {d l : ℕ}

/-- cma_es.py:120: the default number of offspring. -/
def cmaLambda (d : ℕ) : ℕ := 4 + ⌊3 * Real.log d⌋₊

/-- cma_es.py:123-124: the number of parents. -/
def cmaMu (l : ℕ) : ℕ := ⌈((l : ℝ) - 1) / 2⌉₊

/-- cma_es.py:129, entry `i` (counted from 0). -/
def cmaRawWeight (l i : ℕ) : ℝ := Real.log (((l : ℝ) - 1) / 2 + 1) - Real.log (i + 1)

/-- cma_es.py:130. -/
def cmaWeight (l i : ℕ) : ℝ := cmaRawWeight l i / ∑ j ∈ Finset.range (cmaMu l), cmaRawWeight l j

/-- cma_es.py:131. -/
def cmaMueff (l : ℕ) : ℝ :=
  (∑ j ∈ Finset.range (cmaMu l), cmaWeight l j) ^ 2 / ∑ j ∈ Finset.range (cmaMu l), cmaWeight l j ^ 2

/-- cma_es.py:145. -/
def cmaCc (d l : ℕ) : ℝ := (4 + cmaMueff l / d) / (d + 4 + 2 * cmaMueff l / d)

/-- cma_es.py:146. -/
def cmaCs (d l : ℕ) : ℝ := (cmaMueff l + 2) / (d + cmaMueff l + 5)

/-- cma_es.py:148, 152. -/
def cmaC1 (d l : ℕ) : ℝ :=
  if cmaMu l = 1 then min 2 ((l : ℝ) / 3) / (((d : ℝ) + 1.3) ^ 2 + cmaMueff l) else 2 / (((d : ℝ) + 1.3) ^ 2 + cmaMueff l)

/-- cma_es.py:149, 153-155. -/
def cmaDamps (d l : ℕ) : ℝ :=
  if cmaMu l = 1 then 0.3 + 2 * cmaMueff l / l + cmaCs d l
  else 1 + 2 * max 0 (Real.sqrt ((cmaMueff l - 1) / ((d : ℝ) + 1)) - 1) + cmaCs d l

/-- cma_es.py:156-161. -/
def cmaCmu (d l : ℕ) : ℝ :=
  min (1 - cmaC1 d l) (2 * (cmaMueff l - 2 + 1 / cmaMueff l) / (((d : ℝ) + 2) ^ 2 + cmaMueff l))

/-- cma_es.py:193. -/
def cmaChiN (d : ℕ) : ℝ := (d : ℝ) ^ (0.5 : ℝ) * (1 - 1 / (4 * d) + 1 / (21 * (d : ℝ) ^ 2))

/-- The attributes that the loop changes.  `fopt = ⊤` is the initial `np.inf`; `ftarget` and `maxfevals` are the entries of `stop_dict`. -/
structure CmaEsState (d : ℕ) where
  wcm : Fin d → ℝ
  sigma : ℝ
  pc : Fin d → ℝ
  ps : Fin d → ℝ
  C : Matrix (Fin d) (Fin d) ℝ
  eVector : Matrix (Fin d) (Fin d) ℝ
  eValue : Fin d → ℝ
  invsqrtC : Matrix (Fin d) (Fin d) ℝ
  xopt : Fin d → ℝ
  fopt : WithTop ℝ
  evalCount : ℕ
  eigenEval : ℕ
  ftarget : Bool
  maxfevals : Bool

/-- cma_es.py:75-141: the initial state. -/
def cmaEsInit (start : Fin d → ℝ) (sigma0 : ℝ) : CmaEsState d where
  wcm := start
  sigma := sigma0
  pc := 0
  ps := 0
  C := 1
  eVector := 1
  eValue := fun _ => 1
  invsqrtC := 1
  xopt := start
  fopt := ⊤
  evalCount := 0
  eigenEval := 0
  ftarget := false
  maxfevals := false

/-- cma_es.py:381 with `z = randn(dim, _lambda)` (line 378) and 384: offspring number `j`. -/
def cmaOffspring (lb ub : Fin d → ℝ) (s : CmaEsState d) (z : Fin l → Fin d → ℝ) (j : Fin l) : Fin d → ℝ :=
  fun i => reflect (lb i) (ub i) (s.wcm i + s.sigma * (s.eVector *ᵥ (fun a => s.eValue a * z j a)) i)

/-- cma_es.py:584: `dot(offspring[:, sel], weights)` with `sel = fitness_rank[0:_mu]` (line 580); `r` is `fitness_rank`. -/
def cmaMean (x : Fin l → Fin d → ℝ) (r : Fin l → Fin l) : Fin d → ℝ :=
  fun i => ∑ j : Fin l, if j.val < cmaMu l then cmaWeight l j * x (r j) i else 0

open Classical in
/-- cma_es.py:404-406, as a number. -/
def cmaHsig (d l evalCount : ℕ) (ps : Fin d → ℝ) : ℝ :=
  if (∑ i, ps i ^ 2) / (1 - (1 - cmaCs d l) ^ (2 * (evalCount : ℝ) / l)) / d < 2 + 4 / ((d : ℝ) + 1) then 1 else 0

/-- cma_es.py:395-418 `update`; `s` is the state before, `wcm` the new mean, `x` the offspring, `r` their ranking.  `evalCount` is the new
count. -/
def cmaUpdate (s : CmaEsState d) (wcm : Fin d → ℝ) (x : Fin l → Fin d → ℝ) (r : Fin l → Fin l) (evalCount : ℕ) : CmaEsState d :=
  let cc := cmaCc d l
  let cs := cmaCs d l
  let c1 := cmaC1 d l
  let cmu := cmaCmu d l
  let step : Fin d → ℝ := fun i => (wcm i - s.wcm i) / s.sigma
  let ps : Fin d → ℝ := fun i => (1 - cs) * s.ps i + Real.sqrt (cs * (2 - cs) * cmaMueff l) * (s.invsqrtC *ᵥ step) i
  let hsig := cmaHsig d l evalCount ps
  let pc : Fin d → ℝ := fun i => (1 - cc) * s.pc i + hsig * Real.sqrt (cc * (2 - cc) * cmaMueff l) * step i
  let offset : Fin l → Fin d → ℝ := fun j i => (x (r j) i - s.wcm i) / s.sigma
  { s with
    wcm := wcm
    ps := ps
    pc := pc
    C := of fun a b => (1 - c1 - cmu) * s.C a b + c1 * (pc a * pc b + (1 - hsig) * cc * (2 - cc) * s.C a b) +
      cmu * ∑ j : Fin l, if j.val < cmaMu l then offset j a * (cmaWeight l j * offset j b) else 0
    sigma := s.sigma * Real.exp ((Real.sqrt (∑ i, ps i ^ 2) / cmaChiN d - 1) * cs / cmaDamps d l)
    evalCount := evalCount }

/-- cma_es.py:428: `triu(C) + triu(C, 1).T`. -/
def cmaSymmetrise (C : Matrix (Fin d) (Fin d) ℝ) : Matrix (Fin d) (Fin d) ℝ := of fun a b => if a ≤ b then C a b else C b a

open Classical in
/-- cma_es.py:425-448 `updateBD`; `eigh` returns the eigenvalues and the matrix of eigenvectors.  With a negative eigenvalue only a flag is set. -/
def cmaUpdateBD (eigh : Matrix (Fin d) (Fin d) ℝ → (Fin d → ℝ) × Matrix (Fin d) (Fin d) ℝ) (s : CmaEsState d) : CmaEsState d :=
  let e := eigh (cmaSymmetrise s.C)
  if ∃ i, e.1 i < 0 then s
  else
    let v : Fin d → ℝ := fun i => Real.sqrt (e.1 i)
    { s with eValue := v, eVector := e.2, invsqrtC := e.2 * (diagonal fun i => (v i)⁻¹) * e.2ᵀ }

/-- cma_es.py:552-559 `reset_state`. -/
def cmaReset (sigma0 : ℝ) (s : CmaEsState d) : CmaEsState d :=
  { s with C := 1, eVector := 1, eValue := fun _ => 1, invsqrtC := 1, pc := 0, ps := 0, sigma := sigma0 }

open Classical in
/-- cma_es.py:471-550 `check_stop_criteria`, as far as stated above. -/
def cmaEsCheckStop (sigma0 ftarget : ℝ) (budget : ℕ) (s : CmaEsState d) : CmaEsState d :=
  let s := { s with ftarget := decide (s.fopt ≤ (ftarget : WithTop ℝ)), maxfevals := decide (budget ≤ s.evalCount) }
  if s.sigma < 1e-16 ∨ 1e6 < s.sigma then cmaReset sigma0 s else s

open Classical in
/-- cma_es.py:569-599: one pass of the inner loop; `f` is `self.fitnessfunc` and `rank` is `argsort`. -/
def cmaGeneration [NeZero l] (lb ub : Fin d → ℝ) (sigma0 ftarget : ℝ) (budget : ℕ) (f : (Fin d → ℝ) → ℝ) (rank : (Fin l → ℝ) → Fin l → Fin l)
    (eigh : Matrix (Fin d) (Fin d) ℝ → (Fin d → ℝ) × Matrix (Fin d) (Fin d) ℝ) (z : Fin l → Fin d → ℝ) (s : CmaEsState d) : CmaEsState d :=
  let x := cmaOffspring lb ub s z
  let r := rank (fun j => f (x j))
  let s1 := cmaUpdate s (cmaMean x r) x r (s.evalCount + l)
  let s2 :=
    if (s1.evalCount : ℝ) - s1.eigenEval > l / (cmaC1 d l + cmaCmu d l) / d / 10 then
      cmaUpdateBD eigh { s1 with eigenEval := s1.evalCount }
    else s1
  let s3 := if ((f (x (r 0)) : ℝ) : WithTop ℝ) < s2.fopt then { s2 with fopt := ((f (x (r 0)) : ℝ) : WithTop ℝ), xopt := x (r 0) } else s2
  cmaEsCheckStop sigma0 ftarget budget s3

/-- The state after `n` generations, if the loop has not been left; `z n` are the random numbers of generation `n`. -/
def cmaEsRun [NeZero l] (lb ub : Fin d → ℝ) (sigma0 ftarget : ℝ) (budget : ℕ) (f : (Fin d → ℝ) → ℝ) (rank : (Fin l → ℝ) → Fin l → Fin l)
    (eigh : Matrix (Fin d) (Fin d) ℝ → (Fin d → ℝ) × Matrix (Fin d) (Fin d) ℝ) (z : ℕ → Fin l → Fin d → ℝ) (start : Fin d → ℝ) : ℕ → CmaEsState d
  | 0 => cmaEsInit start sigma0
  | n + 1 => cmaGeneration lb ub sigma0 ftarget budget f rank eigh (z n) (cmaEsRun lb ub sigma0 ftarget budget f rank eigh z start n)

/-- The Python values that the test for leaving the loop meets: booleans, lists, and the view that `dict.values()` returns. -/
inductive PyValue where
  | bool (b : Bool)
  | list (l : List Bool)
  | dictValues (l : List Bool)

/-- `np.array`: a list becomes an array of its elements; a view of a dictionary is not a sequence, the array has the view as its only element. -/
def pyArray : PyValue → List PyValue
  | .list l => l.map .bool
  | v => [v]

/-- `v == True` in Python; a view of a dictionary's values equals nothing but itself. -/
def pyEqTrue : PyValue → Bool
  | .bool b => b
  | _ => false

/-- cma_es.py:601 `any(array(self.stop_dict.values()) == True)`; `flags` are the values of the dictionary. -/
def cmaLeaves (flags : List Bool) : Bool := (pyArray (.dictValues flags)).any pyEqTrue

/-- cma_es.py:567-602: the inner loop is left after generation `n`, counted from 0; `others n` are the values of the further flags. -/
def CmaLeavesAt [NeZero l] (lb ub : Fin d → ℝ) (sigma0 ftarget : ℝ) (budget : ℕ) (f : (Fin d → ℝ) → ℝ) (rank : (Fin l → ℝ) → Fin l → Fin l)
    (eigh : Matrix (Fin d) (Fin d) ℝ → (Fin d → ℝ) × Matrix (Fin d) (Fin d) ℝ) (z : ℕ → Fin l → Fin d → ℝ) (start : Fin d → ℝ)
    (others : ℕ → List Bool) (n : ℕ) : Prop :=
  let flags := fun m => (cmaEsRun lb ub sigma0 ftarget budget f rank eigh z start (m + 1)).ftarget ::
    (cmaEsRun lb ub sigma0 ftarget budget f rank eigh z start (m + 1)).maxfevals :: others m
  cmaLeaves (flags n) = true ∧ ∀ m < n, cmaLeaves (flags m) = false

/-- gpr.py:1121 and 1164-1176, cma_es.py:82 with `is_minimize=False`: the function that the CMA-ES minimises, for the log likelihood `llf` of
the parameters `10 ** u`. -/
def cmaGprFitness {p : ℕ} (llf : (Fin p → ℝ) → ℝ) (u : Fin p → ℝ) : ℝ := -(-1 * llf (fun i => (10 : ℝ) ^ (u i)))

end

end Verif.Model
