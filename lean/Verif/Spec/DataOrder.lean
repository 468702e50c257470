import Verif.Model.Learner
import Verif.Model.Likelihood
import Verif.Spec.LearnGp
import Verif.Spec.Optimizer

/-! # Specification for C181: the same observations, made in another order -/
namespace Verif.Spec
open Verif.Model Matrix

/-- Two optimisers have recorded the same observations, perhaps in another order and under other labels, have spent the same number of evaluations and have stopped for the
same reasons. -/
structure SameObservations (s s' : OptState Row ℝ) : Prop where
  begun : s'.data.isSome = s.data.isSome
  observed : ((s'.data.getD []).map fun r => (r.x, r.f)).Perm ((s.data.getD []).map fun r => (r.x, r.f))
  evaluations : s'.evalCount = s.evalCount
  budget : s'.stopMaxFEs = s.stopMaxFEs
  target : s'.stopFtarget = s.stopFtarget

/-- What the surrogate has learnt does not depend on the order of the data. -/
structure OrderFree {G : Type*} (L : Learner G) : Prop where
  variance : ∀ i t t', t'.Perm t → (L.fit i t').sigma2 = (L.fit i t).sigma2
  predict : ∀ i t t', t'.Perm t → L.predict i t' = L.predict i t
  fits : ∀ i t t', t'.Perm t → L.fitOk i t' = L.fitOk i t

/-- Two runs end alike: both return a point of the same value, both raise or both go on. -/
def EndsAlike : FullEnd → FullEnd → Prop
  | .stopped r, .stopped r' => r'.f = r.f
  | .raised, .raised => True
  | .running, .running => True
  | _, _ => False

/-- The optimiser after calls of `tell` that all return. -/
noncomputable def afterTelling (cfg : Cfg ℝ) (s : OptState Row ℝ) : List (TellArgs Row ℝ) → Option (OptState Row ℝ)
  | [] => some s
  | a :: as =>
    match tell cfg s a with
    | (s', .ok _) => afterTelling cfg s' as
    | (_, .error _) => none

/-- A Gaussian process: the factorisation routines, the correlation function, the trend with its derivatives and, if they are given, its coefficients, and the search for
the parameters, which sees for any parameters the likelihood and the two variances that belong to it. -/
structure GpDesign (n k : ℕ) where
  chol : ∀ N, Matrix (Fin N) (Fin N) ℝ → Option (Matrix (Fin N) (Fin N) ℝ)
  qr : ∀ N, Matrix (Fin N) (Fin k) ℝ → Matrix (Fin N) (Fin k) ℝ × Matrix (Fin k) (Fin k) ℝ
  name : CorrName
  basis : (Fin n → ℝ) → Fin k → ℝ
  basisDx : (Fin n → ℝ) → Matrix (Fin k) (Fin n) ℝ
  beta : Option (Fin k → ℝ)
  choose : ℕ → (GpMode × List ℝ → Option (ℝ × ℝ × ℝ)) → GpMode × List ℝ

variable {n k N : ℕ}

/-- The correlation with the parameters `theta`. -/
noncomputable def GpDesign.correlation (g : GpDesign n k) (theta : List ℝ) (d : Fin n → ℝ) : ℝ := (corr g.name theta d).getD 0

/-- What the search sees: the likelihood of parameters given the samples `X` with the values `y`. -/
noncomputable def GpDesign.likelihood (g : GpDesign n k) (X : Fin N → Fin n → ℝ) (y : Fin N → ℝ) (p : GpMode × List ℝ) : Option (ℝ × ℝ × ℝ) :=
  (llfConcentrated (g.chol N) (g.qr N) p.1 (of (correlationMatrix (g.correlation p.2) X)) (of fun i => g.basis (X i)) g.beta y).map
    fun q => (q.1, q.2.sigma2, q.2.noiseVar)

open Classical in
/-- The fitted model: mode, parameters, variance and factors; `none` if fitting raises, be it that the trend cannot be estimated, that the likelihood is invalid or that a
factorisation fails. -/
noncomputable def GpDesign.fitted (g : GpDesign n k) (i : ℕ) (X : Fin N → Fin n → ℝ) (y : Fin N → ℝ) : Option (List ℝ × ℝ × GpAux N k) :=
  if g.beta = none → FullRank (of fun i => g.basis (X i)) then
    let p := g.choose i (g.likelihood X y)
    (g.likelihood X y p).bind fun q =>
      (computeAux (g.chol N) (g.qr N) (gpMatrix p.1 (of (correlationMatrix (g.correlation p.2) X))) (of fun i => g.basis (X i)) g.beta y).map fun a => (p.2, q.2.1, a)
  else none

/-- What the model predicts at `x`: mean, mean squared error and coordinate `j` of their gradients. -/
noncomputable def GpDesign.predicted (g : GpDesign n k) (i : ℕ) (X : Fin N → Fin n → ℝ) (y : Fin N → ℝ) (x : Fin n → ℝ) (j : ℕ) : AcqPred :=
  match g.fitted i X y with
  | none => ⟨0, 0, 0, 0⟩
  | some (theta, sigma2, a) =>
    let r := corrVector (g.correlation theta) X x
    let rDx : Matrix (Fin N) (Fin n) ℝ := of fun l c => ((corrDx g.name theta X x r).map fun D => D c l).getD 0
    { mean := gpMean a g.beta (g.basis x) r
      mse := gpMse a g.beta sigma2 (g.basis x) r
      meanDx := if h : j < n then gpMeanDx a g.beta (g.basisDx x) rDx ⟨j, h⟩ else 0
      mseDx := if h : j < n then gpMseDx a g.beta sigma2 (g.basis x) r (g.basisDx x) rDx ⟨j, h⟩ else 0 }

/-- The surrogate of `L` is a Gaussian process over the real coordinates of the points. -/
structure LearnsByGp {G : Type*} (g : GpDesign n k) (L : Learner G) : Prop where
  variance : ∀ i t, (L.fit i t).sigma2 = (g.fitted i (fun j : Fin t.length => coordinates n t[j].1) fun j => t[j].2).map fun q => q.2.1
  fits : ∀ i t, L.fitOk i t = (g.fitted i (fun j : Fin t.length => coordinates n t[j].1) fun j => t[j].2).isSome
  predict : ∀ i t x j, L.predict i t x j = g.predicted i (fun j : Fin t.length => coordinates n t[j].1) (fun j => t[j].2) (coordinates n x) j

end Verif.Spec
