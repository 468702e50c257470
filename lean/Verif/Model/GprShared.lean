import Verif.Model.Gpr

/-!
# Model of several Gaussian processes that live side by side: `bayes_optim/surrogate/gaussian_process/gpr.py` 229, 266-275
(`__init__`), 381-417 (`fit`), 486-511 (`predict`), 783-788 (`compute_beta_gamma`), `trend.py` 10-40

A trend object is mutable and is kept by reference, so that the coefficients of all trend objects form a store.  The
hyper-parameters that the search of `fit` ends with are an oracle, which may depend on the trend coefficients in use.  There is one
target column and the trend is a basis expansion with `k` functions.
-/
namespace Verif.Model

open Matrix

noncomputable section

variable {k : ℕ} {P : Type*}

/-- What the search of hyper-parameters ends with (gpr.py:385, 402-404): the mode with its variances, the correlation matrix of the
samples, `self.sigma2`, and the correlations of a point with the samples (line 488). -/
structure Chosen (N : ℕ) (P : Type*) where
  mode : GpMode
  R0 : Matrix (Fin N) (Fin N) ℝ
  sigma2 : ℝ
  r : P → Fin N → ℝ

/-- The arguments of one call of `fit`: the basis functions at the samples, the targets, and the outcome of the search for estimated
(`none`) or given coefficients of the trend. -/
structure FitInput (k : ℕ) (P : Type*) where
  N : ℕ
  F : Matrix (Fin N) (Fin k) ℝ
  y : Fin N → ℝ
  search : Option (Fin k → ℝ) → Chosen N P

/-- The attributes that `fit` leaves on the model (gpr.py:402-412, 788). -/
structure FittedPart (k : ℕ) (P : Type*) where
  N : ℕ
  aux : GpAux N k
  sigma2 : ℝ
  r : P → Fin N → ℝ

/-- A `GaussianProcess`: the reference `self.mean`, the flag `self.estimate_trend`, and the fitted attributes. -/
structure GpModel (k : ℕ) (P : Type*) where
  trend : ℕ
  estimate : Bool
  fitted : Option (FittedPart k P)

/-- The program state: `beta` of every trend object, and the models by name. -/
structure GpWorld (k : ℕ) (P : Type*) where
  beta : ℕ → Option (Fin k → ℝ)
  models : ℕ → Option (GpModel k P)

/-- What a program does with Gaussian processes. -/
inductive GpOp (k : ℕ) (P : Type*)
  | make (name trend : ℕ)
  | fit (name : ℕ) (data : FitInput k P)

/-- gpr.py:229, 272: the constructor keeps the trend object and decides whether its coefficients are estimated. -/
def gpMake (w : GpWorld k P) (name trend : ℕ) : GpWorld k P :=
  { w with models := Function.update w.models name (some { trend, estimate := (w.beta trend).isNone, fitted := none }) }

/-- The coefficients that `_compute_aux_var` works with (gpr.py:801, 809): none if they are estimated. -/
def usedBeta (w : GpWorld k P) (m : GpModel k P) : Option (Fin k → ℝ) := if m.estimate then none else w.beta m.trend

/-- gpr.py:381-417 and 783-788 for a search that ends; `none` is an exception.  Estimated coefficients are written to the trend object. -/
def gpFit (chol : ∀ N, Matrix (Fin N) (Fin N) ℝ → Option (Matrix (Fin N) (Fin N) ℝ))
    (qr : ∀ N, Matrix (Fin N) (Fin k) ℝ → Matrix (Fin N) (Fin k) ℝ × Matrix (Fin k) (Fin k) ℝ) (w : GpWorld k P) (name : ℕ)
    (d : FitInput k P) : Option (GpWorld k P) :=
  (w.models name).bind fun m =>
    let c := d.search (usedBeta w m)
    (computeAux (chol d.N) (qr d.N) (gpMatrix c.mode c.R0) d.F (usedBeta w m) d.y).map fun a =>
      { beta := if m.estimate then Function.update w.beta m.trend (some (gpBeta a none)) else w.beta
        models := Function.update w.models name (some { m with fitted := some { N := d.N, aux := a, sigma2 := c.sigma2, r := c.r } }) }

/-- One operation. -/
def gpOp (chol : ∀ N, Matrix (Fin N) (Fin N) ℝ → Option (Matrix (Fin N) (Fin N) ℝ))
    (qr : ∀ N, Matrix (Fin N) (Fin k) ℝ → Matrix (Fin N) (Fin k) ℝ × Matrix (Fin k) (Fin k) ℝ) (w : GpWorld k P) :
    GpOp k P → Option (GpWorld k P)
  | .make name trend => some (gpMake w name trend)
  | .fit name d => gpFit chol qr w name d

/-- A program; `none` if one of its operations raises. -/
def gpHistory (chol : ∀ N, Matrix (Fin N) (Fin N) ℝ → Option (Matrix (Fin N) (Fin N) ℝ))
    (qr : ∀ N, Matrix (Fin N) (Fin k) ℝ → Matrix (Fin N) (Fin k) ℝ × Matrix (Fin k) (Fin k) ℝ) (w : GpWorld k P)
    (h : List (GpOp k P)) : Option (GpWorld k P) :=
  h.foldlM (gpOp chol qr) w

/-- gpr.py:486-511 `predict` with `eval_MSE=True` at one point with basis functions `f`: the mean uses the coefficients that the
trend object has now (line 490, `trend.py` 34-37), the rest what `fit` stored.  `none` is an exception (not fitted). -/
def gpAsk (w : GpWorld k P) (name : ℕ) (f : P → Fin k → ℝ) (p : P) : Option (ℝ × ℝ) :=
  (w.models name).bind fun m =>
    m.fitted.bind fun t =>
      (w.beta m.trend).map fun b =>
        (f p ⬝ᵥ b + t.r p ⬝ᵥ gpGamma t.aux,
          gpMse t.aux (if m.estimate then none else some b) t.sigma2 (f p) (t.r p))

end

end Verif.Model
