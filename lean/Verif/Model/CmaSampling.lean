import Verif.Model.CmaEs

/-!
# The sampling methods of the CMA-ES: `bayes_optim/surrogate/gaussian_process/cma_es.py:233-381` (`mutation`)

A matrix `z` with a column for each offspring is the list of its columns.  Random numbers are arguments.
-/
namespace Verif.Model

noncomputable section

variable {d : ℕ}

/-- The random numbers of a generation: columns of two matrices of normal numbers, columns of the orthogonal factor of a third one (`qr(…)[0]`), and
numbers with the chi distribution. -/
structure CmaRandom (d : ℕ) where
  normal : ℕ → Fin d → ℝ
  normal2 : ℕ → Fin d → ℝ
  q : ℕ → Fin d → ℝ
  chi : ℕ → ℝ

/-- The first `n` columns. -/
def columnsUpTo (f : ℕ → Fin d → ℝ) (n : ℕ) : List (Fin d → ℝ) := (List.range n).map f

/-- Lines 267-275 and 279-286: the first columns are orthogonal, the others normal. -/
def orthogonalColumn (half : ℕ) (R : CmaRandom d) (i : ℕ) : Fin d → ℝ := if i < min d half then R.chi i • R.q i else R.normal i

/-- Lines 350-358: `q` less its projection on `z`, with the length of `q`. -/
def orthogonalPartner (z q : Fin d → ℝ) : Fin d → ℝ :=
  let p : Fin d → ℝ := q - ((q ⬝ᵥ z) / (z ⬝ᵥ z)) • z
  (Real.sqrt (q ⬝ᵥ q) / Real.sqrt (p ⬝ᵥ p)) • p

/-- The methods by the number in `sampling_method` (lines 248, 261, 266, 292, 320, 337, 346). -/
inductive CmaMode where
  | mirrored | derandomized | orthogonalMirrored | orthogonalMirrored8 | rotation | gramSchmidt | pairs | standard
  deriving DecidableEq

/-- See `CmaMode`. -/
def cmaModeOf (m : ℤ) : CmaMode :=
  if m = 1 ∨ m = 11 then .mirrored
  else if m = 3 then .derandomized
  else if m = 4 ∨ m = 7 ∨ m = 44 then .orthogonalMirrored
  else if m = 8 then .orthogonalMirrored8
  else if m = 5 then .rotation
  else if m = 6 then .gramSchmidt
  else if m = 9 then .pairs
  else .standard

/-- Lines 249-258 (also 267-289, 347-374): for an odd sum of `evalcount` and `_lambda` there are `ceil(_lambda / 2)` columns, to which the partners of all but the last
are appended; otherwise there are `floor(_lambda / 2)`, with the partners of all, after the column in `aux`, if any. -/
def pairUp (l evalCount : ℕ) (aux : List (Fin d → ℝ)) (first partner : ℕ → ℕ → Fin d → ℝ) : List (Fin d → ℝ) :=
  if (evalCount + l) % 2 ≠ 0 then columnsUpTo (first ((l + 1) / 2)) ((l + 1) / 2) ++ columnsUpTo (partner ((l + 1) / 2)) ((l + 1) / 2 - 1)
  else aux ++ (columnsUpTo (first (l / 2)) (l / 2) ++ columnsUpTo (partner (l / 2)) (l / 2))

/-- Lines 233-380: the matrix `z`; `none` is an exception.  In line 294 (and 306) `half` is a number of type float, which `zeros` rejects; in line 321 `z` gets no value.
Line 338 leaves the first columns zero, `q` and `l` are not used. -/
def cmaColumns (mode : CmaMode) (l evalCount : ℕ) (aux : List (Fin d → ℝ)) (R : CmaRandom d) : Option (List (Fin d → ℝ)) :=
  match mode with
  | .mirrored => some (pairUp l evalCount aux (fun _ => R.normal) fun _ i => -R.normal i)
  | .derandomized => some (columnsUpTo (fun i => (cmaChiN d / Real.sqrt (R.normal i ⬝ᵥ R.normal i)) • R.normal i) l)
  | .orthogonalMirrored => some (pairUp l evalCount aux (fun half => orthogonalColumn half R) fun half i => -orthogonalColumn half R i)
  | .orthogonalMirrored8 => none
  | .rotation => none
  | .gramSchmidt => some (columnsUpTo (fun i => if i < min d l then 0 else R.normal i) l)
  | .pairs => some (pairUp l evalCount aux (fun _ => R.normal) fun _ i => orthogonalPartner (R.normal i) (R.normal2 i))
  | .standard => some (columnsUpTo R.normal l)

/-- Generation number `k`, counted from 0: `evalcount` grows by `_lambda` in each (line 391), and `self.aux` is the empty array of line 194 in all of them, since
lines 251, 276 and 359 assign a local variable. -/
def cmaDraws (mode : CmaMode) (l k : ℕ) (R : CmaRandom d) : Option (List (Fin d → ℝ)) := cmaColumns mode l (k * l) [] R

/-- Line 381, one offspring, before the handling of the bounds. -/
def cmaCandidate (s : CmaEsState d) (z : Fin d → ℝ) : Fin d → ℝ := fun i => s.wcm i + s.sigma * (s.eVector.mulVec (fun a => s.eValue a * z a)) i

end

end Verif.Model
