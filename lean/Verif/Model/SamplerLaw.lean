import Verif.Model.Sampling
import Verif.Model.Metropolis

/-!
# The constrained sampler with its proposals and its acceptance (`search_space/samplers.py`)
-/
namespace Verif.Model

/-- samplers.py:147 `prob = max(0.5 * np.exp(-1 * t), 1 / self.N_d)`: how often stage `t` draws a new level, for `nd` categorical variables. -/
noncomputable def levelProb (t nd : ℕ) : ℝ := max (0.5 * Real.exp (-1 * t)) (1 / nd)

/-- samplers.py:150-151: a categorical cell gets level number `l` if the random number `r` is below `prob`, else it keeps its value. -/
noncomputable def levelNoise (prob r : ℝ) (l : ℕ) : Noise := { level := if r < prob then some l else none }

/-- samplers.py:131, 140: the shift of a real cell is `q` times a standard normal number, that of an integer cell the difference of two geometric numbers. -/
noncomputable def realNoise (q z : ℝ) : Noise := { shift := q * z }

/-- samplers.py:140 -/
def integerNoise (a b : ℕ) : Noise := { ishift := (a : ℤ) - b }

/-- samplers.py:118-126 `_rproposal`, one row. -/
noncomputable def proposeRow (ks : List Kind) (noise : ℕ → Noise) (row : List Val) : List Val :=
  (ks.zip row).zipIdx.map fun kv => propose kv.1.1 (noise kv.2) kv.1.2

/-- samplers.py:165-201 `_metropolis_hastings` with the proposals of lines 118-152: the cell of row `a` and variable `j` in step `k` gets the noise
`noise k a j`, and its move is taken if `us k a j` is small enough. -/
noncomputable def scmcPass (limit : ℝ) (logp : List Val → Option ℝ) (ks : List Kind) (steps : ℕ) (noise : ℕ → ℕ → ℕ → Noise) (us : ℕ → ℕ → ℕ → ℝ)
    (X : List (List Val)) : Option (List (List Val)) :=
  (metropolisHastings limit logp ks.length steps (fun k Y => Y.zipIdx.map fun ra => proposeRow ks (noise k ra.2) ra.1)
    (fun k j => (List.range X.length).map fun a => us k a j) X).map Prod.fst

/-- One pass of stage `t` in a space of categorical variables: `D m a` are the numbers drawn for the `m`-th cell update of row `a` (the random number of line 150, the
level number of line 151 and the random number of line 198). -/
noncomputable def categoricalPass (limit : ℝ) (logp : List Val → Option ℝ) (ks : List Kind) (t steps : ℕ) (D : ℕ → ℕ → ℝ × ℕ × ℝ) (X : List (List Val)) :
    Option (List (List Val)) :=
  scmcPass limit logp ks steps (fun k a j => levelNoise (levelProb t ks.length) (D (k * ks.length + j) a).1 (D (k * ks.length + j) a).2.1)
    (fun k a j => (D (k * ks.length + j) a).2.2) X

end Verif.Model
