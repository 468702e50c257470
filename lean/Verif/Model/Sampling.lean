import Verif.Model.Variables

/-!
# Model of sampling from a search space

`SearchSpace.sample/_sample`, `RealSpace._sample`, `_DiscreteSpace._sample`
(bayes_optim/search_space/search_space.py) and the constrained sampler `SCMC`
(bayes_optim/search_space/samplers.py).  The global numpy generator is an explicit state `G`.
-/
namespace Verif.Model

/-- search_space.py:74 `_supported_types`. -/
inductive VType where
  | real | integer | ordinal | discrete | bool | subset
deriving DecidableEq

/-- The order of search_space.py:74. -/
def supportedTypes : List VType := [.real, .integer, .ordinal, .discrete, .bool, .subset]

/-- A variable without its name. `ordinal`/`discrete` carry the deduplicated levels. -/
inductive Kind where
  | real (v : RealVar)
  | integer (v : IntVar)
  | ordinal (levels : List Lvl)
  | discrete (levels : List Lvl)
  | bool
  | subset (base : List Base)

/-- search_space.py:211: `type(v).__name__`. -/
def Kind.vtype : Kind → VType
  | .real _ => .real
  | .integer _ => .integer
  | .ordinal _ => .ordinal
  | .discrete _ => .discrete
  | .bool => .bool
  | .subset _ => .subset

/-- The tuple `bounds` of a categorical variable (variable.py:281-302, 345-354). -/
def Kind.levels : Kind → List Lvl
  | .ordinal l => l
  | .discrete l => l
  | .bool => [.one (.bool false), .one (.bool true)]
  | .subset b => dedupLevels ((subsetLevels b).map .tup)
  | _ => []

/-- A coordinate value. -/
inductive Val where
  | real (x : ℝ)
  | int (z : ℤ)
  | lvl (l : Lvl)

/-- `v in variable` (variable.py:208, 270, 334). -/
def Kind.contains : Kind → Val → Prop
  | .real v, .real x => v.contains x
  | .integer v, .int z => v.contains z
  | .ordinal l, .lvl x => x ∈ l
  | .discrete l, .lvl x => x ∈ l
  | .bool, .lvl x => x ∈ Kind.levels .bool
  | .subset b, .lvl x => x ∈ Kind.levels (.subset b)
  | _, _ => False

/-! ### numpy's global generator -/

/-- The part of `np.random` used: uniform matrices (also LHS and Sobol designs, which are values in [0, 1]),
integer draws below a size, and seeding. -/
structure Rng (G : Type*) where
  uniform : G → ℕ → ℕ → (ℕ → ℕ → ℝ) × G
  randint : G → ℕ → ℕ → (ℕ → ℕ) × G
  seed : ℕ → G

/-- What numpy promises about the draws. -/
def Rng.Valid {G : Type*} (r : Rng G) : Prop :=
  (∀ g N d i j, 0 ≤ (r.uniform g N d).1 i j ∧ (r.uniform g N d).1 i j ≤ 1) ∧
  (∀ g s N i, 0 < s → (r.randint g s N).1 i < s)

/-! ### one-type spaces -/

/-- Value of a real variable for a uniform draw (search_space.py:742-754). -/
noncomputable def Kind.ofUniform : Kind → ℝ → Option Val
  | .real v, u => (v.sample u).map .real
  | _, _ => none

/-- variable.py:288, 313, 332, 354: `_size`. -/
noncomputable def Kind.size : Kind → ℕ
  | .integer v => v.size.toNat
  | k => k.levels.length

/-- variable.py:277-278: the value for draw `i`. -/
noncomputable def Kind.ofDraw : Kind → ℕ → Option Val
  | .integer v, i => (v.sample i).map .int
  | k, i => (k.levels[i]?).map .lvl

/-- search_space.py:783-794 `_DiscreteSpace._sample`: columns one after the other. -/
noncomputable def discCols {G : Type*} (rng : Rng G) : G → List Kind → ℕ → List (ℕ → Option Val) × G
  | g, [], _ => ([], g)
  | g, k :: ks, N =>
    let d := rng.randint g k.size N
    let rest := discCols rng d.2 ks N
    ((fun i => k.ofDraw (d.1 i)) :: rest.1, rest.2)

/-- search_space.py:742-754 `RealSpace._sample`: one uniform matrix. -/
noncomputable def realCols {G : Type*} (rng : Rng G) (g : G) (ks : List Kind) (N : ℕ) :
    List (ℕ → Option Val) × G :=
  let d := rng.uniform g N ks.length
  (ks.zipIdx.map (fun kc => fun i => kc.1.ofUniform (d.1 i kc.2)), d.2)

/-- `_sample` of a space whose variables all have type `τ`. -/
noncomputable def sampleGroup {G : Type*} (rng : Rng G) (g : G) (τ : VType) (ks : List Kind) (N : ℕ) :
    List (ℕ → Option Val) × G :=
  if τ = .real then realCols rng g ks N else discCols rng g ks N

/-! ### mixed spaces -/

/-- search_space.py:215-224: `<type>_id`. -/
def typeIds (ks : List Kind) (τ : VType) : List ℕ :=
  (List.range ks.length).filter (fun j => (ks[j]?).any (fun k => k.vtype == τ))

/-- A table under construction; `none` is an unset cell or NaN. -/
abbrev Cells := ℕ → ℕ → Option Val

/-- search_space.py:567: `X[:, index] = cols`. -/
def assignCols (X : Cells) (ids : List ℕ) (cols : List (ℕ → Option Val)) : Cells := fun i j =>
  if j ∈ ids then (cols[ids.idxOf j]?).bind (fun col => col i) else X i j

/-- search_space.py:129-134: `np.random.seed(seed)`; without a seed the generator restarts from OS entropy. -/
def reseed {G : Type*} (rng : Rng G) (fresh : G) : Option ℕ → G
  | some s => rng.seed s
  | none => fresh

/-- search_space.py:563-567, the loop body.  Slicing `self[index]` builds a new `SearchSpace`, whose
constructor calls `np.random.seed(self.random_seed)` (search_space.py:100, 129-134, 263): with a seed the
generator restarts from that seed, without one it restarts from OS entropy (`fresh`). -/
noncomputable def groupStep {G : Type*} (rng : Rng G) (fresh : VType → G) (seed : Option ℕ) (ks : List Kind)
    (N : ℕ) (st : Cells × G) (τ : VType) : Cells × G :=
  let ids := typeIds ks τ
  if ids.isEmpty then st
  else
    let r := sampleGroup rng (reseed rng (fresh τ) seed) τ (ids.filterMap (fun j => ks[j]?)) N
    (assignCols st.1 ids r.1, r.2)

/-- search_space.py:198-202: a space whose variables have one type is an instance of that type's class. -/
def pureType (ks : List Kind) : Option VType :=
  match ks with
  | [] => none
  | k :: rest => if rest.all (fun k' => k'.vtype == k.vtype) then some k.vtype else none

/-- Turn cells into rows. -/
def toRows (N dim : ℕ) (X : Cells) : List (List (Option Val)) :=
  (List.range N).map (fun i => (List.range dim).map (fun j => X i j))

/-- search_space.py:556-568 `_sample` (and the overriding methods of one-type spaces). -/
noncomputable def sampleRaw {G : Type*} (rng : Rng G) (fresh : VType → G) (seed : Option ℕ) (ks : List Kind)
    (N : ℕ) (g : G) : List (List (Option Val)) × G :=
  match pureType ks with
  | some τ =>
    let r := sampleGroup rng g τ ks N
    (toRows N ks.length (fun i j => (r.1[j]?).bind (fun col => col i)), r.2)
  | none =>
    if ks.isEmpty then ([], g)
    else
      let r := supportedTypes.foldl (groupStep rng fresh seed ks (max N 1)) (fun _ _ => none, g)
      (toRows (max N 1) ks.length r.1, r.2)

/-- search_space.py:500-554 `sample(N)` without constraints.  `none` is `ConstraintEvaluationError`: with
`N = 0` line 543 combines two empty (float) lists, and for an empty space line 544 indexes a 1-d array. -/
noncomputable def sampleFree {G : Type*} (rng : Rng G) (fresh : VType → G) (seed : Option ℕ) (ks : List Kind)
    (N : ℕ) (g : G) : Option (List (List (Option Val)) × G) :=
  if N = 0 || ks.isEmpty then none else some (sampleRaw rng fresh seed ks N g)

/-! ### constrained sampling -/

/-- `str(v)` of an atom. -/
def Base.toStr : Base → String
  | .int z => toString z
  | .flt q => toString q
  | .str s => s
  | .bool b => if b then "True" else "False"

/-- Is the level a string? -/
def Lvl.isStr : Lvl → Bool
  | .one (.str _) => true
  | _ => false

/-- samplers.py:150 `levels = np.array(bounds[i])`: an array mixing strings and numbers becomes an array of
strings.  Numeric coercions keep Python equality and are ignored; tuples are handled in `scmcSupports`. -/
def npArray (levels : List Lvl) : List Lvl :=
  if levels.any Lvl.isStr then
    levels.map (fun l => match l with
      | .one b => .one (.str b.toStr)
      | l => l)
  else levels

/-- Spaces on which the proposal does not raise: samplers.py:150 calls `np.array` on the levels, which for a
`Subset` are tuples of different lengths, and raises.  (A `Subset` of one value, whose proposal only works
for particular draws, is counted as unsupported too.) -/
def scmcSupports (ks : List Kind) : Prop := ∀ k ∈ ks, ∀ b, k ≠ .subset b

/-- Noise of one proposal for one cell: a real shift, an integer shift, and for categorical cells an optional
new level number (samplers.py:128-152). -/
structure Noise where
  shift : ℝ := 0
  ishift : ℤ := 0
  level : Option ℕ := none

/-- samplers.py:128-152, one cell: clip the shifted value, or pick a level. -/
noncomputable def propose (k : Kind) (n : Noise) (x : Val) : Val :=
  match k, x with
  | .real v, .real x => .real (clip v.lo v.hi (x + n.shift))
  | .integer v, .int z => .int (trunc (clip v.lo v.hi (((z + n.ishift : ℤ)) : ℝ)))
  | .real _, x => x
  | .integer _, x => x
  | k, x => match n.level with
    | none => x
    | some i => ((npArray k.levels)[i]?).elim x .lvl

/-- samplers.py:185-198, one Metropolis-Hastings iteration on one row: the proposal is made for the whole row,
then coordinates are taken over one at a time if accepted. -/
noncomputable def mhRow (ks : List Kind) (noise : ℕ → Noise) (accept : ℕ → Bool) (row : List Val) : List Val :=
  let prop := (ks.zip row).zipIdx.map (fun kv => propose kv.1.1 (noise kv.2) kv.1.2)
  (List.range ks.length).foldl
    (fun r j => if accept j then (prop[j]?).elim r (fun v => r.set j v) else r) row

/-- samplers.py:201-248: all iterations (20 temperatures times `mh_steps`) on one row; the randomness of
iteration `t` is `(noise t, accept t)`. -/
noncomputable def scmcRow (ks : List Kind) (noise : ℕ → ℕ → Noise) (accept : ℕ → ℕ → Bool) :
    ℕ → List Val → List Val
  | 0, row => row
  | t + 1, row => mhRow ks (noise t) (accept t) (scmcRow ks noise accept t row)

open Classical in
/-- samplers.py:201-248 with its exceptions: `none` when a proposal is made on an unsupported space. -/
noncomputable def scmcRun (ks : List Kind) (noise : ℕ → ℕ → Noise) (accept : ℕ → ℕ → Bool) (t : ℕ)
    (row : List Val) : Option (List Val) :=
  if t = 0 ∨ scmcSupports ks then some (scmcRow ks noise accept t row) else none

open Classical in
/-- search_space.py:500-554 `sample(N, h, g)`: `S` are the rows produced by the random walk, `pick` the
outcome of `np.random.choice(len(S), N, replace=False)`. -/
noncomputable def sampleConstrained {R : Type*} (h g : R → List ℝ) (tol : ℝ) (N : ℕ) (S : List R)
    (pick : ℕ → List ℕ) : List R :=
  let feasible := S.filter (fun x => decide ((∀ c ∈ h x, |c| ≤ tol) ∧ ∀ c ∈ g x, c ≤ 0))
  if N < feasible.length then (pick feasible.length).filterMap (fun i => feasible[i]?) else feasible

end Verif.Model
