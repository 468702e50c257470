import Verif.Model.Optimizer

/-!
# `recommend()` and what a caller does with the object it returns (`bayes_optim/_base.py:101-104`, `138-144`)

`recommend()` hands out the row `data[i]`, a numpy view: its coordinates and its fitness are cells of the recorded table.  `tell` replaces the table
(`self.data + X`, base.py:340, solution.py:144-163, copies), and appends the fitness view of the incumbent to `hist_f` (base.py:360).
-/
namespace Verif.Model
variable {P K : Type*} [Field K] [LinearOrder K] [IsStrictOrderedRing K]

/-- How `recommend()` can fail. -/
inductive RecommendErr where
  | unavailable            -- _base.py:103, RecommendationUnavailableError
  | other (e : TellErr)    -- an exception of `xopt`
deriving DecidableEq

/-- _base.py:101-104 `recommend`.  `width` is `len` of a row, the number of its coordinates. -/
def recommend (width : P → ℕ) (cfg : Cfg K) (s : OptState P K) : Except RecommendErr (Rec P K) :=
  match xopt cfg s with
  | .error e => .error (.other e)
  | .ok none => .error .unavailable
  | .ok (some r) => if width r.x = 0 then .error .unavailable else .ok r

/-- _base.py:142-143: the row number of the incumbent. -/
def bestRow (minimize : Bool) (d : List (Rec P K)) : Option ℕ :=
  (getBest minimize (d.map Rec.f)).map fun b => d.findIdx fun r => decide (r.f = b)

/-- What a program with a reference to the optimiser does.  `writeX k`, `writeF k` write the coordinates and the fitness of the `k`-th object that
`recommend()` returned. -/
inductive UserOp (P K : Type*) where
  | tell (a : TellArgs P K)
  | checkStop
  | recommend
  | writeX (k : ℕ) (x : P)
  | writeF (k : ℕ) (f : K)

/-- The optimiser and the cells that are shared.  `arr` numbers the tables `data` has been; a cell is a table and a row.  `refs` are the cells of the returned
objects; `hist` is `hist_f` with the cells its entries are (`opt.histF` keeps the values at the time of appending; nothing reads it). -/
structure PlayState (P K : Type*) where
  opt : OptState P K := {}
  arr : ℕ := 0
  refs : List (ℕ × ℕ) := []
  hist : List ((ℕ × ℕ) × K) := []

/-- base.py:329-340: does `tell` get as far as replacing `data`? -/
def replacesTable (s : OptState P K) (a : TellArgs P K) : Bool :=
  !a.X.isEmpty && !(a.index.map List.length).any (· != a.X.length) && (observe a.warm a.X a.vals s.evalCount).2.isSome

/-- One action. -/
def playOp (cfg : Cfg K) (p : PlayState P K) : UserOp P K → PlayState P K
  | .tell a =>
    let s' := (tell cfg p.opt a).1
    let arr' := if replacesTable p.opt a then p.arr + 1 else p.arr
    -- base.py:358-360
    { opt := s', arr := arr', refs := p.refs,
      hist := p.hist ++ ((s'.histF.drop p.opt.histF.length).map fun f => ((arr', (bestRow cfg.minimize (s'.data.getD [])).getD 0), f)) }
  | .checkStop => { p with opt := (checkStop cfg p.opt).1 }
  | .recommend => match (p.opt.data.bind (bestRow cfg.minimize)) with
    | some i => { p with refs := p.refs ++ [(p.arr, i)] }
    | none => p
  | .writeX k x => match p.refs[k]? with
    | some (a, i) => if a = p.arr then { p with opt := { p.opt with data := p.opt.data.map fun d => d.modify i fun r => { r with x := x } } } else p
    | none => p
  -- solution.py:183-186: `attr[:] = value`
  | .writeF k f => match p.refs[k]? with
    | some (a, i) =>
      { p with
        opt := if a = p.arr then { p.opt with data := p.opt.data.map fun d => d.modify i fun r => { r with f := f } } else p.opt
        hist := p.hist.map fun h => if h.1 = (a, i) then (h.1, f) else h }
    | none => p

/-- A program. -/
def play (cfg : Cfg K) (ops : List (UserOp P K)) : PlayState P K := ops.foldl (playOp cfg) {}

end Verif.Model
