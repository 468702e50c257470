import Verif.Model.Construct
import Verif.Model.ConstraintCall
import Verif.Model.SearchSpace

/-!
# Assigning another search space to an optimiser (`bayes_optim/_base.py:157-172`, `bayes_optim/base.py:102-121, 192-229`)
-/
namespace Verif.Model

/-- What the optimiser reads from a search space: names and types of its variables. -/
structure SpaceView where
  names : List String
  types : List VType

/-- _base.py:161-172: the attributes the setter of `search_space` writes. -/
structure SpaceAttrs where
  dim : ℕ
  varNames : List String
  rIndex : List ℕ
  iIndex : List ℕ
  dIndex : List ℕ
  paramType : List VType
  nR : ℕ
  nI : ℕ
  nD : ℕ

/-- _base.py:161-172 -/
def spaceAttrs (sp : SpaceView) : SpaceAttrs :=
  let ix := setIndex sp.types
  { dim := sp.types.length, varNames := sp.names, rIndex := ix.id .real, iIndex := ix.id .integer, dIndex := ix.categoricalId, paramType := sp.types
    nR := (ix.id .real).length, nI := (ix.id .integer).length, nD := ix.categoricalId.length }

/-- The constructor arguments that meet the space: `DoE_size`, `acquisition_optimization`, the model (does it have a gradient?), `n_obj`, the constraints. -/
structure SpaceUses where
  doe : NumArg
  options : InnerOptions
  hasGradient : Bool
  nObj : ℕ
  hasH : Bool
  hasG : Bool

/-- An optimiser, as far as the space matters: the space and what depends on it.  `wrapNames` are the names that the wrappers `_h` and `_g` hold (base.py:225-229). -/
structure SpaceState where
  space : SpaceView
  attrs : SpaceAttrs
  doeSize : ℤ
  search : InnerSearch
  wrapNames : List String

/-- _base.py:32 and base.py:107, 117: the constructor; `none` is an exception. -/
def constructOn (eval : String → Option ℚ) (u : SpaceUses) (sp : SpaceView) : Option SpaceState := do
  let doe ← doeSize eval sp.types.length u.doe
  let search ← setInternal eval u.options ⟨sp.types, u.hasGradient, u.nObj, u.hasH, u.hasG⟩
  return ⟨sp, spaceAttrs sp, doe, search, sp.names⟩

/-- _base.py:161-172: `opt.search_space = sp`. -/
def assignSpace (s : SpaceState) (sp : SpaceView) : SpaceState := { s with space := sp, attrs := spaceAttrs sp }

end Verif.Model
