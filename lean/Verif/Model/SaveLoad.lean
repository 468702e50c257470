import Mathlib.Logic.Function.Basic
import Mathlib.Data.List.Basic

/-!
# Model of `save` and `load` (`bayes_optim/base.py:499-540`) and of the logger (`bayes_optim/utils/logger.py:42-84`)

Serialisation (dill) is a parameter.  `R` is everything in the optimiser besides the data, the logger and the constraint functions;
`D` is the type of the data, `F` of a user's constraint function, `W` of its wrapper and `B` of byte strings.
Levels and formats of log handlers are not modelled.
-/
namespace Verif.Model

/-- A log handler: the console, or a file (`FileHandler` is a subclass of `StreamHandler`). -/
inductive Handler where
  | console
  | file (name : String)
  deriving DecidableEq

/-- `isinstance(h, logging.FileHandler)`. -/
def Handler.isFile : Handler → Bool
  | .console => false
  | .file _ => true

/-- `isinstance(h, logging.StreamHandler)`: true of both. -/
def Handler.isStream : Handler → Bool
  | .console => true
  | .file _ => true

/-- `baseFilename` of the file handlers. -/
def Handler.fileName : Handler → Option String
  | .console => none
  | .file n => some n

/-- The loggers of a process by name, each with its handlers (`logging.getLogger`). -/
abbrev LogRegistry := String → List Handler

/-- The arguments of `get_logger`, which is also what `dump_logger` stores (logger.py:80). -/
structure LogConfig where
  name : String
  console : Bool
  files : Option (List String)
  deriving DecidableEq

/-- logger.py:42-73 `get_logger`: the registry afterwards.  `canOpen` tells which files can be opened (lines 64-70), `setOrder` is the
order in which a set of names is traversed (line 63). -/
def getLogger (canOpen : String → Bool) (setOrder : List String → List String) (cfg : LogConfig) (reg : LogRegistry) :
    LogRegistry :=
  let hs := reg cfg.name
  let hs1 := if (hs.filter Handler.isStream).length = 0 ∧ cfg.console = true then hs ++ [.console] else hs
  let hs2 := match cfg.files with
    | none => hs1
    | some fs => if (hs1.filter Handler.isFile).length = 0 then
        hs1 ++ ((setOrder fs).filter canOpen).map Handler.file else hs1
  Function.update reg cfg.name hs2

/-- logger.py:76-80 `dump_logger`, before `dill.dumps`. -/
def dumpConfig (name : String) (hs : List Handler) : LogConfig :=
  let fhs := hs.filter Handler.isFile
  { name := name,
    console := decide ((hs.filter Handler.isStream).length ≠ 0),
    files := if fhs.length = 0 then none else some (fhs.filterMap Handler.fileName) }

/-- The optimiser as far as it matters here. `data = none` means that there is no such attribute yet; `data` and `logger` are either the
object itself or, during `save`, its serialisation. -/
structure SObj (R D F W B : Type) where
  rest : R
  data : Option (D ⊕ B)
  logger : String ⊕ B
  h : Option F
  g : Option F
  hWrap : Option W
  gWrap : Option W

/-- dill; `none` is an exception. -/
structure Codec (R D F W B : Type) where
  dumpData : D ⊕ B → Option B
  loadData : B → Option (D ⊕ B)
  dumpLog : LogConfig → Option B
  loadLog : B → Option LogConfig
  dumpObj : SObj R D F W B → Option B
  loadObj : B → Option (SObj R D F W B)

/-- A file: complete, or truncated somewhere. -/
inductive SFile (B : Type) where
  | complete (b : B)
  | torn

variable {R D F W B : Type}

/-- Lines 508-509. -/
def saveData (c : Codec R D F W B) (o : SObj R D F W B) : Option (SObj R D F W B) :=
  match o.data with
  | none => some o
  | some d => (c.dumpData d).map (fun b => { o with data := some (.inr b) })

/-- Line 512; a logger attribute that is a byte string has no `handlers` (AttributeError). -/
def saveLog (c : Codec R D F W B) (reg : LogRegistry) (o : SObj R D F W B) : Option (SObj R D F W B) :=
  match o.logger with
  | .inr _ => none
  | .inl n => (c.dumpLog (dumpConfig n (reg n))).map (fun b => { o with logger := .inr b })

/-- Lines 517-518. -/
def restoreData (c : Codec R D F W B) (o : SObj R D F W B) : Option (SObj R D F W B) :=
  match o.data with
  | none => some o
  | some (.inl _) => none
  | some (.inr b) => (c.loadData b).map (fun d => { o with data := some d })

/-- Lines 505-519 with the file opened (and truncated): whether the call succeeded, the object and the file afterwards. -/
def save (c : Codec R D F W B) (reg : LogRegistry) (o : SObj R D F W B) : Bool × SObj R D F W B × SFile B :=
  match saveData c o with
  | none => (false, o, .torn)
  | some o1 =>
    match saveLog c reg o1 with
    | none => (false, o1, .torn)
    | some o2 =>
      match c.dumpObj o2 with
      | none => (false, o2, .torn)
      | some b =>
        match restoreData c { o2 with logger := o1.logger } with
        | none => (false, { o2 with logger := o1.logger }, .complete b)
        | some o3 => (true, o3, .complete b)

/-- Lines 536-539: a constraint that was given is wrapped anew. -/
def rewrap (wrap : F → W) (h : Option F) (old : Option W) : Option W :=
  match h with
  | none => old
  | some f => some (wrap f)

/-- Lines 522-540 `load` in a process with registry `reg`; `wrap` is `func_with_list_arg`.  Objects with the old attribute
`_logger` are not modelled. -/
def load (c : Codec R D F W B) (wrap : F → W) (canOpen : String → Bool) (setOrder : List String → List String)
    (reg : LogRegistry) (f : SFile B) : Option (SObj R D F W B × LogRegistry) :=
  match f with
  | .torn => none
  | .complete b =>
    (c.loadObj b).bind (fun o => (restoreData c o).bind (fun o1 =>
      match o1.logger with
      | .inl _ => none
      | .inr lb => (c.loadLog lb).map (fun cfg =>
          ({ o1 with
              logger := .inl cfg.name,
              hWrap := rewrap wrap o1.h o1.hWrap,
              gWrap := rewrap wrap o1.g o1.gWrap },
            getLogger canOpen setOrder cfg reg))))

end Verif.Model
