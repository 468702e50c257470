import Verif.Model.Learner
import Verif.Model.SaveLoad

/-!
# An optimisation that is saved after every step (`base.py:252-256, 499-540`, `_base.py:133-136`)

The loop a user writes to be safe against crashes: `while not opt.check_stop(): opt.step(); opt.save(file)`, and after a crash `opt = BO.load(file)` and the same loop
again.  The process may die at any instant; what is on the disk stays: the file of `save` and the data file (base.py:343-344).  The random numbers and libraries
a step meets depend on the number of the step, as if the state of numpy's generator were saved and restored by the user: `save` does not do it.
-/
namespace Verif.Model

variable {G F W B : Type}

/-- The optimiser as `save` sees it; the data file is not part of it. -/
abbrev CkObj (F W B : Type) := SObj (OptState Row ℝ) (List (Rec Row ℝ)) F W B

/-- The state of an optimiser whose data file holds `csv`. -/
def heldState (o : CkObj F W B) (csv : List (Rec Row ℝ)) : OptState Row ℝ :=
  { o.rest with data := o.data.bind (fun d => d.getLeft?), csv := csv }

/-- The optimiser with another state. -/
def holding (o : CkObj F W B) (s : OptState Row ℝ) : CkObj F W B :=
  { o with rest := { s with data := none, csv := [] }, data := s.data.map .inl }

/-- The program: dill, `func_with_list_arg`, the file system and the traversal of sets seen by the logger, the settings, and the optimiser as constructed. -/
structure CkSetup (G F W B : Type) where
  codec : Codec (OptState Row ℝ) (List (Rec Row ℝ)) F W B
  wrap : F → W
  canOpen : String → Bool
  setOrder : List String → List String
  cfg : Cfg ℝ
  u : RunSetup
  acq : AcqName × AcqPar
  L : Learner G
  fresh : CkObj F W B

/-- One turn of the loop `while not opt.check_stop(): opt.step()` (_base.py:133-136, base.py:252-256); `none`: the loop goes on. -/
noncomputable def loopTurn (K : CkSetup G F W B) (s : OptState Row ℝ) : OptState Row ℝ × Option FullEnd :=
  match checkStop K.cfg s with
  | (s1, .error _) => (s1, some .raised)
  | (s1, .ok true) =>
    match xopt K.cfg s1 with
    | .ok (some r) => (s1, some (.stopped r))
    | _ => (s1, some .raised)
  | (s1, .ok false) =>
    match proposals K.cfg K.u K.acq K.L s.iterCount s1 with
    | none => (s1, some .raised)
    | some X =>
      match tell K.cfg s1 { X := X, vals := X.map (K.L.objective s.iterCount), oracle := oracleOf K.cfg K.L s.iterCount s1 X } with
      | (s2, .error _) => (s2, some .raised)
      | (s2, .ok _) => (s2, none)

/-- base.py:505-519: the contents of the file from the moment `save` is called; opening it for writing empties it, `n` more instants pass while it is written. -/
def fileDuring (K : CkSetup G F W B) (reg : LogRegistry) (n : ℕ) (o : CkObj F W B) (old : Option (SFile B)) : List (Option (SFile B)) :=
  old :: some .torn :: (List.replicate n (some .torn) ++ [some (save K.codec reg o).2.2])

/-- An instant of the program: in the loop, in `save` with the present and the future contents of the file, without a process, or behind the loop. -/
inductive CkMoment (F W B : Type) where
  | looping (o : CkObj F W B) (csv : List (Rec Row ℝ)) (file : Option (SFile B))
  | saving (o : CkObj F W B) (csv : List (Rec Row ℝ)) (contents : List (Option (SFile B)))
  | down (csv : List (Rec Row ℝ)) (file : Option (SFile B))
  | ended (s : OptState Row ℝ) (e : FullEnd)

/-- From one instant to the next.  The process may die at any time; a new one may be started, in which the loggers are others, and which starts from the beginning
only if there is no file. -/
inductive CkNext (K : CkSetup G F W B) : CkMoment F W B → CkMoment F W B → Prop
  | step (o csv f s reg n) : loopTurn K (heldState o csv) = (s, none) →
      CkNext K (.looping o csv f) (.saving (holding o s) s.csv (fileDuring K reg n (holding o s) f))
  | finish (o csv f s e) : loopTurn K (heldState o csv) = (s, some e) → CkNext K (.looping o csv f) (.ended s e)
  | write (o csv f g l) : CkNext K (.saving o csv (f :: g :: l)) (.saving o csv (g :: l))
  | saved (o csv f reg) : (save K.codec reg o).1 = true → CkNext K (.saving o csv [f]) (.looping (save K.codec reg o).2.1 csv f)
  | crash (o csv f) : CkNext K (.looping o csv f) (.down csv f)
  | crashSaving (o csv f l) : CkNext K (.saving o csv (f :: l)) (.down csv f)
  | restart (o csv f reg reg') : load K.codec K.wrap K.canOpen K.setOrder reg f = some (o, reg') → CkNext K (.down csv (some f)) (.looping o csv (some f))
  | again (csv) : CkNext K (.down csv none) (.looping K.fresh csv none)

/-- The instants of the program with all its crashes and restarts. -/
def CkReachable (K : CkSetup G F W B) (x : CkMoment F W B) : Prop := Relation.ReflTransGen (CkNext K) (.looping K.fresh [] none) x

/-! ### Two files in turn -/

/-- The same with two files, written in turn: after step `n` the file of the parity of `n`. -/
inductive CkMoment2 (F W B : Type) where
  | looping (o : CkObj F W B) (csv : List (Rec Row ℝ)) (files : Bool → Option (SFile B))
  | saving (o : CkObj F W B) (csv : List (Rec Row ℝ)) (files : Bool → Option (SFile B)) (contents : List (Option (SFile B)))
  | down (csv : List (Rec Row ℝ)) (files : Bool → Option (SFile B))
  | ended (s : OptState Row ℝ) (e : FullEnd)

/-- The file that the optimiser is saved to. -/
def fileOf (o : CkObj F W B) : Bool := o.rest.iterCount % 2 == 1

/-- What can be read from a file; an exception is caught. -/
def readBack (K : CkSetup G F W B) (reg : LogRegistry) (f : Option (SFile B)) : Option (CkObj F W B) :=
  (f.bind (fun f => load K.codec K.wrap K.canOpen K.setOrder reg f)).map Prod.fst

/-- The later of two optimisers. -/
def laterOf : Option (CkObj F W B) → Option (CkObj F W B) → Option (CkObj F W B)
  | none, b => b
  | some a, none => some a
  | some a, some b => if a.rest.iterCount < b.rest.iterCount then some b else some a

/-- As `CkNext`; a new process goes on from the later of the optimisers it can read, from the beginning if it can read none. -/
inductive CkNext2 (K : CkSetup G F W B) : CkMoment2 F W B → CkMoment2 F W B → Prop
  | step (o csv fs s reg n) : loopTurn K (heldState o csv) = (s, none) →
      CkNext2 K (.looping o csv fs) (.saving (holding o s) s.csv fs (fileDuring K reg n (holding o s) (fs (fileOf (holding o s)))))
  | finish (o csv fs s e) : loopTurn K (heldState o csv) = (s, some e) → CkNext2 K (.looping o csv fs) (.ended s e)
  | write (o csv fs f g l) : CkNext2 K (.saving o csv fs (f :: g :: l)) (.saving o csv (Function.update fs (fileOf o) g) (g :: l))
  | saved (o csv fs f reg) : (save K.codec reg o).1 = true → CkNext2 K (.saving o csv fs [f]) (.looping (save K.codec reg o).2.1 csv fs)
  | crash (o csv fs) : CkNext2 K (.looping o csv fs) (.down csv fs)
  | crashSaving (o csv fs l) : CkNext2 K (.saving o csv fs l) (.down csv fs)
  | restart (csv fs reg) : CkNext2 K (.down csv fs) (.looping ((laterOf (readBack K reg (fs false)) (readBack K reg (fs true))).getD K.fresh) csv fs)

/-- The instants of that program. -/
def CkReachable2 (K : CkSetup G F W B) (x : CkMoment2 F W B) : Prop := Relation.ReflTransGen (CkNext2 K) (.looping K.fresh [] (fun _ => none)) x

end Verif.Model
