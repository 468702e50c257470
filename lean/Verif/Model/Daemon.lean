import Mathlib.Logic.Function.Basic
import Mathlib.Data.Nat.Notation

/-!
# Model of the pid-file protocol (`bayes_optim/utils/_daemon.py:112-226`)

The file system holds one pid-file; the process table says what each pid is.  Reading, writing and removing the file, and sending a
signal, are atomic steps.  Negative pids, missing permissions (EPERM) and the redirection of file descriptors (lines 78-108) are not
modelled.
-/
namespace Verif.Model

/-- What the pid-file contains: a number, or text that `int` refuses (an empty file, for example). -/
inductive PidText where
  | pid (n : ℕ)
  | garbage
  deriving DecidableEq

/-- What a process is: a daemon before (`starting`) or after writing its pid, or anything else. -/
inductive DProc where
  | starting
  | daemon
  | other
  deriving DecidableEq

/-- The machine. `signals` are the pids that were sent SIGTERM. -/
structure DState where
  file : Option PidText
  procs : ℕ → Option DProc
  signals : List ℕ

/-- A fresh machine. -/
def dInit : DState := ⟨none, fun _ => none, []⟩

/-- Lines 204-213 `get_pid` (also 138-145): a missing file gives None; `none` is the uncaught ValueError. -/
def dGetPid (file : Option PidText) : Option (Option ℕ) :=
  match file with
  | none => some none
  | some (.pid n) => some (some n)
  | some .garbage => none

/-- How `start` ends in the calling process. -/
inductive StartRes where
  | started
  | refused
  | valueError
  deriving DecidableEq

/-- Lines 138-150: the check made by `start`; `if pid` is false for None and for 0. -/
def dStartCheck (file : Option PidText) : StartRes :=
  match dGetPid file with
  | none => .valueError
  | some none => .started
  | some (some n) => if n = 0 then .started else .refused

/-- Lines 138-153 up to the second fork, `q` being the pid of the daemon. -/
def dBegin (q : ℕ) (s : DState) : StartRes × DState :=
  match dStartCheck s.file with
  | .started => (.started, { s with procs := Function.update s.procs q (some .starting) })
  | r => (r, s)

/-- Line 116: the daemon writes its pid. -/
def dWrite (q : ℕ) (s : DState) : DState :=
  { s with file := some (.pid q), procs := Function.update s.procs q (some .daemon) }

/-- How `stop` ends: normally, with ValueError from `get_pid`, or with NameError, because `time` is not imported (line 183). -/
inductive StopRes where
  | ok
  | valueError
  | nameError
  deriving DecidableEq

/-- Lines 156-195 `stop`.  A missing process is ESRCH (line 188); otherwise the signal is sent and line 183 raises. -/
def dStop (s : DState) : StopRes × DState :=
  match dGetPid s.file with
  | none => (.valueError, s)
  | some none => (.ok, s)
  | some (some n) =>
    if n = 0 then (.ok, { s with file := none })
    else match s.procs n with
      | none => (.ok, { s with file := none })
      | some _ => (.nameError, { s with signals := n :: s.signals })

/-- Lines 197-202 `restart`; an exception of `stop` prevents the start. -/
def dRestart (q : ℕ) (s : DState) : Option StartRes × DState :=
  match dStop s with
  | (.ok, s') => let r := dBegin q s'; (some r.1, r.2)
  | (_, s') => (none, s')

/-- Lines 215-226 `is_running`; `none` is ValueError. -/
def dIsRunning (s : DState) : Option Bool :=
  (dGetPid s.file).map (fun p => match p with
    | none => false
    | some n => (s.procs n).isSome)

/-- Lines 113, 118-128: a daemon exits (at its end or after SIGTERM, lines 96-98) and removes the file if it names it. -/
def dExit (q : ℕ) (s : DState) : DState :=
  { s with file := if s.file = some (.pid q) then none else s.file, procs := Function.update s.procs q none }

/-- What can happen. `crash` is a process that ends without running its exit handlers; `spawn` is an unrelated process that
gets an unused pid. -/
inductive DEvent where
  | begin (q : ℕ)
  | write (q : ℕ)
  | stop
  | exit (q : ℕ)
  | crash (q : ℕ)
  | spawn (q : ℕ)

/-- One event; it is ignored where it cannot happen (a pid in use or pid 0 is not given to a new process, only a starting daemon
writes, only a daemon runs the exit handler). -/
def dExec (s : DState) : DEvent → DState
  | .begin q => if s.procs q = none ∧ q ≠ 0 then (dBegin q s).2 else s
  | .write q => if s.procs q = some .starting then dWrite q s else s
  | .stop => (dStop s).2
  | .exit q => if s.procs q = some .daemon then dExit q s else s
  | .crash q => { s with procs := Function.update s.procs q none }
  | .spawn q => if s.procs q = none ∧ q ≠ 0 then { s with procs := Function.update s.procs q (some .other) } else s

/-- A history. -/
def dRun (s : DState) (es : List DEvent) : DState := es.foldl dExec s

end Verif.Model
