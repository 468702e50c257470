import Verif.Spec.Daemon
import Mathlib.Tactic.Common

/-! # C39, C67: pid-file protocol -/
namespace Verif.Props
open Verif.Model Verif.Spec

/-- C39, status: if the pid-file can be read, `is_running` answers, and says yes exactly if the file names a live process. -/
theorem c39_status_partial (s : DState) (h : Readable s) :
    ∃ b, dIsRunning s = some b ∧ (b = true ↔ ∃ n, Names s n ∧ Alive s n) := by
  cases hf : s.file with
  | none => exact ⟨false, by simp [dIsRunning, dGetPid, hf], by simp [Names, hf]⟩
  | some t =>
    cases t with
    | garbage => exact absurd hf h
    | pid n =>
      refine ⟨(s.procs n).isSome, by simp [dIsRunning, dGetPid, hf], ?_⟩
      simp [Names, Alive, hf, Option.isSome_iff_ne_none]

/-- C39, start: if the file names a live process, `start` refuses and changes nothing. Pid 0 is no process. -/
theorem c39_start_refuses (s : DState) (q n : ℕ) (h0 : ¬ Alive s 0) (hn : Names s n) (ha : Alive s n) :
    dBegin q s = (.refused, s) := by
  have hne : n ≠ 0 := by rintro rfl; exact h0 ha
  have : dStartCheck s.file = .refused := by
    rw [show s.file = some (.pid n) from hn]
    simp [dStartCheck, dGetPid, hne]
  unfold dBegin
  rw [this]

/-- C39, start without a pid-file: exactly one process is added, nothing else changes until it writes its pid, which
then is what the file contains. -/
theorem c39_start_fresh (s : DState) (q : ℕ) (h : s.file = none) :
    ∃ s', dBegin q s = (.started, s') ∧ s'.file = none ∧ s'.signals = s.signals ∧ Alive s' q ∧
      (∀ p, p ≠ q → s'.procs p = s.procs p) ∧ Names (dWrite q s') q ∧ Alive (dWrite q s') q ∧
      (∀ p, p ≠ q → (dWrite q s').procs p = s.procs p) := by
  refine ⟨{ s with procs := Function.update s.procs q (some .starting) }, ?_, h, rfl, ?_, ?_, rfl, ?_, ?_⟩
  · unfold dBegin; rw [h]; rfl
  · simp [Alive]
  · intro p hp; simp [hp]
  · simp [Alive, dWrite]
  · intro p hp; simp [dWrite, hp]

/-- C39, stop: if no process is recorded, or a dead one, `stop` returns normally, leaves no pid-file, and touches no process. -/
theorem c39_stop_idle (s : DState) (h : Readable s) (hd : ∀ n, Names s n → ¬ Alive s n) :
    ∃ s', dStop s = (.ok, s') ∧ s'.file = none ∧ s'.procs = s.procs ∧ s'.signals = s.signals := by
  cases hf : s.file with
  | none => exact ⟨s, by simp [dStop, dGetPid, hf], hf, rfl, rfl⟩
  | some t =>
    cases t with
    | garbage => exact absurd hf h
    | pid n =>
      have hp : s.procs n = none := by
        have := hd n hf
        simpa [Alive] using this
      refine ⟨{ s with file := none }, ?_, rfl, rfl, rfl⟩
      simp [dStop, dGetPid, hf, hp]

/-- C39 fails for `stop` of a running daemon: it always raises NameError after sending one SIGTERM to the recorded process, so
`restart` never starts a new one. -/
theorem c39_stop_running_raises (s : DState) (n : ℕ) (h0 : ¬ Alive s 0) (hn : Names s n) (ha : Alive s n) :
    dStop s = (.nameError, { s with signals := n :: s.signals }) ∧
      ∀ q, dRestart q s = (none, { s with signals := n :: s.signals }) := by
  have hne : n ≠ 0 := by rintro rfl; exact h0 ha
  obtain ⟨d, hd⟩ := Option.ne_none_iff_exists'.1 ha
  have : dStop s = (.nameError, { s with signals := n :: s.signals }) := by
    simp [dStop, dGetPid, show s.file = some (.pid n) from hn, hne, hd]
  refine ⟨this, fun q => ?_⟩
  unfold dRestart
  rw [this]

/-- C39 fails for an unreadable pid-file (an empty one, for example): all three calls raise ValueError and the file stays, although
the comment in `stop` says that it is removed. -/
theorem c39_garbage_raises (s : DState) (q : ℕ) (h : s.file = some .garbage) :
    dIsRunning s = none ∧ dStop s = (.valueError, s) ∧ dBegin q s = (.valueError, s) ∧ dRestart q s = (none, s) := by
  refine ⟨?_, ?_, ?_, ?_⟩
  · simp [dIsRunning, dGetPid, h]
  · simp [dStop, dGetPid, h]
  · simp [dBegin, dStartCheck, dGetPid, h]
  · simp [dRestart, dStop, dGetPid, h]

/-- C39 fails for a stale pid-file: after a crash of the daemon the file remains and every `start` is refused although nothing
runs, until `stop` is called. -/
theorem c39_stale_file_blocks (q : ℕ) (hq : q ≠ 0) :
    let s := dRun dInit [.begin q, .write q, .crash q]
    (∀ p, ¬ Alive s p) ∧ (∀ p, dBegin p s = (.refused, s)) ∧ ∀ p, (dBegin p (dStop s).2).1 = .started := by
  intro s
  have hf : s.file = some (.pid q) := by
    simp [s, dRun, dExec, dInit, hq, dBegin, dStartCheck, dGetPid, dWrite]
  have hp : ∀ p, s.procs p = none := by
    intro p
    by_cases h : p = q
    · subst h; simp [s, dRun, dExec]
    · simp [s, dRun, dExec, dInit, hq, dBegin, dStartCheck, dGetPid, dWrite, h]
  refine ⟨fun p => by simp [Alive, hp], fun p => ?_, fun p => ?_⟩
  · simp [dBegin, dStartCheck, dGetPid, hf, hq]
  · have : (dStop s).2.file = none := by simp [dStop, dGetPid, hf, hq, hp]
    simp [dBegin, dStartCheck, dGetPid, this]

/-- C39: `stop` may signal a process that is not the daemon: the daemon crashes, its pid is given to another process. -/
theorem c39_stop_hits_stranger (q : ℕ) (hq : q ≠ 0) :
    let s := dRun dInit [.begin q, .write q, .crash q, .spawn q]
    s.procs q = some .other ∧ (dStop s).2.signals = [q] := by
  simp [dRun, dExec, dInit, hq, dBegin, dStartCheck, dGetPid, dWrite, dStop]

/-! ### C67: at most one daemon -/

private def Inv (s : DState) : Prop :=
  (∀ n, s.procs n = some .daemon → s.file = some (.pid n)) ∧
  (∀ n m, s.procs n = some .starting → s.procs m = some .starting ∨ s.procs m = some .daemon → n = m) ∧
  s.procs 0 = none ∧ s.file ≠ some (.pid 0)

private theorem inv_begin (s : DState) (q : ℕ) (h : Inv s) (hq : s.procs q = none ∧ q ≠ 0)
    (hno : ∀ p, s.procs p ≠ some .starting) : Inv (dBegin q s).2 := by
  obtain ⟨h1, h2, h3, h4⟩ := h
  unfold dBegin
  cases hc : dStartCheck s.file with
  | refused => exact ⟨h1, h2, h3, h4⟩
  | valueError => exact ⟨h1, h2, h3, h4⟩
  | started =>
    have hnd : ∀ n, s.procs n ≠ some .daemon := by
      intro n hn
      have hf := h1 n hn
      rw [hf] at hc
      by_cases h0 : n = 0
      · subst h0; exact h4 hf
      · simp [dStartCheck, dGetPid, h0] at hc
    refine ⟨?_, ?_, ?_, h4⟩
    · intro n hn
      by_cases he : n = q
      · subst he; simp at hn
      · simp [he] at hn; exact absurd hn (hnd n)
    · intro n m hn hm
      have a : n = q := by
        by_contra he; simp [he] at hn; exact hno n hn
      have b : m = q := by
        by_contra he; simp [he] at hm
        rcases hm with hm | hm
        · exact hno m hm
        · exact hnd m hm
      rw [a, b]
    · simp [Ne.symm hq.2, h3]

private theorem inv_exec (s : DState) (e : DEvent) (h : Inv s)
    (hno : ∀ q, e = .begin q → ∀ p, s.procs p ≠ some .starting) : Inv (dExec s e) := by
  obtain ⟨h1, h2, h3, h4⟩ := h
  cases e with
  | begin q =>
    unfold dExec
    by_cases hq : s.procs q = none ∧ q ≠ 0
    · simp only [if_pos hq]; exact inv_begin s q ⟨h1, h2, h3, h4⟩ hq (hno q rfl)
    · simp only [if_neg hq]; exact ⟨h1, h2, h3, h4⟩
  | write q =>
    unfold dExec
    by_cases hq : s.procs q = some .starting
    · simp only [if_pos hq]
      have hq0 : q ≠ 0 := by rintro rfl; rw [h3] at hq; cases hq
      refine ⟨?_, ?_, ?_, ?_⟩
      · intro n hn
        by_cases he : n = q
        · subst he; rfl
        · simp [dWrite, he] at hn
          exact absurd (h2 q n hq (Or.inr hn)).symm he
      · intro n m hn _
        by_cases he : n = q
        · subst he; simp [dWrite] at hn
        · simp [dWrite, he] at hn
          exact absurd (h2 n q hn (Or.inl hq)) he
      · simp [dWrite, Ne.symm hq0, h3]
      · simp [dWrite, hq0]
    · simp only [if_neg hq]; exact ⟨h1, h2, h3, h4⟩
  | stop =>
    show Inv (dStop s).2
    cases hf : s.file with
    | none =>
      have : dStop s = (.ok, s) := by simp [dStop, dGetPid, hf]
      rw [this]; exact ⟨h1, h2, h3, h4⟩
    | some t =>
      cases t with
      | garbage =>
        have : dStop s = (.valueError, s) := by simp [dStop, dGetPid, hf]
        rw [this]; exact ⟨h1, h2, h3, h4⟩
      | pid k =>
        have hk : k ≠ 0 := by rintro rfl; exact h4 hf
        cases hp : s.procs k with
        | none =>
          have : dStop s = (.ok, { s with file := none }) := by simp [dStop, dGetPid, hf, hk, hp]
          rw [this]
          refine ⟨?_, h2, h3, by simp⟩
          intro n hn
          have := h1 n hn
          rw [hf] at this
          cases this
          have hn' : s.procs k = some .daemon := hn
          rw [hp] at hn'; cases hn'
        | some d =>
          have : dStop s = (.nameError, { s with signals := k :: s.signals }) := by simp [dStop, dGetPid, hf, hk, hp]
          rw [this]; exact ⟨h1, h2, h3, h4⟩
  | exit q =>
    unfold dExec
    by_cases hq : s.procs q = some .daemon
    · simp only [if_pos hq]
      refine ⟨?_, ?_, ?_, ?_⟩
      · intro n hn
        by_cases he : n = q
        · subst he; simp [dExit] at hn
        · simp [dExit, he] at hn
          have a := h1 n hn
          have b := h1 q hq
          rw [a] at b; cases b; exact absurd rfl he
      · intro n m hn hm
        have hnq : n ≠ q := by rintro rfl; simp [dExit] at hn
        have hmq : m ≠ q := by rintro rfl; simp [dExit] at hm
        simp [dExit, hnq] at hn
        simp [dExit, hmq] at hm
        exact h2 n m hn hm
      · by_cases he : q = 0
        · subst he; simp [dExit]
        · simp [dExit, Ne.symm he, h3]
      · simp only [dExit]
        split
        · simp
        · exact h4
    · simp only [if_neg hq]; exact ⟨h1, h2, h3, h4⟩
  | crash q =>
    refine ⟨?_, ?_, ?_, h4⟩
    · intro n hn
      by_cases he : n = q
      · subst he; simp [dExec] at hn
      · simp [dExec, he] at hn; exact h1 n hn
    · intro n m hn hm
      have hnq : n ≠ q := by rintro rfl; simp [dExec] at hn
      have hmq : m ≠ q := by rintro rfl; simp [dExec] at hm
      simp [dExec, hnq] at hn
      simp [dExec, hmq] at hm
      exact h2 n m hn hm
    · by_cases he : q = 0
      · subst he; simp [dExec]
      · simp [dExec, Ne.symm he, h3]
  | spawn q =>
    unfold dExec
    by_cases hq : s.procs q = none ∧ q ≠ 0
    · simp only [if_pos hq]
      refine ⟨?_, ?_, ?_, h4⟩
      · intro n hn
        by_cases he : n = q
        · subst he; simp at hn
        · simp [he] at hn; exact h1 n hn
      · intro n m hn hm
        have hnq : n ≠ q := by rintro rfl; simp at hn
        have hmq : m ≠ q := by rintro rfl; simp at hm
        simp [hnq] at hn
        simp [hmq] at hm
        exact h2 n m hn hm
      · simp [Ne.symm hq.2, h3]
    · simp only [if_neg hq]; exact ⟨h1, h2, h3, h4⟩

private theorem inv_run (s : DState) (es : List DEvent) (h : Inv s) (hno : NoOverlap s es) : Inv (dRun s es) := by
  induction es generalizing s with
  | nil => exact h
  | cons e es ih => exact ih (dExec s e) (inv_exec s e h hno.1) hno.2

/-- C67, if start requests do not overlap: after every history of starts, stops, exits, crashes and other processes there is at most
one daemon, the pid-file names it, and so `is_running` sees it, a further start is refused, and `stop` signals it. -/
theorem c67_one_daemon_partial (es : List DEvent) (h : NoOverlap dInit es) (n : ℕ)
    (hn : (dRun dInit es).procs n = some .daemon) :
    Names (dRun dInit es) n ∧ (∀ m, (dRun dInit es).procs m = some .daemon → m = n) ∧
      dIsRunning (dRun dInit es) = some true ∧ (∀ q, dBegin q (dRun dInit es) = (.refused, dRun dInit es)) ∧
      n ∈ (dStop (dRun dInit es)).2.signals := by
  obtain ⟨h1, h2, h3, h4⟩ := inv_run dInit es ⟨by simp [dInit], by simp [dInit], rfl, by simp [dInit]⟩ h
  have hf := h1 n hn
  have ha : Alive (dRun dInit es) n := by unfold Alive; rw [hn]; simp
  have h0 : ¬ Alive (dRun dInit es) 0 := by unfold Alive; rw [h3]; simp
  refine ⟨hf, ?_, ?_, fun q => c39_start_refuses _ q n h0 hf ha, ?_⟩
  · intro m hm
    have := h1 m hm
    rw [hf] at this
    cases this; rfl
  · simp [dIsRunning, dGetPid, hf, hn]
  · rw [(c39_stop_running_raises _ n h0 hf ha).1]
    simp

/-- C67 fails without that assumption: two starts that both check before either writes give two daemons; the pid-file names only
the second, and when that one exits, the file is gone, `is_running` says no, and the first daemon still runs. -/
theorem c67_race (p q : ℕ) (hp : p ≠ 0) (hq : q ≠ 0) (hpq : p ≠ q) :
    let s := dRun dInit [.begin p, .begin q, .write p, .write q]
    s.procs p = some .daemon ∧ s.procs q = some .daemon ∧ Names s q ∧
      dIsRunning (dExec s (.exit q)) = some false ∧ (dExec s (.exit q)).procs p = some .daemon := by
  simp [dRun, dExec, dInit, hp, hq, hpq, hpq.symm, dBegin, dStartCheck, dGetPid, dWrite, dExit, Names, dIsRunning]

/-- A history without overlapping starts that ends with a running daemon. -/
example : NoOverlap dInit [.begin 5, .write 5, .crash 5, .stop, .spawn 5, .begin 7, .write 7] ∧
    (dRun dInit [.begin 5, .write 5, .crash 5, .stop, .spawn 5, .begin 7, .write 7]).procs 7 = some .daemon := by
  constructor
  · simp only [NoOverlap, and_true]
    refine ⟨?_, ?_, ?_, ?_, ?_, ?_, ?_⟩ <;> intro q hq <;> simp at hq
    · intro p; simp [dInit]
    · intro p
      by_cases h : p = 5
      · subst h; simp [dExec, dInit, dBegin, dStartCheck, dGetPid, dWrite, dStop]
      · simp [dExec, dInit, dBegin, dStartCheck, dGetPid, dWrite, dStop, h]
  · simp [dRun, dExec, dInit, dBegin, dStartCheck, dGetPid, dWrite, dStop]

/-! ### The hypotheses of C39 hold after real histories -/

/-- A daemon with pid 5 is running. -/
private def daemonUp : DState := dRun dInit [.begin 5, .write 5]

private theorem daemonUp_names : Names daemonUp 5 := by
  simp [daemonUp, Names, dRun, dExec, dInit, dBegin, dStartCheck, dGetPid, dWrite]

private theorem daemonUp_alive : Alive daemonUp 5 := by
  simp [daemonUp, Alive, dRun, dExec, dInit, dBegin, dStartCheck, dGetPid, dWrite]

private theorem daemonUp_zero : ¬ Alive daemonUp 0 := by
  simp [daemonUp, Alive, dRun, dExec, dInit, dBegin, dStartCheck, dGetPid, dWrite]

example : dIsRunning daemonUp = some true ∧ dBegin 7 daemonUp = (.refused, daemonUp) ∧ (dStop daemonUp).1 = .nameError := by
  refine ⟨?_, c39_start_refuses _ 7 5 daemonUp_zero daemonUp_names daemonUp_alive, ?_⟩
  · obtain ⟨b, h1, h2⟩ := c39_status_partial daemonUp (by unfold Readable; rw [daemonUp_names]; simp)
    rw [h1, h2.mpr ⟨5, daemonUp_names, daemonUp_alive⟩]
  · rw [(c39_stop_running_raises _ 5 daemonUp_zero daemonUp_names daemonUp_alive).1]

/-- The daemon with pid 5 has died and left its file. -/
private def daemonDead : DState := dRun dInit [.begin 5, .write 5, .crash 5]

example : ∃ s', dStop daemonDead = (.ok, s') ∧ s'.file = none := by
  have hn : Names daemonDead 5 := by
    simp [daemonDead, Names, dRun, dExec, dInit, dBegin, dStartCheck, dGetPid, dWrite]
  obtain ⟨s', h1, h2, -⟩ := c39_stop_idle daemonDead (by unfold Readable; rw [hn]; simp) (by
    intro n h
    have h5 : n = 5 := by
      unfold Names at h hn
      rw [hn] at h
      simpa using h.symm
    subst h5
    simp [Alive, daemonDead, dRun, dExec, dInit, dBegin, dStartCheck, dGetPid, dWrite])
  exact ⟨s', h1, h2⟩

example : (dBegin 7 dInit).1 = .started := by
  obtain ⟨s', h, -⟩ := c39_start_fresh dInit 7 rfl
  rw [h]

example : dStop { dInit with file := some .garbage } = (.valueError, { dInit with file := some .garbage }) :=
  (c39_garbage_raises _ 1 rfl).2.1

end Verif.Props
