import Verif.Spec.SaveLoad
import Mathlib.Data.List.Dedup
import Mathlib.Tactic.Common

/-! # C38, C68: saving, loading, loggers -/
namespace Verif.Props
open Verif.Model Verif.Spec

variable {R D F W B : Type}

private theorem save_success (c : Codec R D F W B) (hc : Lawful c) (wrap : F → W) (reg : LogRegistry) (o : SObj R D F W B)
    (n : String) (ho : LiveObj wrap o n) (hs : (save c reg o).1 = true) :
    ∃ db lb b, (saveData c o) = some { o with data := db } ∧ c.dumpLog (dumpConfig n (reg n)) = some lb ∧
      c.dumpObj { o with data := db, logger := .inr lb } = some b ∧
      restoreData c { o with data := db } = some o ∧ save c reg o = (true, o, .complete b) ∧
      (∀ x, restoreData c { o with data := db, logger := x } = some { o with logger := x }) := by
  obtain ⟨h1, h2, -, -⟩ := ho
  have key : ∀ db, saveData c o = some { o with data := db } →
      (∀ x, restoreData c { o with data := db, logger := x } = some { o with logger := x }) →
      ∃ db lb b, (saveData c o) = some { o with data := db } ∧ c.dumpLog (dumpConfig n (reg n)) = some lb ∧
      c.dumpObj { o with data := db, logger := .inr lb } = some b ∧
      restoreData c { o with data := db } = some o ∧ save c reg o = (true, o, .complete b) ∧
      (∀ x, restoreData c { o with data := db, logger := x } = some { o with logger := x }) := by
    intro db hd hr
    have hsl : saveLog c reg { o with data := db } =
        (c.dumpLog (dumpConfig n (reg n))).map (fun b => { o with data := db, logger := .inr b }) := by
      unfold saveLog
      simp only [h2]
    cases hl : c.dumpLog (dumpConfig n (reg n)) with
    | none => unfold save at hs; rw [hd] at hs; simp only [hsl, hl, Option.map_none] at hs; cases hs
    | some lb =>
      cases hb : c.dumpObj { o with data := db, logger := .inr lb } with
      | none => unfold save at hs; rw [hd] at hs; simp only [hsl, hl, Option.map_some, hb] at hs; cases hs
      | some b =>
        refine ⟨db, lb, b, hd, rfl, hb, hr o.logger, ?_, hr⟩
        unfold save
        rw [hd]
        simp only [hsl, hl, Option.map_some, hb]
        rw [hr o.logger]
  rcases Option.eq_none_or_eq_some o.data with hdt | ⟨d, hdt⟩
  · apply key none
    · unfold saveData; rw [hdt]; cases o; simp_all
    · intro x; unfold restoreData; cases o; simp_all
  · obtain ⟨x, rfl⟩ := h1 d hdt
    cases hdd : c.dumpData (.inl x) with
    | none =>
      have : saveData c o = none := by unfold saveData; rw [hdt]; simp only [hdd]; rfl
      unfold save at hs; rw [this] at hs; cases hs
    | some db =>
      apply key (some (.inr db))
      · unfold saveData; rw [hdt]; simp only [hdd]; rfl
      · intro y
        unfold restoreData
        simp only [hc.1 _ _ hdd, Option.map_some]
        rw [← hdt]

/-- C38, when serialisation succeeds: `save` leaves the optimiser exactly as it was, and loading the file, in the same or another
process, gives an equal optimiser whose logger has the same name. -/
theorem c38_roundtrip_partial (c : Codec R D F W B) (hc : Lawful c) (wrap : F → W) (reg : LogRegistry) (o : SObj R D F W B)
    (n : String) (ho : LiveObj wrap o n) (hs : (save c reg o).1 = true) :
    (save c reg o).2.1 = o ∧
      ∀ canOpen setOrder reg', ∃ reg'', load c wrap canOpen setOrder reg' (save c reg o).2.2 = some (o, reg'') ∧
        reg'' = getLogger canOpen setOrder (dumpConfig n (reg n)) reg' := by
  obtain ⟨db, lb, b, -, e2, e3, -, e5, e6⟩ := save_success c hc wrap reg o n ho hs
  rw [e5]
  refine ⟨rfl, fun canOpen setOrder reg' => ⟨_, ?_, rfl⟩⟩
  unfold load
  simp only [hc.2.2 _ _ e3, Option.bind_some, e6, hc.2.1 _ _ e2, Option.map_some]
  obtain ⟨-, h2, h3, h4⟩ := ho
  congr 2
  have a : rewrap wrap o.h o.hWrap = o.hWrap := by
    rw [h3]; cases o.h <;> rfl
  have b' : rewrap wrap o.g o.gWrap = o.gWrap := by
    rw [h4]; cases o.g <;> rfl
  rw [a, b']
  show ({ o with logger := .inl n } : SObj R D F W B) = o
  rw [← h2]

/-- C38: `save` succeeds if the data, the logger configuration and the object can be serialised. -/
theorem c38_succeeds (c : Codec R D F W B) (hc : Lawful c) (wrap : F → W) (reg : LogRegistry) (o : SObj R D F W B) (n : String)
    (ho : LiveObj wrap o n) (h1 : ∀ d, (c.dumpData d).isSome) (h2 : ∀ l, (c.dumpLog l).isSome)
    (h3 : ∀ o, (c.dumpObj o).isSome) : (save c reg o).1 = true := by
  obtain ⟨hd, hl, -, -⟩ := ho
  obtain ⟨o1, e1, e1l, e1d⟩ : ∃ o1, saveData c o = some o1 ∧ o1.logger = .inl n ∧
      ∀ x, (restoreData c { o1 with logger := x }).isSome := by
    cases hdt : o.data with
    | none =>
      refine ⟨o, by unfold saveData; rw [hdt], hl, fun x => ?_⟩
      unfold restoreData; simp only [hdt]; rfl
    | some d =>
      obtain ⟨db, hdb⟩ := Option.isSome_iff_exists.1 (h1 d)
      refine ⟨{ o with data := some (.inr db) }, by unfold saveData; rw [hdt]; simp only [hdb]; rfl, hl, fun x => ?_⟩
      unfold restoreData; simp only [hc.1 _ _ hdb]; rfl
  obtain ⟨lb, hlb⟩ := Option.isSome_iff_exists.1 (h2 (dumpConfig n (reg n)))
  have e2 : saveLog c reg o1 = some { o1 with logger := .inr lb } := by
    unfold saveLog; simp only [e1l, hlb]; rfl
  obtain ⟨b, hb⟩ := Option.isSome_iff_exists.1 (h3 { o1 with logger := .inr lb })
  obtain ⟨o3, ho3⟩ := Option.isSome_iff_exists.1 (e1d o1.logger)
  unfold save
  simp only [e1, e2, hb]
  rw [ho3]

/-- C38 fails when the object cannot be serialised: data and logger of the optimiser are left as byte strings, the file is destroyed
(also an older, complete one), and no later `save` can succeed, even with a serialiser that has no fault. -/
theorem c38_failed_dump_corrupts (c : Codec R D F W B) (wrap : F → W) (reg : LogRegistry) (o : SObj R D F W B) (n : String)
    (ho : LiveObj wrap o n) (hd : ∀ d, o.data = some d → (c.dumpData d).isSome) (hl : ∀ l, (c.dumpLog l).isSome)
    (hf : ∀ o, c.dumpObj o = none) :
    (save c reg o).1 = false ∧ (∃ b, (save c reg o).2.1.logger = .inr b) ∧
      (∀ d, o.data = some d → ∃ b, (save c reg o).2.1.data = some (.inr b)) ∧ (save c reg o).2.2 = .torn ∧
      (∀ canOpen setOrder reg', load c wrap canOpen setOrder reg' (save c reg o).2.2 = none) ∧
      ∀ (c' : Codec R D F W B) (reg' : LogRegistry), (save c' reg' (save c reg o).2.1).1 = false := by
  obtain ⟨-, hlog, -, -⟩ := ho
  obtain ⟨o1, e1, e1l, e1d⟩ : ∃ o1, saveData c o = some o1 ∧ o1.logger = .inl n ∧
      ∀ d, o.data = some d → ∃ b, o1.data = some (.inr b) := by
    cases hdt : o.data with
    | none => exact ⟨o, by unfold saveData; rw [hdt], hlog, fun d hd' => by cases hd'⟩
    | some d =>
      obtain ⟨db, hdb⟩ := Option.isSome_iff_exists.1 (hd d hdt)
      exact ⟨{ o with data := some (.inr db) }, by unfold saveData; rw [hdt]; simp only [hdb]; rfl, hlog,
        fun _ _ => ⟨db, rfl⟩⟩
  obtain ⟨lb, hlb⟩ := Option.isSome_iff_exists.1 (hl (dumpConfig n (reg n)))
  have e2 : saveLog c reg o1 = some { o1 with logger := .inr lb } := by
    unfold saveLog; simp only [e1l, hlb]; rfl
  have e : save c reg o = (false, { o1 with logger := .inr lb }, .torn) := by
    unfold save
    simp only [e1, e2, hf]
  rw [e]
  refine ⟨rfl, ⟨lb, rfl⟩, e1d, rfl, fun _ _ _ => rfl, fun c' reg' => ?_⟩
  unfold save
  cases hs : saveData c' { o1 with logger := .inr lb } with
  | none => rfl
  | some o2 =>
    have : o2.logger = .inr lb := by
      unfold saveData at hs
      cases hdt : o1.data with
      | none => simp only [hdt] at hs; rw [← Option.some.inj hs]
      | some d =>
        simp only [hdt] at hs
        cases hdd : c'.dumpData d with
        | none => rw [hdd] at hs; cases hs
        | some b => rw [hdd] at hs; rw [← Option.some.inj hs]
    have h2 : saveLog c' reg' o2 = none := by unfold saveLog; rw [this]
    simp only [h2]

/-- C38: when only the data cannot be serialised the optimiser is unharmed, but the file is destroyed. -/
theorem c38_failed_data_dump (c : Codec R D F W B) (reg : LogRegistry) (o : SObj R D F W B) (d : D ⊕ B) (hd : o.data = some d)
    (h : c.dumpData d = none) : save c reg o = (false, o, .torn) := by
  have : saveData c o = none := by unfold saveData; rw [hd]; simp only [h]; rfl
  unfold save
  rw [this]

private theorem all_stream (hs : List Handler) : hs.filter Handler.isStream = hs := by
  rw [List.filter_eq_self]
  intro h _; cases h <;> rfl

/-- C38, logger: loading in the process that saved changes no logger. -/
theorem c38_logger_same_process (canOpen : String → Bool) (setOrder : List String → List String) (reg : LogRegistry) (n : String) :
    getLogger canOpen setOrder (dumpConfig n (reg n)) reg = reg := by
  unfold getLogger dumpConfig
  simp only [all_stream]
  have h1 : ¬ ((reg n).length = 0 ∧ decide ((reg n).length ≠ 0) = true) := by
    rintro ⟨a, b⟩; rw [decide_eq_true_eq] at b; exact b a
  rw [if_neg h1]
  by_cases hf : ((reg n).filter Handler.isFile).length = 0
  · simp only [if_pos hf, Function.update_eq_self]
  · simp only [if_neg hf, Function.update_eq_self]

private theorem fresh_handlers (canOpen : String → Bool) (setOrder : List String → List String) (hset : SetOrderOk setOrder)
    (cfg : LogConfig) (reg : LogRegistry) (hfresh : reg cfg.name = []) (h : Handler) :
    h ∈ getLogger canOpen setOrder cfg reg cfg.name ↔
      (h = .console ∧ cfg.console = true) ∨ ∃ f fs, h = .file f ∧ cfg.files = some fs ∧ f ∈ fs ∧ canOpen f = true := by
  have h1 : (if (([] : List Handler).filter Handler.isStream).length = 0 ∧ cfg.console = true then
      ([] : List Handler) ++ [.console] else []) = if cfg.console = true then [.console] else [] := by
    simp
  have hnf : ((if cfg.console = true then [Handler.console] else []).filter Handler.isFile).length = 0 := by
    split <;> rfl
  unfold getLogger
  simp only [Function.update_self, hfresh, h1]
  cases hfs : cfg.files with
  | none => by_cases hc : cfg.console = true <;> simp [hc]
  | some fs =>
    simp only [if_pos hnf]
    rw [List.mem_append, List.mem_map]
    constructor
    · rintro (h | ⟨f, hf, rfl⟩)
      · left
        by_cases hc : cfg.console = true
        · rw [if_pos hc, List.mem_singleton] at h; exact ⟨h, hc⟩
        · rw [if_neg hc] at h; cases h
      · rw [List.mem_filter, (hset fs).2] at hf
        exact Or.inr ⟨f, fs, rfl, rfl, hf.1, hf.2⟩
    · rintro (⟨rfl, hc⟩ | ⟨f, fs', rfl, hfs', hf, ho⟩)
      · left; rw [if_pos hc]; exact List.mem_singleton.2 rfl
      · right
        cases hfs'
        exact ⟨f, by rw [List.mem_filter, (hset fs).2]; exact ⟨hf, ho⟩, rfl⟩

private theorem dump_mem_file (hs : List Handler) (f : String) (n : String) :
    (∃ fs, (dumpConfig n hs).files = some fs ∧ f ∈ fs) ↔ Handler.file f ∈ hs := by
  unfold dumpConfig
  simp only
  by_cases h0 : (hs.filter Handler.isFile).length = 0
  · rw [if_pos h0]
    constructor
    · rintro ⟨fs, h, -⟩; cases h
    · intro h
      have : Handler.file f ∈ hs.filter Handler.isFile := List.mem_filter.2 ⟨h, rfl⟩
      rw [List.length_eq_zero_iff.1 h0] at this; cases this
  · rw [if_neg h0]
    constructor
    · rintro ⟨fs, h, hf⟩
      rw [← Option.some.inj h, List.mem_filterMap] at hf
      obtain ⟨k, hk, hkf⟩ := hf
      rw [List.mem_filter] at hk
      cases k with
      | console => cases hkf
      | file m => cases hkf; exact hk.1
    · intro h
      exact ⟨_, rfl, List.mem_filterMap.2 ⟨.file f, List.mem_filter.2 ⟨h, rfl⟩, rfl⟩⟩

private theorem dump_console (hs : List Handler) (n : String) : (dumpConfig n hs).console = true ↔ hs ≠ [] := by
  unfold dumpConfig
  simp only [all_stream, decide_eq_true_eq, ne_eq, List.length_eq_zero_iff]

/-- C38, logger in a new process: if the optimiser logged to the console, or nowhere, and the log files can still be opened, the
loaded optimiser logs to the same places. -/
theorem c38_logger_new_process_partial (canOpen : String → Bool) (setOrder : List String → List String)
    (hset : SetOrderOk setOrder) (reg reg' : LogRegistry) (n : String) (hfresh : reg' n = [])
    (hcon : Handler.console ∈ reg n ∨ reg n = []) (hopen : ∀ f, Handler.file f ∈ reg n → canOpen f = true) (h : Handler) :
    h ∈ getLogger canOpen setOrder (dumpConfig n (reg n)) reg' n ↔ h ∈ reg n := by
  have := fresh_handlers canOpen setOrder hset (dumpConfig n (reg n)) reg' hfresh h
  have hn : (dumpConfig n (reg n)).name = n := rfl
  rw [hn] at this
  rw [this, dump_console]
  constructor
  · rintro (⟨rfl, hne⟩ | ⟨f, fs, rfl, h1, h2, -⟩)
    · rcases hcon with hc | hc
      · exact hc
      · exact absurd hc hne
    · exact (dump_mem_file (reg n) f n).1 ⟨fs, h1, h2⟩
  · intro hh
    cases h with
    | console => exact Or.inl ⟨rfl, fun he => by rw [he] at hh; cases hh⟩
    | file f =>
      obtain ⟨fs, h1, h2⟩ := (dump_mem_file (reg n) f n).2 hh
      exact Or.inr ⟨f, fs, rfl, h1, h2, hopen f hh⟩

/-- C38 fails for an optimiser that logs only to files: loaded in a new process it also logs to the console. -/
theorem c38_file_logger_gains_console (canOpen : String → Bool) (setOrder : List String → List String)
    (hset : SetOrderOk setOrder) (reg reg' : LogRegistry) (n f : String) (hfresh : reg' n = [])
    (hf : Handler.file f ∈ reg n) :
    Handler.console ∈ getLogger canOpen setOrder (dumpConfig n (reg n)) reg' n := by
  have := fresh_handlers canOpen setOrder hset (dumpConfig n (reg n)) reg' hfresh .console
  have hn : (dumpConfig n (reg n)).name = n := rfl
  rw [hn] at this
  rw [this, dump_console]
  exact Or.inl ⟨rfl, fun he => by rw [he] at hf; cases hf⟩

/-- C68 for a new name: the optimiser logs to the console exactly if it is verbose, and to exactly the given files that can be
opened; the other loggers do not change. -/
theorem c68_new_logger_partial (canOpen : String → Bool) (setOrder : List String → List String) (hset : SetOrderOk setOrder)
    (cfg : LogConfig) (reg : LogRegistry) (hfresh : reg cfg.name = []) :
    (Handler.console ∈ getLogger canOpen setOrder cfg reg cfg.name ↔ cfg.console = true) ∧
    (∀ f, Handler.file f ∈ getLogger canOpen setOrder cfg reg cfg.name ↔
      ∃ fs, cfg.files = some fs ∧ f ∈ fs ∧ canOpen f = true) ∧
    ∀ m, m ≠ cfg.name → getLogger canOpen setOrder cfg reg m = reg m := by
  have key := fresh_handlers canOpen setOrder hset cfg reg hfresh
  refine ⟨?_, ?_, ?_⟩
  · rw [key .console]; simp
  · intro f
    rw [key (.file f)]
    constructor
    · rintro (⟨h, -⟩ | ⟨f', fs, h, h1, h2, h3⟩)
      · cases h
      · cases h; exact ⟨fs, h1, h2, h3⟩
    · rintro ⟨fs, h1, h2, h3⟩; exact Or.inr ⟨f, fs, rfl, h1, h2, h3⟩
  · intro m hm
    unfold getLogger
    simp only [Function.update_of_ne hm]

/-- C68 fails for a name in use whose logger writes to a file: a verbose optimiser stays silent on the console and its own log file is
ignored. -/
theorem c68_shared_name (canOpen : String → Bool) (setOrder : List String → List String) (cfg : LogConfig) (reg : LogRegistry)
    (f : String) (h : reg cfg.name = [.file f]) : getLogger canOpen setOrder cfg reg = reg := by
  unfold getLogger
  simp only [h]
  have h1 : ¬ (([Handler.file f].filter Handler.isStream).length = 0 ∧ cfg.console = true) := by
    rintro ⟨a, -⟩; simp [Handler.isStream] at a
  rw [if_neg h1]
  have : Function.update reg cfg.name [Handler.file f] = reg := by rw [← h, Function.update_eq_self]
  cases cfg.files with
  | none => exact this
  | some fs => simpa [Handler.isFile] using this

/-! ### A serialiser that satisfies the assumptions -/

private inductive ExB where
  | data (d : ℕ)
  | log (c : LogConfig)
  | obj (r : ℕ) (d : ℕ) (l : LogConfig) (h g hw gw : Option ℕ)

private def exCodec : Codec ℕ ℕ ℕ ℕ ExB where
  dumpData := fun d => match d with | .inl d => some (.data d) | .inr _ => none
  loadData := fun b => match b with | .data d => some (.inl d) | _ => none
  dumpLog := fun c => some (.log c)
  loadLog := fun b => match b with | .log c => some c | _ => none
  dumpObj := fun o => match o.data, o.logger with
    | some (.inr (.data d)), .inr (.log l) => some (.obj o.rest d l o.h o.g o.hWrap o.gWrap)
    | _, _ => none
  loadObj := fun b => match b with
    | .obj r d l h g hw gw => some ⟨r, some (.inr (.data d)), .inr (.log l), h, g, hw, gw⟩
    | _ => none

private theorem ex_lawful : Lawful exCodec := by
  refine ⟨?_, ?_, ?_⟩
  · intro d b h
    cases d with
    | inl d => cases h; rfl
    | inr d => cases h
  · intro l b h; cases h; rfl
  · rintro ⟨r, d, l, h, g, hw, gw⟩ b hb
    simp only [exCodec] at hb
    split at hb
    · rw [← Option.some.inj hb]; rfl
    · cases hb

/-- The hypotheses of `c38_roundtrip_partial` are met by an optimiser with data and one constraint, and `save` succeeds. -/
example : Lawful exCodec ∧ LiveObj (· + 1) (⟨5, some (.inl 7), .inl "BO (1)", some 3, none, some 4, none⟩ :
      SObj ℕ ℕ ℕ ℕ ExB) "BO (1)" ∧
    (save exCodec (fun _ => [.console, .file "a.log"])
      ⟨5, some (.inl 7), .inl "BO (1)", some 3, none, some 4, none⟩).1 = true := by
  refine ⟨ex_lawful, ⟨?_, rfl, rfl, rfl⟩, rfl⟩
  intro d hd; cases hd; exact ⟨7, rfl⟩

/-- A set traversal. -/
example : SetOrderOk List.dedup := fun l => ⟨List.nodup_dedup l, fun _ => List.mem_dedup⟩

end Verif.Props
