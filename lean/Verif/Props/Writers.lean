import Verif.Lemmas.Writers
/-! # Properties C140 and C141: writers to strings and to files; the help text -/
open WriterSpec (Op added ok)
open WritersSpec (addedFile count counts)

namespace Writers

/-- A world with two blocks and streams, of which number 7 takes four more bytes. -/
def w0 : World := ⟨[0, 3], 5, fun f => ⟨[0x23], if f = 7 then 4 else 0, true⟩⟩

theorem addedFile_eq {op : Op} (h : op ≠ .writeChar 0) : addedFile op = added op := by
  cases op with
  | writeChar c =>
    have : c ≠ 0 := fun hc => h (by rw [hc])
    simp [addedFile, added, this]
  | _ => rfl

/-- C140. A file writer: after any series of calls the file holds what it held, followed by the text written,
as much of it as the file takes; other files are not touched; and the results of the calls say how much was taken.
The writer itself is the only block allocated. -/
theorem C140_file_writer (σ : World) (f : Nat) (hopen : (σ.files f).isOpen = true) (ops : List Op) (hok : ∀ op ∈ ops, ok op) :
    ∃ σ' h', execs (fileWriter σ f).1 (fileWriter σ f).2 ops = some (σ', h', counts (σ.files f).room ops) ∧
      (σ'.files f).content = (σ.files f).content ++ (ops.flatMap addedFile).take (σ.files f).room ∧
      (σ'.files f).isOpen = true ∧
      (∀ g, g ≠ f → σ'.files g = σ.files g) ∧
      σ'.live = h'.self :: σ.live := by
  obtain ⟨σ', e1, e2⟩ := fileExecs ops (fileInit σ f hopen) hok
  refine ⟨σ', _, e1, ?_, ?_, e2.files, ?_⟩
  · rw [e2.file]; simp
  · rw [e2.file]
  · rw [e2.live]; simp [fileWriter, alloc]

/-- C140. A string writer given the same calls: the data is the text, terminated; no file is touched. -/
theorem C140_string_writer (σ : World) (ops : List Op) (hok : ∀ op ∈ ops, ok op) :
    ∃ σ' h', execs (stringWriter σ).1 (stringWriter σ).2 ops = some (σ', h', ops.map fun op => (added op).length) ∧
      stringWriterData σ' h' = some (some (ops.flatMap added ++ [0])) ∧
      stringWriterLength σ' h' = some (some (ops.flatMap added).length) ∧
      σ'.files = σ.files := by
  obtain ⟨h', e1, e2⟩ := strExecs ops (strInit σ) hok
  obtain ⟨⟨w, rfl, hw⟩, hl, -, hf⟩ := e2
  have h1 : σ.next ∈ (stringWriter σ).1.live := by rw [hl]; simp
  have h2 : σ.next + 1 ∈ (stringWriter σ).1.live := by rw [hl]; simp
  refine ⟨_, _, e1, ?_, ?_, hf⟩
  · simp only [stringWriterData, h1, h2, if_true]
    rw [Writer.dataZ_ok hw]; simp
  · simp only [stringWriterLength, h1, if_true, Writer.length, hw.len]; simp

/-- The counts are those of the whole texts exactly when the file took everything. -/
theorem counts_full : ∀ (ops : List Op) (room : Nat), (∀ op ∈ ops, ok op) →
    (counts room ops = ops.map (fun op => (addedFile op).length) ↔ (ops.flatMap addedFile).length ≤ room) := by
  intro ops
  induction ops with
  | nil => intro room _; simp [counts]
  | cons op ops ih =>
    intro room hok
    have hb : ∀ t, op = .writeF t → t.length ≤ 2147483647 := by
      intro t ht; have := hok op (by simp); rw [ht] at this; exact this.2
    simp only [counts, List.map_cons, List.cons.injEq, List.flatMap_cons, List.length_append]
    rw [ih _ (fun o ho => hok o (by simp [ho]))]
    have hc : count room op = (addedFile op).length ↔ (addedFile op).length ≤ room := by
      simp only [count]
      split
      · simp [*]
      · rename_i hgt
        constructor
        · cases op with
          | writeF t =>
            have := hb t rfl
            simp only [addedFile, added]
            intro h; omega
          | _ => simp only [addedFile] at hgt ⊢; intro h; omega
        · intro h; exact absurd h hgt
    rw [hc]
    omega

/-- C140. Nothing is lost in silence: the calls return the lengths of the texts exactly when the file took all of them. -/
theorem C140_loss_is_reported (σ : World) (f : Nat) (hopen : (σ.files f).isOpen = true) (ops : List Op) (hok : ∀ op ∈ ops, ok op) :
    ∃ σ' h' ns, execs (fileWriter σ f).1 (fileWriter σ f).2 ops = some (σ', h', ns) ∧
      (ns = ops.map (fun op => (addedFile op).length) ↔
        (σ'.files f).content = (σ.files f).content ++ ops.flatMap addedFile) := by
  obtain ⟨σ', h', e1, e2, -⟩ := C140_file_writer σ f hopen ops hok
  refine ⟨σ', h', _, e1, ?_⟩
  rw [counts_full ops _ hok, e2, List.append_cancel_left_eq]
  refine ⟨fun h => List.take_of_length_le h, fun h => ?_⟩
  have := congrArg List.length h
  simp only [List.length_take] at this
  omega

/-- C140. Same text whichever the destination: when the file has room and no NUL character is written,
the file gets exactly what `StringWriterData` shows, and every call returns the same. -/
theorem C140_same_text (σ : World) (f : Nat) (hopen : (σ.files f).isOpen = true) (ops : List Op) (hok : ∀ op ∈ ops, ok op)
    (hnul : .writeChar 0 ∉ ops) (hroom : (ops.flatMap added).length ≤ (σ.files f).room) :
    ∃ σ₁ h₁ σ₂ h₂ ns text,
      execs (fileWriter σ f).1 (fileWriter σ f).2 ops = some (σ₁, h₁, ns) ∧
      execs (stringWriter σ).1 (stringWriter σ).2 ops = some (σ₂, h₂, ns) ∧
      (σ₁.files f).content = (σ.files f).content ++ text ∧
      stringWriterData σ₂ h₂ = some (some (text ++ [0])) := by
  have heq : ∀ op ∈ ops, addedFile op = added op := fun op ho => addedFile_eq (fun h => hnul (h ▸ ho))
  have hfm : ops.flatMap addedFile = ops.flatMap added := by
    rw [List.flatMap_def, List.flatMap_def, List.map_congr_left heq]
  obtain ⟨σ₁, h₁, e1, e2, -⟩ := C140_file_writer σ f hopen ops hok
  obtain ⟨σ₂, h₂, f1, f2, -⟩ := C140_string_writer σ ops hok
  refine ⟨σ₁, h₁, σ₂, h₂, _, _, e1, ?_, ?_, f2⟩
  · rw [(counts_full ops _ hok).mpr (by rw [hfm]; exact hroom), f1]
    congr 3
    exact List.map_congr_left fun op ho => by rw [heq op ho]
  · rw [e2, hfm, List.take_of_length_le hroom]

example : ∀ op ∈ [Op.write [0x61], .writeF [0x62, 0x63], .writeChar 0x64, .writeLen [0x65, 0, 0x66] 3], ok op := by
  intro op h
  simp only [List.mem_cons, List.not_mem_nil, or_false] at h
  rcases h with rfl | rfl | rfl | rfl <;> simp [ok]
/-- Room for four bytes: the fifth is not taken, and the call says so. -/
example : counts 4 [Op.write [0x61], .writeF [0x62, 0x63], .writeChar 0x64, .writeLen [0x65, 0, 0x66] 3] = [1, 2, 1, 0] := by decide

/-- C140. `WriterClose` gives back every block the writer held and closes the stream of a file writer, and nothing else. -/
theorem C140_close_file (σ : World) (f : Nat) (hopen : (σ.files f).isOpen = true) (ops : List Op) (hok : ∀ op ∈ ops, ok op) :
    ∃ σ' h' ns σ'', execs (fileWriter σ f).1 (fileWriter σ f).2 ops = some (σ', h', ns) ∧ close σ' h' = some σ'' ∧
      σ''.live = σ.live ∧ (σ''.files f).isOpen = false ∧ (σ''.files f).content = (σ'.files f).content ∧
      (∀ g, g ≠ f → σ''.files g = σ.files g) := by
  obtain ⟨σ', e1, e2⟩ := fileExecs ops (fileInit σ f hopen) hok
  refine ⟨σ', _, _, { setFile σ' f { σ'.files f with isOpen := false } with live := σ.live }, e1, ?_, rfl, ?_, ?_, ?_⟩
  · have hs : (fileWriter σ f).2.self ∈ σ'.live := by rw [e2.live]; simp [fileWriter, alloc]
    have hk : (fileWriter σ f).2.kind = .file f := rfl
    have ho : (σ'.files f).isOpen = true := by rw [e2.file]
    simp only [close, hs, hk, ho, if_true, free, setFile]
    rw [e2.live]
    simp [fileWriter, alloc]
  · simp [setFile]
  · simp [setFile]
  · intro g hg; simp [setFile, hg, e2.files g hg]

/-- C140. Closing a string writer gives back both blocks. -/
theorem C140_close_string (σ : World) (ops : List Op) (hok : ∀ op ∈ ops, ok op) :
    ∃ σ' h' ns σ'', execs (stringWriter σ).1 (stringWriter σ).2 ops = some (σ', h', ns) ∧ close σ' h' = some σ'' ∧
      σ''.live = σ.live ∧ σ''.files = σ.files := by
  obtain ⟨h', e1, e2⟩ := strExecs ops (strInit σ) hok
  obtain ⟨⟨w, rfl, hw⟩, hl, -, hf⟩ := e2
  refine ⟨_, _, _, { (stringWriter σ).1 with live := σ.live }, e1, ?_, rfl, hf⟩
  have h1 : σ.next ∈ (stringWriter σ).1.live := by rw [hl]; simp
  simp only [close, h1, if_true, free, hl]
  simp

/-- C140. `StringWriterClose` hands the text, terminated, to the caller in the one block left. -/
theorem C140_string_close (σ : World) (ops : List Op) (hok : ∀ op ∈ ops, ok op) :
    ∃ σ' h' ns σ'' d w, execs (stringWriter σ).1 (stringWriter σ).2 ops = some (σ', h', ns) ∧
      stringWriterClose σ' h' = some (some (σ'', d, w)) ∧
      σ''.live = d :: σ.live ∧ Writer.dataZ w = some (ops.flatMap added ++ [0]) ∧ σ''.files = σ.files := by
  obtain ⟨h', e1, e2⟩ := strExecs ops (strInit σ) hok
  obtain ⟨⟨w, rfl, hw⟩, hl, -, hf⟩ := e2
  have h1 : σ.next ∈ (stringWriter σ).1.live := by rw [hl]; simp
  refine ⟨_, _, _, { (stringWriter σ).1 with live := (σ.next + 1) :: σ.live }, σ.next + 1, w, e1, ?_, rfl, by simpa using Writer.dataZ_ok hw, hf⟩
  simp only [stringWriterClose, h1, if_true, free, hl, Option.map_some]
  simp

/-- C140. `FileWriterDetach` gives the stream back open, with what has been written, and frees the writer. -/
theorem C140_detach (σ : World) (f : Nat) (hopen : (σ.files f).isOpen = true) (ops : List Op) (hok : ∀ op ∈ ops, ok op) :
    ∃ σ' h' ns σ'', execs (fileWriter σ f).1 (fileWriter σ f).2 ops = some (σ', h', ns) ∧ detach σ' h' = some (some (σ'', f)) ∧
      σ''.live = σ.live ∧ σ''.files = σ'.files ∧ (σ''.files f).isOpen = true := by
  obtain ⟨σ', e1, e2⟩ := fileExecs ops (fileInit σ f hopen) hok
  have hs : (fileWriter σ f).2.self ∈ σ'.live := by rw [e2.live]; simp [fileWriter, alloc]
  have hk : (fileWriter σ f).2.kind = .file f := rfl
  refine ⟨σ', _, _, { σ' with live := σ.live }, e1, ?_, rfl, rfl, by simp [e2.file]⟩
  simp only [detach, hs, hk, if_true, free, Option.map_some]
  rw [e2.live]
  simp [fileWriter, alloc]

/-- C140. Asking a writer for what the other kind has ends the program; nothing is read that is not there. -/
theorem C140_wrong_kind (σ : World) (h : Handle) (hs : h.self ∈ σ.live) :
    (∀ f, h.kind = .file f → stringWriterData σ h = some none ∧ stringWriterLength σ h = some none ∧ stringWriterClose σ h = some none) ∧
    (∀ w d, h.kind = .string w d → detach σ h = some none) := by
  constructor
  · intro f hk; simp [stringWriterData, stringWriterLength, stringWriterClose, hs, hk]
  · intro w d hk; simp [detach, hs, hk]

/-- Finding: a NUL character goes into a string writer (and counts) but not into a file. -/
theorem C140_nul_character_negated :
    (∃ σ h, writeChar (stringWriter w0).1 (stringWriter w0).2 0 = some (σ, h, 1) ∧ stringWriterLength σ h = some (some 1)) ∧
    (∃ σ h, writeChar (fileWriter w0 7).1 (fileWriter w0 7).2 0 = some (σ, h, 0) ∧ (σ.files 7).content = (w0.files 7).content) := by
  refine ⟨⟨_, _, rfl, by decide⟩, ⟨_, _, rfl, by decide⟩⟩

/-- Finding: a formatted text with a NUL in it (`%c` with 0) is cut at the NUL in a string writer, and written whole to a file. -/
theorem C140_nul_in_format_negated :
    (∃ σ h, writeF (stringWriter w0).1 (stringWriter w0).2 [0x61, 0, 0x62] = some (σ, h, 1)) ∧
    (∃ σ h, writeF (fileWriter w0 7).1 (fileWriter w0 7).2 [0x61, 0, 0x62] = some (σ, h, 3) ∧ (σ.files 7).content = [0x23, 0x61, 0, 0x62]) := by
  refine ⟨⟨_, _, rfl⟩, ⟨_, _, rfl, by decide⟩⟩

/-- Finding: a formatted write to a full file returns a huge count, not a short one. -/
theorem C140_failed_format_count_negated :
    ∃ σ h, writeF (fileWriter w0 7).1 (fileWriter w0 7).2 [0x61, 0x62, 0x63, 0x64, 0x65] = some (σ, h, 2 ^ 64 - 1) := ⟨_, _, rfl⟩

/-! ## The help text -/

open WritersSpec (OptItem CmdItem optLine cmdLines optSection cmdSection footer help ascii column short)

/-- The array of `struct option` for the items, ended as `getopt_long` wants it, whatever follows in memory. -/
def optArray (os : List OptItem) (junk : List Opt) : List Opt :=
  os.map (fun o => ⟨some o.name, o.takesValue, o.val⟩) ++ ⟨none, false, 0⟩ :: junk

def cmdArray (cs : List CmdItem) (junk : List Descr) : List Descr :=
  cs.map (fun c => ⟨some c.name, c.description, c.usage⟩) ++ ⟨none, [], []⟩ :: junk

theorem short_eq {v : Int} (h : 0 < v) : shortOption v = short v := by
  unfold shortOption short
  by_cases h2 : v < 128
  · rw [if_pos h2, if_pos ⟨h, h2⟩]
    have h3 : (v % 256).toNat = v.toNat := by omega
    have h4 : UInt8.ofNat v.toNat ≠ 0 := by
      intro hh
      have := congrArg UInt8.toNat hh
      simp at this; omega
    rw [h3, List.takeWhile_append_of_pos (by decide +kernel)]
    simp [h4, str, ascii]
  · rw [if_neg h2, if_neg (by omega)]

theorem optionText_eq (o : OptItem) (h : 0 < o.val) : optionText o.name ⟨some o.name, o.takesValue, o.val⟩ o.hint = optLine o := by
  unfold optionText optLine
  rw [short_eq h]
  have : ascii " value" ++ ascii " - " = str " value - " := by decide +kernel
  cases o.takesValue
  · rfl
  · simp only [if_true, ← this, List.append_assoc]; rfl

theorem optionsFrom_eq (os : List OptItem) (junk : List Opt) (hj : List Bytes) (hv : ∀ o ∈ os, 0 < o.val) :
    ∀ (k i : Nat), i + k = os.length → ∀ σ h,
      optionsFrom (optArray os junk) (os.map OptItem.hint ++ hj) i σ h = runF σ h ((os.drop i).map optLine) := by
  intro k
  induction k with
  | zero =>
    intro i hi σ h
    rw [optionsFrom]
    rw [dif_pos (by simp [optArray]; omega)]
    have : (optArray os junk)[i]'(by simp [optArray]; omega) = ⟨none, false, 0⟩ := by
      simp only [optArray]; rw [List.getElem_append_right (by simp; omega)]; simp [show i - os.length = 0 by omega]
    simp only [this]
    rw [List.drop_of_length_le (by omega)]; rfl
  | succ k ih =>
    intro i hi σ h
    rw [optionsFrom]
    have hlt : i < os.length := by omega
    rw [dif_pos (by simp [optArray]; omega)]
    have : (optArray os junk)[i]'(by simp [optArray]; omega) = ⟨some os[i].name, os[i].takesValue, os[i].val⟩ := by
      simp only [optArray]; rw [List.getElem_append_left (by simpa using hlt)]; simp
    simp only [this]
    have hh : (os.map OptItem.hint ++ hj)[i]? = some os[i].hint := by
      rw [List.getElem?_append_left (by simpa using hlt)]; simp [hlt]
    simp only [hh, Option.bind_eq_bind, Option.bind_some]
    rw [optionText_eq _ (hv _ (List.getElem_mem _))]
    rw [List.drop_eq_getElem_cons hlt, List.map_cons, runF]
    cases writeF σ h (optLine os[i]) with
    | none => rfl
    | some r => simp only [Option.bind_eq_bind, Option.bind_some]; exact ih (i + 1) (by omega) _ _

def cmdTexts (c : CmdItem) : List Bytes :=
  [str "  " ++ padRight 12 c.name ++ str " - " ++ c.description ++ str ".\n",
   str "  " ++ padRight 12 [] ++ str "   Usage: " ++ c.usage ++ str "\n"]

theorem cmdTexts_flatten (c : CmdItem) : (cmdTexts c).flatten = cmdLines c := by
  simp only [cmdTexts, cmdLines, List.flatten_cons, List.flatten_nil, List.append_nil, List.append_assoc]
  rfl

theorem commandsFrom_eq (cs : List CmdItem) (junk : List Descr) :
    ∀ (k i : Nat), i + k = cs.length → ∀ σ h,
      commandsFrom (cmdArray cs junk) i σ h = runF σ h ((cs.drop i).flatMap cmdTexts) := by
  intro k
  induction k with
  | zero =>
    intro i hi σ h
    rw [commandsFrom]
    rw [dif_pos (by simp [cmdArray]; omega)]
    have : (cmdArray cs junk)[i]'(by simp [cmdArray]; omega) = ⟨none, [], []⟩ := by
      simp only [cmdArray]; rw [List.getElem_append_right (by simp; omega)]; simp [show i - cs.length = 0 by omega]
    simp only [this]
    rw [List.drop_of_length_le (by omega)]; rfl
  | succ k ih =>
    intro i hi σ h
    rw [commandsFrom]
    have hlt : i < cs.length := by omega
    rw [dif_pos (by simp [cmdArray]; omega)]
    have : (cmdArray cs junk)[i]'(by simp [cmdArray]; omega) = ⟨some cs[i].name, cs[i].description, cs[i].usage⟩ := by
      simp only [cmdArray]; rw [List.getElem_append_left (by simpa using hlt)]; simp
    simp only [this]
    rw [List.drop_eq_getElem_cons hlt, List.flatMap_cons, runF_append]
    simp only [cmdTexts, runF]
    generalize (str "  " ++ padRight 12 cs[i].name ++ str " - " ++ cs[i].description ++ str ".\n") = t1
    generalize (str "  " ++ padRight 12 [] ++ str "   Usage: " ++ cs[i].usage ++ str "\n") = t2
    cases writeF σ h t1 with
    | none => rfl
    | some r =>
      simp only [Option.bind_eq_bind, Option.bind_some]
      cases writeF r.1 r.2.1 t2 with
      | none => rfl
      | some r => simp only [Option.bind_some]; exact ih (i + 1) (by omega) _ _

def optsTexts (os : List OptItem) : List Bytes := str "\nOptions:\n" :: os.map optLine
def cmdsTexts (cs : List CmdItem) : List Bytes := str "\nCommands:\n" :: cs.flatMap cmdTexts
def cmdsTextsIf (b : Bool) : Option (List CmdItem) → List Bytes
  | none => []
  | some cs => if b then cmdsTexts cs else []

def usage (component : Bytes) (hasCmds commandFirst file : Bool) : Bytes :=
  str "Usage: " ++ component
    ++ (if hasCmds && commandFirst then str " COMMAND" else [])
    ++ str " [OPTIONS]"
    ++ (if hasCmds && !commandFirst then str " COMMAND" else [])
    ++ (if file then str " [FILE]" else []) ++ str "\n"

def helpTexts (component : Bytes) (os : List OptItem) (cs : Option (List CmdItem)) (commandFirst file : Bool) : List Bytes :=
  [usage component cs.isSome commandFirst file] ++ cmdsTextsIf commandFirst cs ++ optsTexts os ++ cmdsTextsIf (!commandFirst) cs ++
    [str "\nWebsite: http://www.cfengine.com\n", str "This software is Copyright (C) 2008,2010-present Northern.tech AS.\n"]

theorem writeOptions_eq (os : List OptItem) (junk : List Opt) (hj : List Bytes) (hv : ∀ o ∈ os, 0 < o.val) (σ : World) (h : Handle) :
    writeOptions σ h (optArray os junk) (os.map OptItem.hint ++ hj) = runF σ h (optsTexts os) := by
  simp only [writeOptions, optsTexts, runF]
  cases writeF σ h (str "\nOptions:\n") with
  | none => rfl
  | some r =>
    simp only [Option.bind_eq_bind, Option.bind_some]
    rw [optionsFrom_eq os junk hj hv os.length 0 (by omega)]; rfl

theorem commandsIf_eq (b : Bool) (cs : Option (List CmdItem)) (junk : List Descr) (σ : World) (h : Handle) :
    commandsIf b (cs.map (cmdArray · junk)) σ h = runF σ h (cmdsTextsIf b cs) := by
  cases cs with
  | none => rfl
  | some cs =>
    simp only [commandsIf, Option.map_some, cmdsTextsIf]
    cases b
    · rfl
    · simp only [if_true, writeCommands, cmdsTexts, runF]
      cases writeF σ h (str "\nCommands:\n") with
      | none => rfl
      | some r =>
        simp only [Option.bind_eq_bind, Option.bind_some]
        rw [commandsFrom_eq cs junk cs.length 0 (by omega)]; rfl

theorem writeHelp_eq (component : Bytes) (os : List OptItem) (cs : Option (List CmdItem)) (cf file : Bool)
    (junk : List Opt) (hj : List Bytes) (cj : List Descr) (hv : ∀ o ∈ os, 0 < o.val) (σ : World) (h : Handle) :
    writeHelp σ h component (optArray os junk) (os.map OptItem.hint ++ hj) (cs.map (cmdArray · cj)) cf file
      = runF σ h (helpTexts component os cs cf file) := by
  simp only [helpTexts, runF_append, runF, writeHelp, Option.isSome_map]
  rw [show (str "Usage: " ++ component ++ (if (cs.isSome && cf) = true then str " COMMAND" else []) ++ str " [OPTIONS]" ++
    (if (cs.isSome && !cf) = true then str " COMMAND" else []) ++ (if file = true then str " [FILE]" else []) ++ str "\n") =
      usage component cs.isSome cf file from rfl]
  cases writeF σ h (usage component cs.isSome cf file) with
  | none => rfl
  | some r =>
    simp only [Option.bind_eq_bind, Option.bind_some, commandsIf_eq]
    cases runF r.1 r.2.1 (cmdsTextsIf cf cs) with
    | none => rfl
    | some r =>
      simp only [Option.bind_some]
      rw [writeOptions_eq os junk hj hv]
      cases runF r.1 r.2 (optsTexts os) with
      | none => rfl
      | some r =>
        simp only [Option.bind_some]

theorem cmdsTexts_flatten (cs : List CmdItem) : (cmdsTexts cs).flatten = cmdSection cs := by
  have : (cs.flatMap cmdTexts).flatten = cs.flatMap cmdLines := by
    induction cs with
    | nil => rfl
    | cons c cs ih => rw [List.flatMap_cons, List.flatten_append, cmdTexts_flatten, ih, List.flatMap_cons]
  simp only [cmdsTexts, List.flatten_cons, this, cmdSection]
  rfl

theorem optsTexts_flatten (os : List OptItem) : (optsTexts os).flatten = optSection os := by
  simp only [optsTexts, List.flatten_cons, optSection, List.flatMap_def]
  rfl

theorem helpTexts_flatten (component : Bytes) (os : List OptItem) (cs : Option (List CmdItem)) (cf file : Bool) :
    (helpTexts component os cs cf file).flatten = help component os cs cf file := by
  unfold helpTexts help
  simp only [List.flatten_append, optsTexts_flatten, List.flatten_cons, List.flatten_nil, List.append_nil]
  cases cs with
  | none => cases file <;> simp [usage, cmdsTextsIf, footer] <;> rfl
  | some cs => cases cf <;> cases file <;> simp [usage, cmdsTextsIf, cmdsTexts_flatten, footer] <;> rfl

theorem texts_ok (ts : List Bytes) (h0 : 0 ∉ ts.flatten) (hl : ts.flatten.length ≤ 2147483647) : ∀ op ∈ ts.map Op.writeF, ok op := by
  intro op ho
  obtain ⟨t, ht, rfl⟩ := List.mem_map.mp ho
  refine ⟨fun h => h0 (List.mem_flatten.mpr ⟨t, ht, h⟩), ?_⟩
  have := (List.sublist_flatten_of_mem ht).length_le
  omega

theorem flatMap_writeF (ts : List Bytes) : (ts.map Op.writeF).flatMap added = ts.flatten ∧ (ts.map Op.writeF).flatMap addedFile = ts.flatten := by
  induction ts with
  | nil => exact ⟨rfl, rfl⟩
  | cons t ts ih => simp [List.flatMap_cons, ih.1, ih.2, added, addedFile]

/-- C141. `WriterWriteHelp` writes exactly the help text to a string writer: every option with its hint, in order, and nothing past the
end of the arrays is read; with arrays that are ended properly, hints for every option, and short options given as ASCII. -/
theorem C141_help_string (σ : World) (component : Bytes) (os : List OptItem) (cs : Option (List CmdItem)) (cf file : Bool)
    (junk : List Opt) (hj : List Bytes) (cj : List Descr) (hv : ∀ o ∈ os, 0 < o.val)
    (h0 : 0 ∉ help component os cs cf file) (hl : (help component os cs cf file).length ≤ 2147483647) :
    ∃ σ' h', writeHelp (stringWriter σ).1 (stringWriter σ).2 component (optArray os junk) (os.map OptItem.hint ++ hj)
        (cs.map (cmdArray · cj)) cf file = some (σ', h') ∧
      stringWriterData σ' h' = some (some (help component os cs cf file ++ [0])) := by
  rw [writeHelp_eq _ _ _ _ _ _ _ _ hv, runF_eq]
  rw [← helpTexts_flatten] at h0 hl ⊢
  obtain ⟨σ', h', e1, e2, -⟩ := C140_string_writer σ _ (texts_ok _ h0 hl)
  rw [(flatMap_writeF _).1] at e2
  exact ⟨σ', h', by rw [e1]; rfl, e2⟩

/-- C141. The same to a file, as far as the file takes it. -/
theorem C141_help_file (σ : World) (f : Nat) (hopen : (σ.files f).isOpen = true) (component : Bytes) (os : List OptItem)
    (cs : Option (List CmdItem)) (cf file : Bool)
    (junk : List Opt) (hj : List Bytes) (cj : List Descr) (hv : ∀ o ∈ os, 0 < o.val)
    (h0 : 0 ∉ help component os cs cf file) (hl : (help component os cs cf file).length ≤ 2147483647) :
    ∃ σ' h', writeHelp (fileWriter σ f).1 (fileWriter σ f).2 component (optArray os junk) (os.map OptItem.hint ++ hj)
        (cs.map (cmdArray · cj)) cf file = some (σ', h') ∧
      (σ'.files f).content = (σ.files f).content ++ (help component os cs cf file).take (σ.files f).room := by
  rw [writeHelp_eq _ _ _ _ _ _ _ _ hv, runF_eq]
  rw [← helpTexts_flatten] at h0 hl ⊢
  obtain ⟨σ', h', e1, e2, -⟩ := C140_file_writer σ f hopen _ (texts_ok _ h0 hl)
  rw [(flatMap_writeF _).2] at e2
  exact ⟨σ', h', by rw [e1]; rfl, e2⟩

def demoOpt : OptItem := ⟨ascii "help", false, 0x68, ascii "Print the help message"⟩
example : optLine demoOpt = ascii "  --help        , -h       - Print the help message\n" := by decide +kernel
example : ∀ o ∈ [demoOpt], 0 < o.val := by decide
example : (0 : UInt8) ∉ help (ascii "cf-net") [demoOpt] (some [⟨ascii "get", ascii "Get a file", ascii "cf-net get PATH"⟩]) true true := by decide +kernel

/-- C141. An option's name and hint are in the text. -/
theorem C141_every_option_is_listed (component : Bytes) (os : List OptItem) (cs : Option (List CmdItem)) (cf file : Bool) :
    ∀ o ∈ os, optLine o <:+: help component os cs cf file := by
  intro o ho
  have h1 : optLine o <:+: optSection os := by
    obtain ⟨a, b, rfl⟩ := List.append_of_mem ho
    exact ⟨ascii "\nOptions:\n" ++ a.flatMap optLine, b.flatMap optLine, by simp [optSection, List.append_assoc]⟩
  have h2 : optSection os <:+: help component os cs cf file := by
    unfold help
    cases cs with
    | none => exact ⟨ascii "Usage: " ++ component ++ ascii " [OPTIONS]" ++ (if file then ascii " [FILE]" else []) ++ ascii "\n", footer, by simp [List.append_assoc]⟩
    | some cs =>
      cases cf
      · refine ⟨ascii "Usage: " ++ component ++ ascii " [OPTIONS]" ++ ascii " COMMAND" ++ (if file then ascii " [FILE]" else []) ++ ascii "\n", cmdSection cs ++ footer, ?_⟩
        simp [List.append_assoc]
      · refine ⟨ascii "Usage: " ++ component ++ ascii " COMMAND" ++ ascii " [OPTIONS]" ++ (if file then ascii " [FILE]" else []) ++ ascii "\n" ++ cmdSection cs, footer, ?_⟩
        simp [List.append_assoc]
  exact h1.trans h2

/-- Finding: a long option whose value is 0, as `getopt_long` has it for options that set a flag, is listed with a dangling `, -`. -/
theorem C141_flag_option_negated : shortOption 0 = ascii ", -" := by decide +kernel

end Writers
