import Verif.Model.Man
import Verif.Spec.Man
import Verif.Props.Writers
import Verif.Props.Trim
import Verif.Props.StrNum
/-! # Property C150: the manual page -/
open WriterSpec (Op added ok)
open WritersSpec (addedFile OptItem CmdItem)
open ManSpec
open StrSpec (HoldsStr)
open TrimSpec (graphic)

namespace Man
open Writers (World Handle Opt Descr exec execs optArray cmdArray)

/-- A series of calls, the results ignored. -/
def run : List Op → St → Option St
  | [], s => some s
  | op :: ops, s => (exec s.1 s.2 op).bind fun r => run ops (r.1, r.2.1)

theorem run_append (a b : List Op) : ∀ s, run (a ++ b) s = (run a s).bind (run b) := by
  induction a with
  | nil => intro s; rfl
  | cons op a ih =>
    intro s
    simp only [List.cons_append, run]
    cases exec s.1 s.2 op with
    | none => rfl
    | some r => simp only [Option.bind_some]; exact ih _

theorem run_eq (ops : List Op) : ∀ σ h, run ops (σ, h) = (execs σ h ops).map fun r => (r.1, r.2.1) := by
  induction ops with
  | nil => intro σ h; rfl
  | cons op ops ih =>
    intro σ h
    simp only [run, execs]
    cases exec σ h op with
    | none => rfl
    | some r =>
      simp only [Option.bind_eq_bind, Option.bind_some]
      rw [ih]
      cases execs r.1 r.2.1 ops <;> rfl

theorem say_run (t : Bytes) : say t = run [.write t] := by
  funext s; simp only [say, run, exec]; cases Writers.write s.1 s.2 t <;> rfl
theorem sayF_run (t : Bytes) : sayF t = run [.writeF t] := by
  funext s; simp only [sayF, run, exec]; cases Writers.writeF s.1 s.2 t <;> rfl

theorem run_bind (a b : List Op) (s : St) : ((run a s).bind fun s => run b s) = run (a ++ b) s := (run_append a b s).symm
theorem some_run (s : St) : some s = run [] s := rfl

/-! ## What is written -/

def optOps (o : OptItem) : List Op := [.writeF (optionText o.name ⟨some o.name, o.takesValue, o.val⟩ o.hint)]
def cmdOps (c : CmdItem) : List Op :=
  [.writeF (bytes! ".IP \"" ++ c.name ++ bytes! "\"\n"), .writeF (c.description ++ bytes! ".\n"), .write (bytes! ".br\n"), .writeF (bytes! "Usage: " ++ c.usage ++ bytes! "\n")]

theorem optionsFrom_run (os : List OptItem) (junk : List Opt) (hj : List Bytes) :
    ∀ (k i : Nat), i + k = os.length → ∀ s, optionsFrom (optArray os junk) (os.map OptItem.hint ++ hj) i s = run ((os.drop i).flatMap optOps) s := by
  intro k
  induction k with
  | zero =>
    intro i hi s
    rw [optionsFrom]
    rw [dif_pos (by simp [optArray]; omega)]
    have : (optArray os junk)[i]'(by simp [optArray]; omega) = ⟨none, false, 0⟩ := by
      simp only [optArray]; rw [List.getElem_append_right (by simp; omega)]; simp [show i - os.length = 0 by omega]
    simp only [this]
    rw [List.drop_of_length_le (by omega)]; rfl
  | succ k ih =>
    intro i hi s
    rw [optionsFrom]
    have hlt : i < os.length := by omega
    rw [dif_pos (by simp [optArray]; omega)]
    have : (optArray os junk)[i]'(by simp [optArray]; omega) = ⟨some os[i].name, os[i].takesValue, os[i].val⟩ := by
      simp only [optArray]; rw [List.getElem_append_left (by simpa using hlt)]; simp
    simp only [this]
    have hh : (os.map OptItem.hint ++ hj)[i]? = some os[i].hint := by
      rw [List.getElem?_append_left (by simpa using hlt)]; simp [hlt]
    simp only [hh, Option.bind_eq_bind, Option.bind_some]
    rw [List.drop_eq_getElem_cons hlt, List.flatMap_cons, run_append, sayF_run]
    simp only [ih (i + 1) (by omega)]
    rfl

theorem commandsFrom_run (cs : List CmdItem) (junk : List Descr) :
    ∀ (k i : Nat), i + k = cs.length → ∀ s, commandsFrom (cmdArray cs junk) i s = run ((cs.drop i).flatMap cmdOps) s := by
  intro k
  induction k with
  | zero =>
    intro i hi s
    rw [commandsFrom]
    rw [dif_pos (by simp [cmdArray]; omega)]
    have : (cmdArray cs junk)[i]'(by simp [cmdArray]; omega) = ⟨none, [], []⟩ := by
      simp only [cmdArray]; rw [List.getElem_append_right (by simp; omega)]; simp [show i - cs.length = 0 by omega]
    simp only [this]
    rw [List.drop_of_length_le (by omega)]; rfl
  | succ k ih =>
    intro i hi s
    rw [commandsFrom]
    have hlt : i < cs.length := by omega
    rw [dif_pos (by simp [cmdArray]; omega)]
    have : (cmdArray cs junk)[i]'(by simp [cmdArray]; omega) = ⟨some cs[i].name, cs[i].description, cs[i].usage⟩ := by
      simp only [cmdArray]; rw [List.getElem_append_left (by simpa using hlt)]; simp
    simp only [this]
    rw [List.drop_eq_getElem_cons hlt, List.flatMap_cons]
    simp only [sayF_run, say_run, Option.bind_eq_bind, ih (i + 1) (by omega), run_bind]
    rfl

def synOps (program : Bytes) (command commandFirst file : Bool) : List Op :=
  [.write (bytes! ".SH SYNOPSIS\n"), .writeF (bytes! ".B " ++ program ++ bytes! "\n")] ++
  ((if command && commandFirst then [.write (bytes! ".RI COMMAND\n")] else []) ++
  ([.write (bytes! ".RI [ OPTION ]...\n")] ++
  ((if command && !commandFirst then [.write (bytes! ".RI COMMAND\n")] else []) ++
  (if file then [.write (bytes! ".RI [ FILE ]\n")] else [.write (bytes! "\n")]))))

theorem synopsis_run (program : Bytes) (a b c : Bool) (s : St) : writeSynopsis program a b c s = run (synOps program a b c) s := by
  simp only [writeSynopsis, say_run, sayF_run, synOps]
  cases a <;> cases b <;> cases c <;> simp only [Bool.and_true, Bool.and_false, Bool.not_true, Bool.not_false, Bool.false_eq_true, if_true, if_false,
    Option.bind_eq_bind, some_run, run_bind] <;> rfl

def headerText (upper date : Bytes) : Bytes := bytes! ".TH " ++ upper ++ bytes! " 8 \"" ++ date ++ bytes! "\" \"CFEngine\" \"System Administration\"\n"
def availText (program : Bytes) : Bytes := bytes! ".SH AVAILABILITY\n" ++ program ++ bytes! " is part of CFEngine.\n" ++ bytes! ".br\n" ++
    bytes! "Binary packages may be downloaded from http://cfengine.com/downloads/.\n" ++ bytes! ".br\n" ++
    bytes! "The source code is available at http://github.com/cfengine/\n"

def pageOps (p : Page) (upper date : Bytes) : List Op :=
  [.write copyright, .writeF (headerText upper date), .writeF (bytes! ".SH NAME\n" ++ p.program ++ bytes! " \\- " ++ p.short ++ bytes! "\n")] ++
  (synOps p.program p.commands.isSome p.commandFirst p.file ++
  ([.writeF (bytes! ".SH DESCRIPTION\n" ++ p.long ++ bytes! "\n")] ++
  ((match p.commands with | none => [] | some cs => .write (bytes! ".SH COMMANDS\n") :: cs.flatMap cmdOps) ++
  ((.write (bytes! ".SH OPTIONS\n") :: p.options.flatMap optOps) ++
  [.write cfengine, .write promiseTheory, .writeF (availText p.program), .write bugs, .write seeAlso, .write author]))))

theorem page_run (utc : Int → Int × Nat × Nat) (env : Option Bytes) (p : Page) (junk : List Opt) (hj : List Bytes) (cj : List Descr) (upper date : Bytes)
    (hu : programUpper p.program = some upper) (hd : dateModified utc (timeShown env p.modified) = some date) (s : St) :
    manPageWrite utc env p.program p.modified p.short p.long (optArray p.options junk) (p.options.map OptItem.hint ++ hj)
      (p.commands.map (cmdArray · cj)) p.commandFirst p.file s = run (pageOps p upper date) s := by
  have ho : ∀ s, writeOptions (optArray p.options junk) (p.options.map OptItem.hint ++ hj) s = run (.write (bytes! ".SH OPTIONS\n") :: p.options.flatMap optOps) s := by
    intro s
    simp only [writeOptions, say_run, Option.bind_eq_bind, optionsFrom_run p.options junk hj p.options.length 0 (by omega), run_bind]
    rfl
  have hh : ∀ s, writeHeader utc p.program (timeShown env p.modified) s = run [.writeF (headerText upper date)] s := by
    intro s
    simp only [writeHeader, hu, hd, Option.bind_eq_bind, Option.bind_some, sayF_run]
    rfl
  simp only [manPageWrite, say_run, hh, ho, synopsis_run, writeName, sayF_run, writeDescription, writeAvailability, Option.isSome_map, Option.bind_eq_bind]
  cases hc : p.commands with
  | none =>
    simp only [Option.map_none, some_run, run_bind, pageOps, hc]
    rfl
  | some cs =>
    have hcs : ∀ s, writeCommands (cmdArray cs cj) s = run (.write (bytes! ".SH COMMANDS\n") :: cs.flatMap cmdOps) s := by
      intro s
      simp only [writeCommands, say_run, Option.bind_eq_bind, commandsFrom_run cs cj cs.length 0 (by omega), run_bind]
      rfl
    simp only [Option.map_some, hcs, run_bind, pageOps, hc]
    rfl

/-! ## Reading it -/

theorem lines_nl {l : Bytes} (h : (10 : UInt8) ∉ l) (r : Bytes) : lines (l ++ 10 :: r) = l :: lines r := by
  induction l with
  | nil => simp [lines]
  | cons c l ih =>
    simp only [List.mem_cons, not_or] at h
    simp only [List.cons_append, lines, ih h.2]
    rw [if_neg (Ne.symm h.1)]

theorem lines_append (a b : Bytes) : lines (a ++ 10 :: b) = lines (a ++ [10]) ++ lines b := by
  induction a with
  | nil => simp [lines]
  | cons c a ih =>
    simp only [List.cons_append, lines, ih]
    split
    · rfl
    · cases h : lines (a ++ [10]) with
      | nil =>
        exfalso
        cases a with
        | nil => simp [lines] at h
        | cons d a =>
          simp only [List.cons_append, lines] at h
          split at h
          · cases h
          · split at h <;> cases h
      | cons x xs => simp

theorem lines_flatten : ∀ (ps : List Bytes), (∀ p ∈ ps, ∃ q, p = q ++ [10]) → lines ps.flatten = ps.flatMap lines := by
  intro ps
  induction ps with
  | nil => intro _; rfl
  | cons p ps ih =>
    intro h
    obtain ⟨q, rfl⟩ := h p (by simp)
    rw [List.flatten_cons, List.append_assoc, List.singleton_append, lines_append, ih fun p hp => h p (by simp [hp]), List.flatMap_cons]

def headed (ss : List (Bytes × List Bytes)) : List Bytes := ss.flatMap fun s => (bytes! ".SH " ++ s.1) :: s.2

theorem heading_headed (t : Bytes) : heading (bytes! ".SH " ++ t) = true := by
  simp [heading]

theorem heading_cons (t : Bytes) : heading (46 :: 83 :: 72 :: 32 :: t) = true := heading_headed t

theorem takeWhile_headed (b : List Bytes) (hb : ∀ l ∈ b, heading l = false) (ss : List (Bytes × List Bytes)) :
    (b ++ headed ss).takeWhile (fun x => !heading x) = b := by
  rw [List.takeWhile_append_of_pos (by intro l hl; simp [hb l hl])]
  cases ss with
  | nil => simp [headed]
  | cons s ss => simp [headed, List.takeWhile_cons, heading_cons]

theorem sections_skip (b : List Bytes) (hb : ∀ l ∈ b, heading l = false) (r : List Bytes) : sections (b ++ r) = sections r := by
  induction b with
  | nil => rfl
  | cons l b ih => simp [sections, hb l (by simp), ih fun l hl => hb l (by simp [hl])]

theorem sections_headed : ∀ (ss : List (Bytes × List Bytes)), (∀ s ∈ ss, ∀ l ∈ s.2, heading l = false) → sections (headed ss) = ss := by
  intro ss
  induction ss with
  | nil => intro _; rfl
  | cons s ss ih =>
    intro h
    have e : headed (s :: ss) = (bytes! ".SH " ++ s.1) :: (s.2 ++ headed ss) := by simp [headed]
    rw [e, sections, if_pos (heading_headed _), takeWhile_headed _ (h s (by simp)), sections_skip _ (h s (by simp)), ih fun s hs => h s (by simp [hs])]
    have : (bytes! ".SH " ++ s.1).drop 4 = s.1 := by
      rw [show 4 = (bytes! ".SH ").length from by decide +kernel, List.drop_left]
    rw [this]

end Man

namespace Man
open Writers (World Handle Opt Descr exec execs optArray cmdArray)

/-! ## The pieces -/

theorem holdsStr_cstr {m : List (Option UInt8)} {s : Bytes} (h : HoldsStr m s) : cstr m = some s := by
  obtain ⟨h0, rest, rfl⟩ := h
  induction s with
  | nil => simp [cstr]
  | cons c s ih =>
    simp only [List.mem_cons, not_or] at h0
    simp only [List.map_cons, List.cons_append, cstr, if_neg (Ne.symm h0.1), ih h0.2, Option.map_some]

theorem upper_eq (c : UInt8) : (33 ≤ c ∧ c ≤ 126) → (graphic c = true ∧ TrimSpec.upper c = ManSpec.upper c ∧ ManSpec.upper c ≠ 10 ∧ ManSpec.upper c ≠ 0) :=
  Str.byte_all (P := fun c => (33 ≤ c ∧ c ≤ 126) → (graphic c = true ∧ TrimSpec.upper c = ManSpec.upper c ∧ ManSpec.upper c ≠ 10 ∧ ManSpec.upper c ≠ 0)) (by decide +kernel) c

theorem programUpper_eq (p : Bytes) (h : ∀ c ∈ p, 33 ≤ c ∧ c ≤ 126) : programUpper p = some ((p.take 254).map ManSpec.upper) := by
  have ht : ∀ c ∈ p.take 254, 33 ≤ c ∧ c ≤ 126 := fun c hc => h c (List.mem_of_mem_take hc)
  have h0 : (0 : UInt8) ∉ p.take 254 := by
    intro hh
    have := (ht 0 hh).1
    exact absurd this (by decide)
  have hl : (p.take 254).length ≤ 254 := by simp; omega
  have hm : HoldsStr ((p.take 254).map some ++ List.replicate (256 - (p.take 254).length) (some 0)) (p.take 254) := by
    refine ⟨h0, List.replicate (255 - (p.take 254).length) (some 0), ?_⟩
    rw [show 256 - (p.take 254).length = (255 - (p.take 254).length) + 1 by omega, List.replicate_succ]
  obtain ⟨m', e, st⟩ := C43_toUpperStr_partial _ _ hm fun c hc => (upper_eq c (ht c hc)).1
  simp only [programUpper, e, Option.bind_eq_bind, Option.bind_some]
  rw [holdsStr_cstr st.string]
  congr 1
  exact List.map_congr_left fun c hc => (upper_eq c (ht c hc)).2.1

theorem dateModified_eq (utc : Int → Int × Nat × Nat) (t : Int) (y m d : Nat) (h : utc t = ((y : Int), m, d)) (hy : 1000 ≤ y ∧ y ≤ 9999) :
    dateModified utc t = some (dateText y m d) := by
  have hn : Str.natText y = [UInt8.ofNat (48 + y / 1000 % 10), UInt8.ofNat (48 + y / 100 % 10), UInt8.ofNat (48 + y / 10 % 10), UInt8.ofNat (48 + y % 10)] := by
    rw [NumSpec.natText_eq, NumSpec.decimal_eq, if_neg (by omega), NumSpec.decimal_eq, if_neg (by omega), NumSpec.decimal_eq, if_neg (by omega), NumSpec.decimal_eq, if_pos (by omega)]
    rw [show y / 10 / 10 / 10 = y / 1000 % 10 by omega, show y / 10 / 10 % 10 = y / 100 % 10 by omega]
    rfl
  simp only [dateModified, h, Man.decimal, twoDigits]
  simp only [show ¬ ((y : Int) < 0) by omega, if_false, Int.natAbs_natCast, hn]
  rw [if_pos (by simp)]
  simp [dateText, Nat.add_comm]

end Man

namespace Man
open Writers (World Handle Opt Descr exec execs optArray cmdArray)

theorem lines_one {l : Bytes} (h : (10 : UInt8) ∉ l) : lines (l ++ [10]) = [l] := by rw [lines_nl h]; rfl

/-- What holds for every text handed over. -/
def Small (t : Bytes) : Prop := (0 : UInt8) ∉ t ∧ t.length ≤ 100000000

theorem ok_write {t : Bytes} (h0 : (0 : UInt8) ∉ t) (hl : t.length ≤ 2147483647) : ok (.write t) := ⟨h0, hl⟩
theorem ok_writeF {t : Bytes} (h0 : (0 : UInt8) ∉ t) (hl : t.length ≤ 2147483647) : ok (.writeF t) := ⟨h0, hl⟩

/-- An operation that writes whole lines. -/
def Whole (op : Op) : Prop := ok op ∧ op ≠ .writeChar 0 ∧ ∃ q, added op = q ++ [10]

theorem lines_ops (ops : List Op) (h : ∀ op ∈ ops, Whole op) : lines (ops.flatMap added) = ops.flatMap fun op => lines (added op) := by
  rw [List.flatMap_def, lines_flatten _ (by
    intro p hp
    obtain ⟨op, ho, rfl⟩ := List.mem_map.mp hp
    exact (h op ho).2.2), List.flatMap_map]

theorem optionText_val (o : OptItem) (h1 : 32 < o.val) (h2 : o.val < 127) :
    optionText o.name ⟨some o.name, o.takesValue, o.val⟩ o.hint =
      (bytes! ".IP \"--" ++ o.name ++ bytes! ", -" ++ [UInt8.ofNat o.val.toNat] ++ (if o.takesValue then bytes! " value\"" else bytes! "\"")) ++ 10 :: (o.hint ++ [10]) := by
  have : (o.val % 256).toNat = o.val.toNat := by omega
  unfold optionText
  cases o.takesValue <;> simp only [if_true, if_false, Bool.false_eq_true, this, List.append_assoc, List.cons_append, List.nil_append]

theorem opt_char (v : Int) (h1 : 32 < v) (h2 : v < 127) : UInt8.ofNat v.toNat ≠ 10 ∧ UInt8.ofNat v.toNat ≠ 0 := by
  constructor
  all_goals
    intro hh
    have := congrArg UInt8.toNat hh
    simp at this; omega

theorem opt_entry (o : OptItem) (hn : OneLine o.name) (h1 : 32 < o.val) (h2 : o.val < 127) :
    (optOps o).flatMap (fun op => lines (added op)) = optEntry o := by
  simp only [optOps, List.flatMap_cons, List.flatMap_nil, List.append_nil, added, optionText_val o h1 h2, optEntry]
  refine lines_nl ?_ _
  have hc := opt_char o.val h1 h2
  have a1 : (10 : UInt8) ∉ bytes! ".IP \"--" := by decide +kernel
  have a2 : (10 : UInt8) ∉ bytes! ", -" := by decide +kernel
  have a3 : (10 : UInt8) ∉ bytes! " value\"" := by decide +kernel
  have a4 : (10 : UInt8) ∉ bytes! "\"" := by decide +kernel
  cases o.takesValue <;> simp only [List.mem_append, List.mem_singleton, not_or, if_true, if_false, Bool.false_eq_true] <;>
    exact ⟨⟨⟨⟨a1, hn⟩, a2⟩, Ne.symm hc.1⟩, by first | assumption | decide⟩

theorem cmd_entry (c : CmdItem) (h1 : OneLine c.name) (h2 : OneLine c.description) (h3 : OneLine c.usage) :
    (cmdOps c).flatMap (fun op => lines (added op)) = cmdEntry c := by
  have e1 : bytes! "\"\n" = bytes! "\"" ++ [10] := by decide +kernel
  have e2 : bytes! ".\n" = bytes! "." ++ [10] := by decide +kernel
  have e3 : bytes! "\n" = [10] := by decide +kernel
  have e4 : lines (bytes! ".br\n") = [bytes! ".br"] := by decide +kernel
  have a1 : (10 : UInt8) ∉ bytes! ".IP \"" := by decide +kernel
  have a2 : (10 : UInt8) ∉ bytes! "\"" := by decide +kernel
  have a3 : (10 : UInt8) ∉ bytes! "." := by decide +kernel
  have a4 : (10 : UInt8) ∉ bytes! "Usage: " := by decide +kernel
  have b1 : lines (bytes! ".IP \"" ++ c.name ++ bytes! "\"\n") = [bytes! ".IP \"" ++ c.name ++ bytes! "\""] := by
    rw [e1, ← List.append_assoc]; exact lines_one (by rw [List.mem_append, List.mem_append, not_or, not_or]; exact ⟨⟨a1, h1⟩, a2⟩)
  have b2 : lines (c.description ++ bytes! ".\n") = [c.description ++ bytes! "."] := by
    rw [e2, ← List.append_assoc]; exact lines_one (by rw [List.mem_append, not_or]; exact ⟨h2, a3⟩)
  have b3 : lines (bytes! "Usage: " ++ c.usage ++ bytes! "\n") = [bytes! "Usage: " ++ c.usage] :=
    lines_one (by rw [List.mem_append, not_or]; exact ⟨a4, h3⟩)
  simp only [cmdOps, List.flatMap_cons, List.flatMap_nil, List.append_nil, added, b1, b2, b3, e4, cmdEntry]
  rfl

theorem syn_entry (program : Bytes) (h : (10 : UInt8) ∉ program) (a b c : Bool) :
    (synOps program a b c).flatMap (fun op => lines (added op)) = bytes! ".SH SYNOPSIS" :: synopsis program a b c := by
  have e1 : lines (bytes! ".SH SYNOPSIS\n") = [bytes! ".SH SYNOPSIS"] := by decide +kernel
  have e2 : lines (bytes! ".RI COMMAND\n") = [bytes! ".RI COMMAND"] := by decide +kernel
  have e3 : lines (bytes! ".RI [ OPTION ]...\n") = [bytes! ".RI [ OPTION ]..."] := by decide +kernel
  have e4 : lines (bytes! ".RI [ FILE ]\n") = [bytes! ".RI [ FILE ]"] := by decide +kernel
  have e5 : lines (bytes! "\n") = [[]] := by decide +kernel
  have e6 : lines (bytes! ".B " ++ program ++ bytes! "\n") = [bytes! ".B " ++ program] := by
    rw [show bytes! "\n" = [10] from by decide +kernel]
    refine lines_one ?_
    rw [List.mem_append, not_or]
    exact ⟨by decide +kernel, h⟩
  cases a <;> cases b <;> cases c <;> simp only [synOps, synopsis, added, e1, e2, e3, e4, e5, e6, List.flatMap_append, List.flatMap_cons, List.flatMap_nil, Bool.and_true, Bool.and_false, Bool.not_true, Bool.not_false, Bool.false_eq_true, if_true, if_false, List.append_nil, List.nil_append] <;> rfl

end Man

namespace Man
open Writers (World Handle Opt Descr exec execs optArray cmdArray)

theorem whole_const (t : Bytes) (h : (0 : UInt8) ∉ t ∧ t.length ≤ 2147483647 ∧ t = t.dropLast ++ [10]) : Whole (.write t) :=
  ⟨⟨h.1, h.2.1⟩, by simp, t.dropLast, h.2.2⟩

theorem whole_f (a : Bytes) (h0 : (0 : UInt8) ∉ a) (hl : a.length ≤ 2000000000) : Whole (.writeF (a ++ bytes! "\n")) := by
  have e : bytes! "\n" = [10] := by decide +kernel
  rw [e]
  refine ⟨⟨by simp [h0], by simp; omega⟩, by simp, a, rfl⟩

/-- Every text handed over. -/
def texts (p : Page) : List Bytes :=
  [p.program, p.short, p.long] ++ p.options.flatMap (fun o => [o.name, o.hint]) ++
  (p.commands.getD []).flatMap fun c => [c.name, c.description, c.usage]

theorem whole_opt (o : OptItem) (h1 : 32 < o.val) (h2 : o.val < 127) (hn : Small o.name) (hh : Small o.hint) : ∀ op ∈ optOps o, Whole op := by
  intro op ho
  simp only [optOps, List.mem_singleton] at ho
  subst ho
  rw [optionText_val o h1 h2]
  have hc := opt_char o.val h1 h2
  have a1 : Small (bytes! ".IP \"--") := by refine ⟨by decide +kernel, by decide +kernel⟩
  have a2 : Small (bytes! ", -") := by refine ⟨by decide +kernel, by decide +kernel⟩
  have a3 : Small (if o.takesValue = true then bytes! " value\"" else bytes! "\"") := by
    cases o.takesValue
    · exact ⟨by decide +kernel, by decide +kernel⟩
    · exact ⟨by decide +kernel, by decide +kernel⟩
  refine ⟨⟨?_, ?_⟩, by simp, (bytes! ".IP \"--" ++ o.name ++ bytes! ", -" ++ [UInt8.ofNat o.val.toNat] ++ (if o.takesValue then bytes! " value\"" else bytes! "\"")) ++ 10 :: o.hint, by simp [added]⟩
  · generalize bytes! ".IP \"--" = t1 at *
    generalize bytes! ", -" = t2 at *
    generalize (if o.takesValue = true then bytes! " value\"" else bytes! "\"") = t3 at *
    simp only [List.mem_append, List.mem_cons, List.mem_singleton, not_or, List.not_mem_nil]
    exact ⟨⟨⟨⟨⟨a1.1, hn.1⟩, a2.1⟩, Ne.symm hc.2, by simp⟩, a3.1⟩, by decide, hh.1, by decide, by simp⟩
  · have := a1.2; have := a2.2; have := a3.2; have := hn.2; have := hh.2
    simp only [List.length_append, List.length_cons, List.length_nil]
    omega

theorem whole_cmd (c : CmdItem) (h1 : Small c.name) (h2 : Small c.description) (h3 : Small c.usage) : ∀ op ∈ cmdOps c, Whole op := by
  have e1 : bytes! "\"\n" = bytes! "\"" ++ bytes! "\n" := by decide +kernel
  have e2 : bytes! ".\n" = bytes! "." ++ bytes! "\n" := by decide +kernel
  have a1 : Small (bytes! ".IP \"") := by refine ⟨by decide +kernel, by decide +kernel⟩
  have a2 : Small (bytes! "\"") := by refine ⟨by decide +kernel, by decide +kernel⟩
  have a3 : Small (bytes! ".") := by refine ⟨by decide +kernel, by decide +kernel⟩
  have a4 : Small (bytes! "Usage: ") := by refine ⟨by decide +kernel, by decide +kernel⟩
  intro op ho
  simp only [cmdOps, List.mem_cons, List.not_mem_nil, or_false] at ho
  rcases ho with rfl | rfl | rfl | rfl
  · rw [e1, ← List.append_assoc]
    refine whole_f _ (by simp only [List.mem_append, not_or]; exact ⟨⟨a1.1, h1.1⟩, a2.1⟩) ?_
    have := a1.2; have := h1.2; have := a2.2
    simp only [List.length_append]; omega
  · rw [e2, ← List.append_assoc]
    refine whole_f _ (by simp only [List.mem_append, not_or]; exact ⟨h2.1, a3.1⟩) ?_
    have := a3.2; have := h2.2
    simp only [List.length_append]; omega
  · exact whole_const _ (by decide +kernel)
  · refine whole_f _ (by simp only [List.mem_append, not_or]; exact ⟨a4.1, h3.1⟩) ?_
    have := a4.2; have := h3.2
    simp only [List.length_append]; omega

theorem whole_syn (program : Bytes) (h : Small program) (a b c : Bool) : ∀ op ∈ synOps program a b c, Whole op := by
  have w1 : Whole (.write (bytes! ".SH SYNOPSIS\n")) := whole_const _ (by decide +kernel)
  have w2 : Whole (.write (bytes! ".RI COMMAND\n")) := whole_const _ (by decide +kernel)
  have w3 : Whole (.write (bytes! ".RI [ OPTION ]...\n")) := whole_const _ (by decide +kernel)
  have w4 : Whole (.write (bytes! ".RI [ FILE ]\n")) := whole_const _ (by decide +kernel)
  have w5 : Whole (.write (bytes! "\n")) := whole_const _ (by decide +kernel)
  have w6 : Whole (.writeF (bytes! ".B " ++ program ++ bytes! "\n")) := by
    refine whole_f _ (by simp only [List.mem_append, not_or]; exact ⟨by decide +kernel, h.1⟩) ?_
    have : (bytes! ".B ").length = 3 := by decide +kernel
    have := h.2
    simp only [List.length_append]; omega
  unfold synOps
  generalize bytes! ".SH SYNOPSIS\n" = t1 at *
  generalize bytes! ".RI COMMAND\n" = t2 at *
  generalize bytes! ".RI [ OPTION ]...\n" = t3 at *
  generalize bytes! ".RI [ FILE ]\n" = t4 at *
  generalize bytes! ".B " ++ program ++ bytes! "\n" = t6 at *
  generalize bytes! "\n" = t5 at *
  intro op ho
  cases a <;> cases b <;> cases c <;>
    simp at ho <;> rcases ho with rfl | rfl | rfl | rfl | rfl <;> assumption

end Man

namespace Man
open Writers (World Handle Opt Descr exec execs optArray cmdArray)

/-- The lines of a fixed section. -/
def body (t : Bytes) : List Bytes := (lines t).tail

theorem fixed1 : lines cfengine = (bytes! ".SH " ++ bytes! "CFENGINE") :: body cfengine ∧ ∀ l ∈ body cfengine, heading l = false := by decide +kernel
theorem fixed2 : lines promiseTheory = (bytes! ".SH " ++ bytes! "PROMISE THEORY") :: body promiseTheory ∧ ∀ l ∈ body promiseTheory, heading l = false := by decide +kernel
theorem fixed3 : lines bugs = (bytes! ".SH " ++ bytes! "BUGS") :: body bugs ∧ ∀ l ∈ body bugs, heading l = false := by decide +kernel
theorem fixed4 : lines seeAlso = (bytes! ".SH " ++ bytes! "\"SEE ALSO\"") :: body seeAlso ∧ ∀ l ∈ body seeAlso, heading l = false := by decide +kernel
theorem fixed5 : lines author = (bytes! ".SH " ++ bytes! "AUTHOR") :: body author ∧ ∀ l ∈ body author, heading l = false := by decide +kernel

theorem fixed_whole : ∀ x ∈ [copyright, cfengine, promiseTheory, bugs, seeAlso, author], Whole (.write x) := by
  intro x hx
  refine whole_const x ?_
  have : ∀ t ∈ [copyright, cfengine, promiseTheory, bugs, seeAlso, author], (0 : UInt8) ∉ t ∧ t.length ≤ 2147483647 ∧ t = t.dropLast ++ [10] := by decide +kernel
  exact this x hx

theorem copyright_lines : ∀ l ∈ lines copyright, comment l = true ∧ heading l = false := by decide +kernel

theorem program_nl {p : Page} (hg : p.Good) : (10 : UInt8) ∉ p.program := by
  intro h
  exact absurd (hg.program 10 h).1 (by decide)

/-- A line made of the program's name and a text beginning with a blank is no heading. -/
theorem program_line {p : Page} (hg : p.Good) (t : Bytes) : heading (p.program ++ bytes! " " ++ t) = false := by
  have h1 := hg.program_start
  cases h : heading (p.program ++ bytes! " " ++ t) with
  | false => rfl
  | true =>
    exfalso
    simp only [heading, List.isPrefixOf_iff_prefix] at h
    have h2 : ¬ bytes! ".SH " <+: p.program ++ bytes! " " := by
      intro hh
      rw [heading, List.isPrefixOf_iff_prefix.mpr hh] at h1
      cases h1
    rcases Nat.lt_or_ge (p.program ++ bytes! " ").length 4 with hl | hl
    · obtain ⟨r, hr⟩ := h
      have hlen : (bytes! " ").length = 1 := by decide +kernel
      have hp : p.program.length < 3 := by simp only [List.length_append, hlen] at hl; omega
      have e : (bytes! ".SH " ++ r)[p.program.length]? = (p.program ++ bytes! " " ++ t)[p.program.length]? := by rw [hr]
      rw [List.append_assoc, List.getElem?_append_right (Nat.le_refl _), Nat.sub_self] at e
      have e2 : (bytes! ".SH " ++ r)[p.program.length]? = (bytes! ".SH ")[p.program.length]? := by
        rw [List.getElem?_append_left]
        have : (bytes! ".SH ").length = 4 := by decide +kernel
        omega
      rw [e2] at e
      have e3 : (bytes! " " ++ t)[0]? = some 32 := by
        rw [List.getElem?_append_left (by omega)]; decide +kernel
      rw [e3] at e
      have : ∀ k < 3, (bytes! ".SH ")[k]? ≠ some 32 := by decide +kernel
      exact this _ hp e
    · refine h2 ?_
      have hlen : (bytes! ".SH ").length = 4 := by decide +kernel
      exact List.prefix_of_prefix_length_le h (List.prefix_append _ _) (by omega)

theorem mem_lines_cons {l : Bytes} (h : heading l = false) {ls : List Bytes} (h2 : ∀ x ∈ ls, heading x = false) : ∀ x ∈ l :: ls, heading x = false := by
  intro x hx
  rcases List.mem_cons.mp hx with rfl | hx
  · exact h
  · exact h2 x hx

theorem heading_short (a t : Bytes) (h : ∃ k, k < 4 ∧ a[k]?.isSome ∧ a[k]? ≠ (bytes! ".SH ")[k]?) : heading (a ++ t) = false := by
  cases hh : heading (a ++ t) with
  | false => rfl
  | true =>
    exfalso
    simp only [heading, List.isPrefixOf_iff_prefix] at hh
    obtain ⟨r, hr⟩ := hh
    obtain ⟨k, hk, hs, hne⟩ := h
    have h4 : (bytes! ".SH ").length = 4 := by decide +kernel
    have : (bytes! ".SH " ++ r)[k]? = (a ++ t)[k]? := by rw [hr]
    have hka : k < a.length := by
      rcases Nat.lt_or_ge k a.length with h | h
      · exact h
      · rw [List.getElem?_eq_none h] at hs; cases hs
    rw [List.getElem?_append_left (by omega), List.getElem?_append_left hka] at this
    exact hne this.symm

/-- No line of the sections is a heading. -/
theorem expected_clean {p : Page} (hg : p.Good) (cf pt bg se au : List Bytes) (f1 : ∀ l ∈ cf, heading l = false) (f2 : ∀ l ∈ pt, heading l = false)
    (f3 : ∀ l ∈ bg, heading l = false) (f4 : ∀ l ∈ se, heading l = false) (f5 : ∀ l ∈ au, heading l = false) :
    ∀ s ∈ p.expected cf pt bg se au, ∀ l ∈ s.2, heading l = false := by
  intro s hs
  simp only [Page.expected, List.mem_append, List.mem_cons, List.not_mem_nil, or_false] at hs
  rcases hs with ((rfl | rfl | rfl) | hs) | rfl | rfl | rfl | rfl | rfl | rfl | rfl
  · refine mem_lines_cons ?_ (by simp)
    have : p.program ++ bytes! " \\- " ++ p.short = p.program ++ bytes! " " ++ (bytes! "\\- " ++ p.short) := by
      rw [show bytes! " \\- " = bytes! " " ++ bytes! "\\- " from by decide +kernel]; simp
    rw [this]; exact program_line hg _
  · have a0 : heading (46 :: 66 :: 32 :: p.program) = false := heading_short (bytes! ".B ") p.program ⟨1, by decide +kernel⟩
    have a1 : heading (bytes! ".RI [ OPTION ]...") = false := by decide +kernel
    have a2 : heading (bytes! ".RI COMMAND") = false := by decide +kernel
    have a3 : heading (bytes! ".RI [ FILE ]") = false := by decide +kernel
    have a4 : heading [] = false := by decide +kernel
    simp only [synopsis]
    cases p.commands.isSome <;> cases p.commandFirst <;> cases p.file <;>
      simp [a0, a1, a2, a3, a4]
  · exact hg.long
  · cases hc : p.commands with
    | none => rw [hc] at hs; cases hs
    | some cs =>
      rw [hc] at hs
      simp only [List.mem_singleton] at hs
      subst hs
      intro l hl
      obtain ⟨c, hcc, hl⟩ := List.mem_flatMap.mp hl
      obtain ⟨g1, g2, g3, g4⟩ := hg.commands cs hc c hcc
      simp only [cmdEntry, List.mem_cons, List.not_mem_nil, or_false] at hl
      rcases hl with rfl | rfl | rfl | rfl
      · rw [List.append_assoc]; exact heading_short (bytes! ".IP \"") _ ⟨1, by decide +kernel⟩
      · cases hh : heading (c.description ++ bytes! ".") with
        | false => rfl
        | true =>
          exfalso
          simp only [heading, List.isPrefixOf_iff_prefix] at hh
          have h4 : (bytes! ".SH ").length = 4 := by decide +kernel
          rcases Nat.lt_or_ge c.description.length 4 with hl | hl
          · obtain ⟨r, hr⟩ := hh
            have hlen := congrArg List.length hr
            have h1 : (bytes! ".").length = 1 := by decide +kernel
            simp only [List.length_append] at hlen
            have hr0 : r = [] := List.length_eq_zero_iff.mp (by omega)
            subst hr0
            have := congrArg (fun l => l.getLast?) hr
            simp only [List.append_nil] at this
            rw [show bytes! "." = [46] from by decide +kernel, List.getLast?_append] at this
            rw [show (bytes! ".SH ").getLast? = some 32 from by decide +kernel] at this
            simp at this
          · have := List.prefix_of_prefix_length_le hh (List.prefix_append c.description (bytes! ".")) (by omega)
            rw [heading, List.isPrefixOf_iff_prefix.mpr this] at g3
            cases g3
      · decide +kernel
      · exact heading_short (bytes! "Usage: ") _ ⟨1, by decide +kernel⟩
  · intro l hl
    obtain ⟨o, ho, hl⟩ := List.mem_flatMap.mp hl
    obtain ⟨g1, g2, g3, g4⟩ := hg.options o ho
    simp only [optEntry, List.mem_cons] at hl
    rcases hl with rfl | hl
    · simp only [List.append_assoc]; exact heading_short (bytes! ".IP \"--") _ ⟨1, by decide +kernel⟩
    · exact g4 l hl
  · exact f1
  · exact f2
  · refine mem_lines_cons ?_ (by decide +kernel)
    have : p.program ++ bytes! " is part of CFEngine." = p.program ++ bytes! " " ++ bytes! "is part of CFEngine." := by
      rw [show bytes! " is part of CFEngine." = bytes! " " ++ bytes! "is part of CFEngine." from by decide +kernel]; simp
    rw [this]; exact program_line hg _
  · exact f3
  · exact f4
  · exact f5

end Man

namespace Man
open Writers (World Handle Opt Descr exec execs optArray cmdArray)

theorem whole_append {a b : List Op} (ha : ∀ op ∈ a, Whole op) (hb : ∀ op ∈ b, Whole op) : ∀ op ∈ a ++ b, Whole op := by
  intro op h
  rcases List.mem_append.mp h with h | h
  · exact ha op h
  · exact hb op h

theorem whole_cons {a : Op} {b : List Op} (ha : Whole a) (hb : ∀ op ∈ b, Whole op) : ∀ op ∈ a :: b, Whole op := by
  intro op h
  rcases List.mem_cons.mp h with rfl | h
  · exact ha
  · exact hb op h

theorem dateText_small (y m d : Nat) : (0 : UInt8) ∉ dateText y m d ∧ (10 : UInt8) ∉ dateText y m d ∧ (dateText y m d).length = 10 := by
  have hd : ∀ n : Nat, UInt8.ofNat (48 + n % 10) ≠ 0 ∧ UInt8.ofNat (48 + n % 10) ≠ 10 := by
    intro n
    constructor
    all_goals
      intro hh
      have := congrArg UInt8.toNat hh
      simp at this
      try omega
  refine ⟨?_, ?_, by simp [dateText]⟩
  · simp only [dateText, List.mem_append, List.mem_cons, List.not_mem_nil, or_false, not_or]
    refine ⟨⟨⟨⟨⟨?_, ?_, ?_, ?_⟩, by decide⟩, ?_, ?_⟩, by decide⟩, ?_, ?_⟩ <;> exact Ne.symm (hd _).1
  · simp only [dateText, List.mem_append, List.mem_cons, List.not_mem_nil, or_false, not_or]
    refine ⟨⟨⟨⟨⟨?_, ?_, ?_, ?_⟩, by decide⟩, ?_, ?_⟩, by decide⟩, ?_, ?_⟩ <;> exact Ne.symm (hd _).2

theorem upper_small {p : Page} (hg : p.Good) : (0 : UInt8) ∉ (p.program.take 254).map ManSpec.upper ∧ (10 : UInt8) ∉ (p.program.take 254).map ManSpec.upper ∧
    ((p.program.take 254).map ManSpec.upper).length ≤ 254 := by
  refine ⟨?_, ?_, by simp; omega⟩
  · intro h
    obtain ⟨c, hc, e⟩ := List.mem_map.mp h
    exact (upper_eq c (hg.program c (List.mem_of_mem_take hc))).2.2.2 e
  · intro h
    obtain ⟨c, hc, e⟩ := List.mem_map.mp h
    exact (upper_eq c (hg.program c (List.mem_of_mem_take hc))).2.2.1 e

/-- The operations of a page write whole lines. -/
theorem whole_page {p : Page} (hg : p.Good) (hs : ∀ t ∈ texts p, Small t) (y m d : Nat) :
    ∀ op ∈ pageOps p ((p.program.take 254).map ManSpec.upper) (dateText y m d), Whole op := by
  have hp : Small p.program := hs _ (by simp [texts])
  have hsh : Small p.short := hs _ (by simp [texts])
  have hlo : Small p.long := hs _ (by simp [texts])
  have wf := fixed_whole
  have w1 : Whole (.writeF (headerText ((p.program.take 254).map ManSpec.upper) (dateText y m d))) := by
    obtain ⟨u0, -, ul⟩ := upper_small hg
    obtain ⟨d0, -, dl⟩ := dateText_small y m d
    generalize (p.program.take 254).map ManSpec.upper = u at *
    generalize dateText y m d = dt at *
    have := whole_f (bytes! ".TH " ++ u ++ bytes! " 8 \"" ++ dt ++ bytes! "\" \"CFEngine\" \"System Administration\"")
      (by
        rw [List.mem_append, List.mem_append, List.mem_append, List.mem_append, not_or, not_or, not_or, not_or]
        exact ⟨⟨⟨⟨by decide, u0⟩, by decide⟩, d0⟩, by decide⟩)
      (by simp only [List.length_append, List.length_cons, List.length_nil]; omega)
    rw [List.append_assoc] at this
    exact this
  have w2 : Whole (.writeF (bytes! ".SH NAME\n" ++ p.program ++ bytes! " \\- " ++ p.short ++ bytes! "\n")) := by
    have := hp.2
    have := hsh.2
    refine whole_f _ ?_ (by simp only [List.length_append, List.length_cons, List.length_nil]; omega)
    rw [List.mem_append, List.mem_append, List.mem_append, not_or, not_or, not_or]
    exact ⟨⟨⟨by decide, hp.1⟩, by decide⟩, hsh.1⟩
  have w3 : Whole (.writeF (bytes! ".SH DESCRIPTION\n" ++ p.long ++ bytes! "\n")) := by
    have := hlo.2
    refine whole_f _ ?_ (by simp only [List.length_append, List.length_cons, List.length_nil]; omega)
    rw [List.mem_append, not_or]
    exact ⟨by decide, hlo.1⟩
  have w4 : Whole (.writeF (availText p.program)) := by
    have := hp.2
    have := whole_f (bytes! ".SH AVAILABILITY\n" ++ p.program ++ (bytes! " is part of CFEngine.\n" ++ bytes! ".br\n" ++
      bytes! "Binary packages may be downloaded from http://cfengine.com/downloads/.\n" ++ bytes! ".br\n" ++
      bytes! "The source code is available at http://github.com/cfengine/"))
      (by rw [List.mem_append, List.mem_append, not_or, not_or]; exact ⟨⟨by decide, hp.1⟩, by decide⟩)
      (by simp only [List.length_append, List.length_cons, List.length_nil]; omega)
    have e : ∀ a b c d e f g : Bytes, a ++ b ++ (c ++ d ++ e ++ f ++ g) ++ [10] = a ++ b ++ c ++ d ++ e ++ f ++ (g ++ [10]) := by intros; simp
    rw [e] at this
    exact this
  unfold pageOps
  refine whole_append (whole_cons (wf copyright (by simp)) (whole_cons w1 (whole_cons w2 (by simp)))) (whole_append (whole_syn p.program hp _ _ _)
    (whole_append (whole_cons w3 (by simp)) (whole_append ?_ (whole_append (whole_cons (whole_const _ (by decide +kernel)) ?_) ?_))))
  · cases hc : p.commands with
    | none => simp
    | some cs =>
      refine whole_cons (whole_const _ (by decide +kernel)) ?_
      intro op ho
      obtain ⟨c, hcc, ho⟩ := List.mem_flatMap.mp ho
      have hin : ∀ t ∈ [c.name, c.description, c.usage], t ∈ texts p := by
        intro t ht
        simp only [texts, List.mem_append]
        refine Or.inr ?_
        rw [hc]
        exact List.mem_flatMap.mpr ⟨c, hcc, ht⟩
      exact whole_cmd c (hs _ (hin _ (by simp))) (hs _ (hin _ (by simp))) (hs _ (hin _ (by simp))) op ho
  · intro op ho
    obtain ⟨o, hoo, ho⟩ := List.mem_flatMap.mp ho
    obtain ⟨-, g2, g3, -⟩ := hg.options o hoo
    have hin : ∀ t ∈ [o.name, o.hint], t ∈ texts p := by
      intro t ht
      simp only [texts, List.mem_append]
      exact Or.inl (Or.inr (List.mem_flatMap.mpr ⟨o, hoo, ht⟩))
    exact whole_opt o g2 g3 (hs _ (hin _ (by simp))) (hs _ (hin _ (by simp))) op ho
  · exact whole_cons (wf cfengine (by simp)) (whole_cons (wf promiseTheory (by simp)) (whole_cons w4 (whole_cons (wf bugs (by simp))
      (whole_cons (wf seeAlso (by simp)) (whole_cons (wf author (by simp)) (by simp))))))

theorem opts_entry (os : List OptItem) (h : ∀ o ∈ os, OneLine o.name ∧ 32 < o.val ∧ o.val < 127 ∧ Clean o.hint) :
    (os.flatMap optOps).flatMap (fun op => lines (added op)) = os.flatMap optEntry := by
  induction os with
  | nil => rfl
  | cons o os ih =>
    obtain ⟨g1, g2, g3, -⟩ := h o (by simp)
    rw [List.flatMap_cons, List.flatMap_append, opt_entry o g1 g2 g3, ih fun o ho => h o (by simp [ho]), List.flatMap_cons]

theorem cmds_entry (cs : List CmdItem) (h : ∀ c ∈ cs, OneLine c.name ∧ OneLine c.description ∧ heading c.description = false ∧ OneLine c.usage) :
    (cs.flatMap cmdOps).flatMap (fun op => lines (added op)) = cs.flatMap cmdEntry := by
  induction cs with
  | nil => rfl
  | cons c cs ih =>
    obtain ⟨g1, g2, -, g3⟩ := h c (by simp)
    rw [List.flatMap_cons, List.flatMap_append, cmd_entry c g1 g2 g3, ih fun o ho => h o (by simp [ho]), List.flatMap_cons]

end Man

namespace Man
open Writers (World Handle Opt Descr exec execs optArray cmdArray)

theorem lines_head (t : Bytes) (h : (10 : UInt8) ∉ t) (r : Bytes) : lines (t ++ [10] ++ r) = t :: lines r := by
  rw [List.append_assoc, List.singleton_append, lines_nl h]

theorem added_write (t : Bytes) : added (.write t) = t := rfl
theorem added_writeF (t : Bytes) : added (.writeF t) = t := rfl

theorem page_lines {p : Page} (hg : p.Good) (y m d : Nat) :
    (pageOps p ((p.program.take 254).map ManSpec.upper) (dateText y m d)).flatMap (fun op => lines (added op)) =
      (lines copyright ++ [p.title y m d]) ++ headed (p.expected (body cfengine) (body promiseTheory) (body bugs) (body seeAlso) (body author)) := by
  have hp := program_nl hg
  have l1 : lines (headerText ((p.program.take 254).map ManSpec.upper) (dateText y m d)) = [p.title y m d] := by
    obtain ⟨-, u0, -⟩ := upper_small hg
    obtain ⟨-, d0, -⟩ := dateText_small y m d
    unfold headerText Page.title
    generalize (p.program.take 254).map ManSpec.upper = u at *
    generalize dateText y m d = dt at *
    rw [show bytes! "\" \"CFEngine\" \"System Administration\"\n" = bytes! "\" \"CFEngine\" \"System Administration\"" ++ [10] from rfl, ← List.append_assoc]
    refine lines_one ?_
    rw [List.mem_append, List.mem_append, List.mem_append, List.mem_append, not_or, not_or, not_or, not_or]
    exact ⟨⟨⟨⟨by decide, u0⟩, by decide⟩, d0⟩, by decide⟩
  have l2 : lines (bytes! ".SH NAME\n" ++ p.program ++ bytes! " \\- " ++ p.short ++ bytes! "\n") = [bytes! ".SH NAME", p.program ++ bytes! " \\- " ++ p.short] := by
    have e : ∀ a b c d e f : Bytes, (a ++ f) ++ b ++ c ++ d ++ e = a ++ f ++ (b ++ c ++ d ++ e) := by intros; simp
    rw [show bytes! ".SH NAME\n" = bytes! ".SH NAME" ++ [10] from rfl, e, lines_head _ (by decide)]
    rw [lines_one (by rw [List.mem_append, List.mem_append, not_or, not_or]; exact ⟨⟨hp, by decide⟩, hg.short⟩)]
  have l3 : lines (bytes! ".SH DESCRIPTION\n" ++ p.long ++ bytes! "\n") = bytes! ".SH DESCRIPTION" :: lines (p.long ++ [10]) := by
    have e : ∀ a b c d : Bytes, (a ++ b) ++ c ++ d = a ++ b ++ (c ++ d) := by intros; simp
    rw [show bytes! ".SH DESCRIPTION\n" = bytes! ".SH DESCRIPTION" ++ [10] from rfl, e, lines_head _ (by decide)]
  have l4 : lines (availText p.program) = bytes! ".SH AVAILABILITY" :: [p.program ++ bytes! " is part of CFEngine.", bytes! ".br",
      bytes! "Binary packages may be downloaded from http://cfengine.com/downloads/.", bytes! ".br",
      bytes! "The source code is available at http://github.com/cfengine/"] := by
    have e : ∀ a n b c d e f g : Bytes, (a ++ n) ++ b ++ (c ++ n) ++ d ++ e ++ f ++ g = a ++ n ++ ((b ++ c) ++ n ++ (d ++ e ++ f ++ g)) := by intros; simp
    unfold availText
    rw [show bytes! ".SH AVAILABILITY\n" = bytes! ".SH AVAILABILITY" ++ [10] from rfl, show bytes! " is part of CFEngine.\n" = bytes! " is part of CFEngine." ++ [10] from rfl,
      e, lines_head _ (by decide), lines_head _ (by rw [List.mem_append, not_or]; exact ⟨hp, by decide⟩)]
    rw [show lines (bytes! ".br\n" ++ bytes! "Binary packages may be downloaded from http://cfengine.com/downloads/.\n" ++ bytes! ".br\n" ++
      bytes! "The source code is available at http://github.com/cfengine/\n") = [bytes! ".br", bytes! "Binary packages may be downloaded from http://cfengine.com/downloads/.", bytes! ".br",
      bytes! "The source code is available at http://github.com/cfengine/"] from by decide +kernel]
  have l5 : lines (bytes! ".SH COMMANDS\n") = [bytes! ".SH COMMANDS"] := by decide +kernel
  have l6 : lines (bytes! ".SH OPTIONS\n") = [bytes! ".SH OPTIONS"] := by decide +kernel
  unfold pageOps
  simp only [List.flatMap_append, List.flatMap_cons, List.flatMap_nil, added_write, added_writeF, l1, l2, l3, l4, l6, syn_entry p.program hp, opts_entry p.options hg.options,
    fixed1.1, fixed2.1, fixed3.1, fixed4.1, fixed5.1]
  cases hc : p.commands with
  | none => simp [headed, Page.expected, hc]
  | some cs =>
    have := cmds_entry cs (hg.commands cs hc)
    simp only [List.flatMap_append, List.flatMap_cons, List.flatMap_nil, added_write, added_writeF, l5, this]
    simp [headed, Page.expected, hc]

end Man

open Man Writers in
/-- C150. `ManPageWrite`, for every page whose texts are lines where lines are meant: to a string writer and to a file with room for it, it writes a text that a reader of manual pages takes
apart into exactly the sections asked for – NAME, SYNOPSIS, DESCRIPTION, COMMANDS if there are any, OPTIONS with every option, its argument and its hint,
in order, and the fixed ones, which do not depend on the arguments – after comments and the title line with the date; arrays are not read past their ends. -/
theorem C150_page : ∃ cf pt bg se au : List ManSpec.Bytes, ∀ (utc : Int → Int × Nat × Nat) (env : Option ManSpec.Bytes) (p : Page) (_ : p.Good) (_ : ∀ t ∈ texts p, Small t)
    (y m d : Nat) (_ : utc (timeShown env p.modified) = ((y : Int), m, d)) (_ : 1000 ≤ y ∧ y ≤ 9999) (junk : List Opt) (hj : List ManSpec.Bytes) (cj : List Descr) (σ : World),
    ∃ text comments, (∀ l ∈ comments, comment l = true) ∧ preamble (lines text) = comments ++ [p.title y m d] ∧
      sections (lines text) = p.expected cf pt bg se au ∧
      (∃ σ' h', manPageWrite utc env p.program p.modified p.short p.long (optArray p.options junk) (p.options.map OptItem.hint ++ hj)
          (p.commands.map (cmdArray · cj)) p.commandFirst p.file (stringWriter σ) = some (σ', h') ∧ stringWriterData σ' h' = some (some (text ++ [0]))) ∧
      (∀ f, (σ.files f).isOpen = true → ∃ σ' h', manPageWrite utc env p.program p.modified p.short p.long (optArray p.options junk) (p.options.map OptItem.hint ++ hj)
          (p.commands.map (cmdArray · cj)) p.commandFirst p.file (fileWriter σ f) = some (σ', h') ∧
          (σ'.files f).content = (σ.files f).content ++ text.take (σ.files f).room) := by
  refine ⟨body cfengine, body promiseTheory, body bugs, body seeAlso, body author, ?_⟩
  intro utc env p hg hs y m d hu hy junk hj cj σ
  have hw := whole_page hg hs y m d
  have hl := page_lines hg y m d
  have hrun := page_run utc env p junk hj cj _ _ (programUpper_eq p.program hg.program) (dateModified_eq utc _ y m d hu hy)
  generalize pageOps p ((p.program.take 254).map ManSpec.upper) (dateText y m d) = ops at *
  have hclean := expected_clean hg _ _ _ _ _ fixed1.2 fixed2.2 fixed3.2 fixed4.2 fixed5.2
  have hpre : ∀ l ∈ lines copyright ++ [p.title y m d], heading l = false := by
    intro l hl
    rcases List.mem_append.mp hl with hl | hl
    · exact (copyright_lines l hl).2
    · rw [List.mem_singleton] at hl
      subst hl
      unfold Page.title
      simp only [List.append_assoc]
      exact heading_short (bytes! ".TH ") _ ⟨1, by decide +kernel⟩
  refine ⟨ops.flatMap added, lines copyright, fun l hl => (copyright_lines l hl).1, ?_, ?_, ?_, ?_⟩
  · rw [lines_ops ops hw, hl]
    exact takeWhile_headed _ hpre _
  · rw [lines_ops ops hw, hl, sections_skip _ hpre, sections_headed _ hclean]
  · obtain ⟨σ', h', e1, e2, -⟩ := C140_string_writer σ ops fun op ho => (hw op ho).1
    exact ⟨σ', h', by rw [hrun, run_eq, e1]; rfl, e2⟩
  · intro f hf
    obtain ⟨σ', h', e1, e2, -⟩ := C140_file_writer σ f hf ops fun op ho => (hw op ho).1
    refine ⟨σ', h', by rw [hrun, run_eq, e1]; rfl, ?_⟩
    rw [e2]
    congr 2
    have : ∀ l : List Op, (∀ op ∈ l, Whole op) → l.flatMap addedFile = l.flatMap added := by
      intro l
      induction l with
      | nil => intro _; rfl
      | cons op l ih => intro h; rw [List.flatMap_cons, List.flatMap_cons, ih fun o ho => h o (by simp [ho]), addedFile_eq (h op (by simp)).2.1]
    exact this ops hw

/-- A page with a command and two options. -/
def Man.demo : Page where
  program := bytes! "cf-net"
  modified := 1600000000
  short := bytes! "network client"
  long := bytes! "Talks to cf-serverd.\nPolitely."
  options := [⟨bytes! "help", false, 104, bytes! "Print this"⟩, ⟨bytes! "host", true, 72, bytes! "Server\naddress"⟩]
  commands := some [⟨bytes! "get", bytes! "Get a file", bytes! "cf-net get PATH"⟩]
  commandFirst := false
  file := true

example : Man.demo.Good :=
  ⟨by decide +kernel, by decide +kernel, (by decide +kernel : (10 : UInt8) ∉ Man.demo.short), (by decide +kernel : ∀ l ∈ lines (Man.demo.long ++ [10]), heading l = false),
    by
      intro o ho
      have : ∀ o ∈ Man.demo.options, (10 : UInt8) ∉ o.name ∧ 32 < o.val ∧ o.val < 127 ∧ ∀ l ∈ lines (o.hint ++ [10]), heading l = false := by decide +kernel
      exact this o ho,
    by
      intro cs hcs c hc
      cases hcs
      have : ∀ c ∈ ([⟨bytes! "get", bytes! "Get a file", bytes! "cf-net get PATH"⟩] : List CmdItem),
        (10 : UInt8) ∉ c.name ∧ (10 : UInt8) ∉ c.description ∧ heading c.description = false ∧ (10 : UInt8) ∉ c.usage := by decide +kernel
      exact this c hc⟩

example : ∀ t ∈ Man.texts Man.demo, (0 : UInt8) ∉ t ∧ t.length ≤ 100000000 := by decide +kernel

example : (Man.demo.expected [] [] [] [] []).map (·.1) = [bytes! "NAME", bytes! "SYNOPSIS", bytes! "DESCRIPTION", bytes! "COMMANDS", bytes! "OPTIONS", bytes! "CFENGINE",
    bytes! "PROMISE THEORY", bytes! "AVAILABILITY", bytes! "BUGS", bytes! "\"SEE ALSO\"", bytes! "AUTHOR"] ∧
    Man.demo.title 2020 9 13 = bytes! ".TH CF-NET 8 \"2020-09-13\" \"CFEngine\" \"System Administration\"" := by decide +kernel

/-- C150. The date shown is that of the last change, unless SOURCE_DATE_EPOCH begins with a positive number (of 63 bits): then it is that of this number, which makes builds reproducible. -/
theorem C150_source_date_epoch (lastModified : Int) :
    Man.timeShown none lastModified = lastModified ∧
    (∀ e n rest, NumSpec.Numeral e false n rest → 0 < n → n < 2 ^ 63 → Man.timeShown (some e) lastModified = n) ∧
    (∀ e n rest, NumSpec.Numeral e true n rest → Man.timeShown (some e) lastModified = lastModified) ∧
    (∀ e, (¬ ∃ neg n rest, NumSpec.Numeral e neg n rest) → Man.timeShown (some e) lastModified = lastModified) := by
  refine ⟨rfl, ?_, ?_, ?_⟩
  · intro e n rest h h0 h1
    have hp := Str.parse_numeral e false n rest h
    have : (Str.strtol e).1 = n := by
      simp only [Str.strtol, hp]
      rw [if_neg (by simp; try omega), if_neg (by simp; try omega)]
      rfl
    simp only [Man.timeShown, this]
    rw [if_pos (by omega)]
  · intro e n rest h
    have hp := Str.parse_numeral e true n rest h
    have : (Str.strtol e).1 ≤ 0 := by
      simp only [Str.strtol, hp, if_true]
      split
      · simp
      · split
        · rename_i h1 h2; exfalso; omega
        · simp
    simp only [Man.timeShown]
    rw [if_neg (by omega)]
  · intro e h
    have := (Str.parse_none e).mpr h
    simp [Man.timeShown, Str.strtol, this]

example : NumSpec.Numeral (bytes! "1600000000") false 1600000000 [] := 
  ⟨[], [], bytes! "1600000000", rfl, rfl, Or.inl rfl, by simp, by simp, by decide, by simp, by decide +kernel⟩

/-- Finding: an option without a short form, its value therefore outside of the characters, puts the low byte of that value into the page: for 256 a NUL, in the middle of the line. -/
theorem C150_no_short_form_negated : Man.optionText (bytes! "tls") ⟨some (bytes! "tls"), false, 256⟩ (bytes! "Hint") = bytes! ".IP \"--tls, -" ++ [0] ++ bytes! "\"\nHint\n" := by
  decide +kernel

/-- Finding: a program name with a blank loses everything from the blank on in the title. -/
theorem C150_blank_in_name_negated : Man.programUpper (bytes! "my agent") = some (bytes! "MY") := by decide +kernel

/-- Finding: texts are not escaped: a hint with a line that begins with a request adds a section to the page. -/
theorem C150_not_escaped_negated :
    sections (((Man.optOps ⟨bytes! "x", false, 120, bytes! "see\n.SH MORE\nbelow"⟩).flatMap added |> lines)) = [(bytes! "MORE", [bytes! "below"])] := by decide +kernel
