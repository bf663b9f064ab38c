import Verif.Lemmas.PcreWrap
/-! # Search and replace in a buffer (C103, C104)

`exec` is the compiled pattern: what `pcre_exec` answers for each start offset in the subject (`Spec.Contract` is what PCRE promises of it); `groups` is the pattern's number of groups. -/
namespace PcreWrap
open Spec

/-- The pieces of a replacement: with the option T its text as it is, else Perl's syntax. -/
def Spec.asked (groups : Nat) (opts repl : Bytes) : List Piece := if opts.contains 84 then repl.map .lit else pieces groups repl

theorem ready {groups : Nat} {opts repl : Bytes} (hh : Handled (asked groups opts repl)) : ∃ s, compile (options opts).2 groups repl = some s ∧ Ready s (asked groups opts repl) := by
  unfold asked at hh ⊢
  show ∃ s, compile (opts.contains 84) groups repl = some s ∧ _
  cases h : opts.contains 84 with
  | true =>
    rw [h, if_pos rfl] at hh
    rw [if_pos rfl]
    exact compile_trivial groups repl (fun hm => (hh.2 (.lit 0) (List.mem_map.mpr ⟨0, hm, rfl⟩)) rfl)
  | false =>
    rw [h] at hh
    rw [if_neg (by simp)]
    exact compile_ok groups repl hh

/-- C103: for every pattern, subject and (handled) replacement, the buffer ends as the subject with the matches (with g: all that a global search visits; else the first) replaced by
what the replacement stands for, and the number of matches is returned; every byte of the result is initialised. -/
theorem C103_replaced_partial (exec : Exec) (groups : Nat) (opts repl subject : Bytes) (hc : Contract exec subject.length) (hh : Handled (asked groups opts repl)) (ms : List Match)
    (hm : Matches exec subject.length (opts.contains 103) ms) (hsz : (substitute subject (asked groups opts repl) ms 0).length < 2 ^ 64) :
    searchAndReplace exec groups opts repl subject = some (.ok ms.length ((substitute subject (asked groups opts repl) ms 0).map some)) := by
  obtain ⟨s, e, hr⟩ := ready hh
  rw [searchAndReplace, e, Option.bind_some]
  exact execute_matches hc hr hm hsz

/-- C103: the call always ends: either there are such matches, or the matcher reported an error at some offset, which is returned (and nothing is replaced). -/
theorem C103_total (exec : Exec) (groups : Nat) (opts repl subject : Bytes) (hc : Contract exec subject.length) (hh : Handled (asked groups opts repl)) :
    (∃ ms, Matches exec subject.length (opts.contains 103) ms) ∨
    ∃ c o, c < -1 ∧ o ≤ subject.length ∧ exec o = .code c ∧ searchAndReplace exec groups opts repl subject = some (.error c) := by
  obtain ⟨s, e, hr⟩ := ready hh
  rcases execute_total hc hr (opts.contains 103) with h | ⟨c, o, h1, h2, h3, h4⟩
  · exact .inl h
  · refine .inr ⟨c, o, h1, h2, h3, ?_⟩
    rw [searchAndReplace, e, Option.bind_some]; exact h4

theorem scan_unique {exec : Exec} {len off : Nat} {a : List Match} (h : Scan exec len off a) : ∀ {b : List Match}, Scan exec len off b → a = b := by
  induction h with
  | none he hc =>
    intro b hb
    cases hb with
    | none => rfl
    | next he' => rw [he] at he'; cases he'
    | empty he' => rw [he] at he'; cases he'
    | last he' => rw [he] at he'; cases he'
  | next he hne _ ih =>
    intro b hb
    cases hb with
    | none he' => rw [he] at he'; cases he'
    | next he' _ hs => rw [he] at he'; cases he'; rw [ih hs]
    | empty he' heq => rw [he] at he'; cases he'; exact absurd heq hne
    | last he' heq => rw [he] at he'; cases he'; exact absurd heq hne
  | empty he heq hlt _ ih =>
    intro b hb
    cases hb with
    | none he' => rw [he] at he'; cases he'
    | next he' hne => rw [he] at he'; cases he'; exact absurd heq hne
    | empty he' _ _ hs => rw [he] at he'; cases he'; rw [ih hs]
    | last he' _ hl => omega
  | last he heq hl =>
    intro b hb
    cases hb with
    | none he' => rw [he] at he'; cases he'
    | next he' hne => rw [he] at he'; cases he'; exact absurd heq hne
    | empty he' _ hlt => omega
    | last he' => rw [he] at he'; cases he'; rfl

/-- C103: the matches to replace are determined by the pattern and the subject. -/
theorem C103_deterministic (exec : Exec) (len : Nat) (g : Bool) (a b : List Match) (ha : Matches exec len g a) (hb : Matches exec len g b) : a = b := by
  cases ha with
  | all h => cases hb with | all h' => exact scan_unique h h'
  | one h => cases hb with | one h' => rw [h] at h'; cases h'; rfl | no h' => rw [h] at h'; cases h'
  | no h => cases hb with | one h' => rw [h] at h'; cases h' | no => rfl

/-- Matches that do not overlap, in the order of the subject and inside it. -/
def Spec.Ordered (len : Nat) : Nat → List Match → Prop
  | pos, [] => pos ≤ len
  | pos, m :: ms => pos ≤ start m ∧ start m ≤ stop m ∧ Ordered len (stop m) ms

theorem chain_ordered {len : Nat} : ∀ {ms : List Match} {pos : Nat}, Chain len pos ms → Ordered len pos ms := by
  intro ms
  induction ms with
  | nil => intro pos h; exact h
  | cons m ms ih =>
    intro pos h
    obtain ⟨tl, _, h1, _⟩ := h.1.bounds
    exact ⟨h.2.1, h1, ih h.2.2⟩

theorem scan_chain {exec : Exec} {len off : Nat} {ms : List Match} (hc : Contract exec len) (h : Scan exec len off ms) : off ≤ len → Chain len off ms := by
  induction h with
  | none => exact fun ho => ho
  | next he _ _ ih =>
    intro ho
    obtain ⟨hv, hst⟩ := contract_valid hc ho he
    obtain ⟨_, _, _, h2⟩ := hv.bounds
    exact ⟨hv, hst, ih h2⟩
  | empty he heq hlt _ ih =>
    intro ho
    obtain ⟨hv, hst⟩ := contract_valid hc ho he
    exact ⟨hv, hst, chain_weaken (ih (by omega)) (by omega)⟩
  | last he heq hl =>
    intro ho
    obtain ⟨hv, hst⟩ := contract_valid hc ho he
    exact ⟨hv, hst, by rw [heq]; exact ho⟩

/-- C103: the matches replaced do not overlap: each begins at or behind the end of the one before. -/
theorem C103_disjoint (exec : Exec) (len : Nat) (g : Bool) (ms : List Match) (hc : Contract exec len) (h : Matches exec len g ms) : Ordered len 0 ms := by
  cases h with
  | all h => exact chain_ordered (scan_chain hc h (Nat.zero_le _))
  | one h =>
    obtain ⟨hv, hst⟩ := contract_valid hc (Nat.zero_le _) h
    obtain ⟨_, _, h1, h2⟩ := hv.bounds
    exact ⟨hst, h1, h2⟩
  | no => exact Nat.zero_le _

/-- C104: a replacement without backslashes and dollars stands for itself. -/
theorem C104_plain (groups : Nat) (repl : Bytes) (h : ∀ c ∈ repl, c ≠ 92 ∧ c ≠ 36) : pieces groups repl = repl.map .lit := by
  match repl with
  | [] => rw [pieces]; rfl
  | [c] => have := h c (by simp); rw [pieces, if_neg this.1]; rfl
  | c :: d :: rest =>
    have := h c (by simp)
    rw [pieces, if_neg this.1, if_neg this.2, C104_plain groups (d :: rest) (fun x hx => h x (by simp only [List.mem_cons] at hx ⊢; exact .inr hx))]
    rfl
termination_by repl.length

/-- A text with a backslash before each backslash and dollar. -/
def Spec.quoted (t : Bytes) : Bytes := t.flatMap fun c => if c = 92 ∨ c = 36 then [92, c] else [c]

theorem pieces_cons {groups : Nat} {c : UInt8} {l : Bytes} (h1 : c ≠ 92) (h2 : c ≠ 36) : pieces groups (c :: l) = .lit c :: pieces groups l := by
  cases l with
  | nil => rw [pieces, pieces, if_neg h1]
  | cons d l => rw [pieces, if_neg h1, if_neg h2]

/-- C104: every text can be written as a replacement: with its backslashes and dollars quoted it stands for itself. -/
theorem C104_quoted (groups : Nat) (t : Bytes) : pieces groups (quoted t) = t.map .lit := by
  induction t with
  | nil => show pieces groups [] = []; rw [pieces]
  | cons c t ih =>
    have hq : quoted (c :: t) = (if c = 92 ∨ c = 36 then [92, c] else [c]) ++ quoted t := by simp [quoted]
    rw [hq]
    by_cases h : c = 92 ∨ c = 36
    · rw [if_pos h]
      show pieces groups (92 :: c :: quoted t) = _
      rw [pieces, if_pos rfl]
      rcases h with rfl | rfl
      · rw [if_neg (by decide)]; show Piece.lit 92 :: _ = _; rw [ih]; rfl
      · rw [if_neg (by decide)]; show Piece.lit 36 :: _ = _; rw [ih]; rfl
    · rw [if_neg h]
      show pieces groups (c :: quoted t) = _
      rw [pieces_cons (fun e => h (.inl e)) (fun e => h (.inr e)), ih]; rfl
example : quoted [36, 49, 92, 110] = [92, 36, 49, 92, 92, 110] := by decide

/-- C104: so for every pattern, and every such replacement text without NUL, the matches are replaced by that very text. -/
theorem C104_plain_replaced (exec : Exec) (groups : Nat) (opts repl subject : Bytes) (hc : Contract exec subject.length) (h : ∀ c ∈ repl, c ≠ 92 ∧ c ≠ 36 ∧ c ≠ 0) (ms : List Match)
    (hm : Matches exec subject.length (opts.contains 103) ms) (hsz : (substitute subject (repl.map .lit) ms 0).length < 2 ^ 64) :
    searchAndReplace exec groups opts repl subject = some (.ok ms.length ((substitute subject (repl.map .lit) ms 0).map some)) := by
  have ha : asked groups opts repl = repl.map .lit := by
    unfold asked; split
    · rfl
    · exact C104_plain groups repl (fun c hc => ⟨(h c hc).1, (h c hc).2.1⟩)
  have hh : Handled (asked groups opts repl) := by
    rw [ha]
    constructor
    · refine Nat.le_trans (Nat.le_of_eq (List.length_eq_zero_iff.mpr (List.filter_eq_nil_iff.mpr ?_))) (Nat.zero_le _)
      intro p hp; obtain ⟨c, _, rfl⟩ := List.mem_map.mp hp; simp
    · intro p hp; obtain ⟨c, hc, rfl⟩ := List.mem_map.mp hp; exact (h c hc).2.2
  have := C103_replaced_partial exec groups opts repl subject hc hh ms hm (by rw [ha]; exact hsz)
  rwa [ha] at this

/-- C104: when nothing matches the contents stay as they were, whatever the replacement. -/
theorem C104_no_match (exec : Exec) (groups : Nat) (opts repl subject : Bytes) (hc : Contract exec subject.length) (hh : Handled (asked groups opts repl)) (h : exec 0 = .code (-1))
    (hsz : subject.length < 2 ^ 64) : searchAndReplace exec groups opts repl subject = some (.ok 0 (subject.map some)) := by
  have hm : Matches exec subject.length (opts.contains 103) [] := by
    cases opts.contains 103 with
    | true => exact .all (.none h (by omega))
    | false => exact .no h (by omega)
  have := C103_replaced_partial exec groups opts repl subject hc hh [] hm (by simpa [substitute] using hsz)
  simpa [substitute] using this

/-! ## Concrete cases

The pattern `(b)(c)?` on "abcb", as PCRE answers. -/

def bc : Exec := fun off =>
  if off ≤ 1 then .found [some (1, 3), some (1, 2), some (2, 3)] else if off ≤ 3 then .found [some (3, 4), some (3, 4)] else .code (-1)
def abcb : Bytes := [97, 98, 99, 98]
/-- `[$2|\1]` -/
def swap : Bytes := [91, 36, 50, 124, 92, 49, 93]

theorem bc_contract : Contract bc abcb.length := by
  intro off ho
  have ho : off ≤ 4 := ho
  have : off = 0 ∨ off = 1 ∨ off = 2 ∨ off = 3 ∨ off = 4 := by omega
  rcases this with rfl | rfl | rfl | rfl | rfl <;> simp [bc, abcb] <;> omega

example : asked 2 [103] swap = [.lit 91, .group 2, .lit 124, .group 1, .lit 93] := by decide +kernel
example : Handled (asked 2 [103] swap) := by
  have : asked 2 [103] swap = [.lit 91, .group 2, .lit 124, .group 1, .lit 93] := by decide +kernel
  rw [this]; constructor
  · decide
  · intro p hp; simp at hp; rcases hp with rfl | rfl | rfl | rfl | rfl <;> simp
example : Matches bc abcb.length true [[some (1, 3), some (1, 2), some (2, 3)], [some (3, 4), some (3, 4)]] :=
  .all (.next rfl (by decide) (.next rfl (by decide) (.none (c := -1) rfl (by decide))))
/-- "abcb" becomes "a[c|b][|b]". -/
example : searchAndReplace bc 2 [103] swap abcb = some (.ok 2 ([97, 91, 99, 124, 98, 93, 91, 124, 98, 93].map some)) := by decide +kernel
example : searchAndReplace bc 2 [] swap abcb = some (.ok 1 ([97, 91, 99, 124, 98, 93, 98].map some)) := by decide +kernel
example : searchAndReplace (fun _ => .code (-8)) 2 [] swap abcb = some (.error (-8)) := by decide +kernel
example : searchAndReplace bc 2 [103, 84] swap abcb = some (.ok 2 (([97] ++ swap ++ swap).map some)) := by decide +kernel

/-! ## Where the code goes wrong -/

/-- Finding (C103): `` $` `` and `$'` are accepted as references, room is made for them in the result, but their text is never copied: the result's end is uninitialised memory.
Here s/b/$'/ on "abcd": the two bytes behind the match are missing. -/
theorem C103_text_behind_uninitialised :
    searchAndReplace (fun _ => .found [some (1, 2)]) 0 [] [36, 39] [97, 98, 99, 100] = some (.ok 1 [some 97, some 99, some 100, none, none]) := by decide +kernel

/-- ... and s/b/$`/ on "abcd": one byte. -/
theorem C103_text_before_uninitialised :
    searchAndReplace (fun _ => .found [some (1, 2)]) 0 [] [36, 96] [97, 98, 99, 100] = some (.ok 1 [some 97, some 99, some 100, none]) := by decide +kernel

/-- Finding (C103): `\0` puts a NUL in the text, whose size is then measured with `strlen`: the result is allocated too small and written past its end. Here s/b/x\0yz/ on "b". -/
theorem C103_nul_overflow : searchAndReplace (fun _ => .found [some (0, 1)]) 0 [] [120, 92, 48, 121, 122] [98] = none := by decide +kernel

/-- Finding (C103): a replacement with 33 references writes past the end of an array. -/
theorem C103_many_references : searchAndReplace (fun _ => .found [some (0, 1)]) 0 [] ((List.replicate 33 [36, 38]).flatten) [98] = none := by decide +kernel
/-- 32 are fine. -/
example : searchAndReplace (fun _ => .found [some (0, 1)]) 0 [] ((List.replicate 32 [36, 38]).flatten) [98] = some (.ok 1 (List.replicate 32 (some 98))) := by decide +kernel

/-- Finding (C103): a reference to a group beyond 34 is not cleared: its number becomes the start of the next one's. In s/(b)/$99$1/ the `$1` is read as 991, so nothing is inserted. -/
theorem C103_bad_reference_spoils_next :
    searchAndReplace (fun _ => .found [some (0, 1), some (0, 1)]) 1 [] [36, 57, 57, 36, 49] [98] = some (.ok 1 []) ∧
    searchAndReplace (fun _ => .found [some (0, 1), some (0, 1)]) 1 [] [36, 49] [98] = some (.ok 1 [some 98]) := by decide +kernel

/-- Finding (C103): `$33` is taken for `` $` ``: space is made for the text before the match. -/
theorem C103_group_33 : searchAndReplace (fun _ => .found [some (1, 2)]) 0 [] [36, 51, 51] [97, 98] = some (.ok 1 [some 97, none]) := by decide +kernel

/-- Finding (C103): a long number of a reference overflows an `int`. -/
theorem C103_number_overflow : searchAndReplace (fun _ => .found [some (0, 1)]) 0 [] (36 :: List.replicate 11 57) [98] = none := by decide +kernel

/-- Finding (C103): an empty match that is not at the offset searched from is found twice: s/$/x/g turns "ab" into "abxx" (Perl: "abx"). -/
theorem C103_empty_match_twice : searchAndReplace (fun _ => .found [some (2, 2)]) 0 [103] [120] [97, 98] = some (.ok 2 ([97, 98, 120, 120].map some)) := by decide +kernel

/-- Finding (C103): for a pattern with more groups than the offsets have room for, `pcre_exec` answers 0 on a match, and nothing is replaced. -/
theorem C103_many_groups_ignored : searchAndReplace (fun _ => .code 0) 40 [103] [120] [97, 98] = some (.ok 0 ([97, 98].map some)) := by decide +kernel

end PcreWrap
