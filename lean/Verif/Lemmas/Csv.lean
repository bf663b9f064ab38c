import Verif.Model.Csv
import Verif.Lemmas.Writer
/-! # Lemmas about CSV writing and parsing -/

namespace CsvText

/-- Quoted body: every quote doubled. -/
def esc (f : List UInt8) : List UInt8 := f.flatMap fun c => if c = 34 then [34, 34] else [c]

def fieldText (f : List UInt8) : List UInt8 := if CsvWriter.needsQuotes f then 34 :: (esc f ++ [34]) else f

/-- Fields preceded by separators. -/
def tailText : List (List UInt8) → List UInt8
  | [] => []
  | f :: fs => 44 :: (fieldText f ++ tailText fs)

def recText : List (List UInt8) → List UInt8
  | [] => []
  | f :: fs => fieldText f ++ tailText fs

end CsvText
open CsvText

namespace CsvWriter
open Writer (WRep)

/-- A field the writer can take: a C string of at most INT_MAX bytes. -/
def okField (f : List UInt8) : Prop := 0 ∉ f ∧ f.length ≤ 2147483647

theorem escLoop_ok : ∀ (s : List UInt8) {w : Writer.W} {xs : List UInt8}, WRep w xs →
    ∃ w', escLoop w s = some w' ∧ WRep w' (xs ++ esc s) := by
  intro s
  induction s with
  | nil => intro w xs h; exact ⟨w, rfl, by simpa [esc] using h⟩
  | cons c s ih =>
    intro w xs h
    by_cases hc : c = 34
    · obtain ⟨w1, a1, a2⟩ := Writer.writeChar_ok h 34
      obtain ⟨w2, b1, b2⟩ := Writer.writeChar_ok a2 c
      obtain ⟨w3, c1, c2⟩ := ih b2
      exact ⟨w3, by simp only [escLoop, hc, if_true, a1]; rw [hc] at b1; simp [b1, c1], by simpa [esc, hc] using c2⟩
    · obtain ⟨w2, b1, b2⟩ := Writer.writeChar_ok h c
      obtain ⟨w3, c1, c2⟩ := ih b2
      exact ⟨w3, by simp [escLoop, hc, b1, c1], by simpa [esc, hc] using c2⟩

theorem body_ok (s : List UInt8) (hs : okField s) {w : Writer.W} {xs : List UInt8} (h : WRep w xs) :
    ∃ w', (if needsQuotes s then writeEscaped w s else (Writer.write w s).map Prod.fst) = some w' ∧ WRep w' (xs ++ fieldText s) := by
  by_cases hq : needsQuotes s
  · rw [if_pos hq]
    obtain ⟨w1, a1, a2⟩ := Writer.writeChar_ok h 34
    obtain ⟨w2, b1, b2⟩ := escLoop_ok s a2
    obtain ⟨w3, c1, c2⟩ := Writer.writeChar_ok b2 34
    exact ⟨w3, by simp [writeEscaped, a1, b1, c1], by simpa [fieldText, hq] using c2⟩
  · rw [if_neg hq]
    obtain ⟨w1, a1, a2⟩ := Writer.write_ok h s hs.1 hs.2
    exact ⟨w1, by simp [a1], by simpa [fieldText, hq] using a2⟩

/-- Writing fields in sequence. -/
def fields (cw : CW) : List (List UInt8) → Option CW
  | [] => some cw
  | f :: fs => do let cw ← field cw f; fields cw fs

theorem fields_tail : ∀ (fs : List (List UInt8)), (∀ f ∈ fs, okField f) → ∀ {cw : CW} {xs : List UInt8}, WRep cw.w xs →
    cw.beginningOfLine = false →
    ∃ cw', fields cw fs = some cw' ∧ WRep cw'.w (xs ++ tailText fs) ∧ cw'.beginningOfLine = false ∧
      cw'.terminateLastLine = cw.terminateLastLine := by
  intro fs
  induction fs with
  | nil => intro _ cw xs h hb; exact ⟨cw, rfl, by simpa [tailText] using h, hb, rfl⟩
  | cons f fs ih =>
    intro hok cw xs h hb
    obtain ⟨w1, a1, a2⟩ := Writer.writeChar_ok h 44
    obtain ⟨w2, b1, b2⟩ := body_ok f (hok f (by simp)) a2
    obtain ⟨cw3, c1, c2, c3, c4⟩ := ih (fun g hg => hok g (by simp [hg])) (cw := ⟨w2, false, cw.terminateLastLine⟩) b2 rfl
    refine ⟨cw3, ?_, by simpa [tailText] using c2, c3, c4⟩
    simp only [fields, field, hb, Bool.false_eq_true, if_false, a1, Option.map_some, Option.bind_eq_bind, Option.bind_some]
    by_cases hq : needsQuotes f
    · rw [if_pos hq] at b1 ⊢; simp [b1, c1]
    · rw [if_neg hq] at b1 ⊢; simp [b1, c1]

theorem fields_ok (fs : List (List UInt8)) (hok : ∀ f ∈ fs, okField f) {cw : CW} {xs : List UInt8} (h : WRep cw.w xs)
    (hb : cw.beginningOfLine = true) :
    ∃ cw', fields cw fs = some cw' ∧ WRep cw'.w (xs ++ recText fs) ∧ cw'.beginningOfLine = fs.isEmpty ∧
      cw'.terminateLastLine = cw.terminateLastLine := by
  cases fs with
  | nil => exact ⟨cw, rfl, by simpa [recText] using h, hb, rfl⟩
  | cons f fs =>
    obtain ⟨w2, b1, b2⟩ := body_ok f (hok f (by simp)) h
    obtain ⟨cw3, c1, c2, c3, c4⟩ := fields_tail fs (fun g hg => hok g (by simp [hg])) (cw := ⟨w2, false, cw.terminateLastLine⟩) b2 rfl
    refine ⟨cw3, ?_, by simpa [recText] using c2, by simpa using c3, c4⟩
    simp only [fields, field, hb, if_true, Option.bind_eq_bind, Option.bind_some]
    by_cases hq : needsQuotes f
    · rw [if_pos hq] at b1 ⊢; simp [b1, c1]
    · rw [if_neg hq] at b1 ⊢; simp [b1, c1]

end CsvWriter

namespace CsvParser

theorem str_ok : ∀ (xs : List UInt8) (rest : List (Option UInt8)), 0 ∉ xs → CMem.str (xs.map some ++ some 0 :: rest) = some xs := by
  intro xs
  induction xs with
  | nil => intro rest _; simp [CMem.str]
  | cons x xs ih =>
    intro rest h
    simp only [List.mem_cons, not_or] at h
    simp [CMem.str, ih rest h.2, show x ≠ 0 from fun e => h.1 e.symm]

theorem str_any : ∀ (xs : List UInt8) (rest : List (Option UInt8)), ∃ s, CMem.str (xs.map some ++ some 0 :: rest) = some s := by
  intro xs
  induction xs with
  | nil => intro rest; simp [CMem.str]
  | cons x xs ih =>
    intro rest
    obtain ⟨s, hs⟩ := ih rest
    by_cases hx : x = 0
    · simp [CMem.str, hx]
    · exact ⟨x :: s, by simp [CMem.str, hx, hs]⟩

/-- The cursor points behind the bytes `acc`, with room for `n` more bytes and a terminator. -/
structure PR (p : P) (acc : List UInt8) (n : Nat) : Prop where
  sn : p.sn = some acc.length
  mem : ∃ rest, p.mem = acc.map some ++ rest ∧ n + 1 ≤ rest.length

theorem put_ok {p : P} {acc : List UInt8} {n : Nat} (h : PR p acc (n + 1)) (c : UInt8) (st : St) :
    ∃ p', put p c st = some p' ∧ PR p' (acc ++ [c]) n ∧ p'.st = st ∧ p'.out = p.out := by
  obtain ⟨rest, hm, hr⟩ := h.mem
  match rest, hr with
  | r :: rest, hr =>
    have := Buffer.write_at (xs := acc) (rest := r :: rest) (by simp) c
    rw [← hm] at this
    refine ⟨⟨acc.map some ++ some c :: rest, some (acc.length + 1), st, p.out⟩, by simp [put, h.sn, this], ⟨by simp, rest, by simp, by simpa using hr⟩, rfl, rfl⟩

/-- Room for `n` more bytes in a block whose cursor is NULL. -/
def Room (p : P) (n : Nat) : Prop := n + 1 ≤ p.mem.length

theorem PR.room {p : P} {acc : List UInt8} {n : Nat} (h : PR p acc n) : Room p (acc.length + n) := by
  obtain ⟨rest, hm, hr⟩ := h.mem
  simp [Room, hm]; omega

theorem Room.mono {p : P} {n m : Nat} (h : Room p n) (hm : m ≤ n) : Room p m := by unfold Room at *; omega

theorem put0_ok {p : P} {n : Nat} (h : Room p (n + 1)) (c : UInt8) (st s : St) :
    ∃ p', put ⟨p.mem, some 0, s, p.out⟩ c st = some p' ∧ PR p' [c] n ∧ p'.st = st ∧ p'.out = p.out := by
  obtain ⟨p', a, b, c, d⟩ := put_ok (p := ⟨p.mem, some 0, s, p.out⟩) (acc := []) (n := n) ⟨rfl, p.mem, by simp, h⟩ c st
  exact ⟨p', a, b, c, d⟩

theorem finish_ok {p : P} {acc : List UInt8} {n : Nat} (h : PR p acc n) (h0 : 0 ∉ acc) (st : St) :
    ∃ rest, finish p st = some ⟨acc.map some ++ some 0 :: rest, none, st, p.out ++ [acc]⟩ ∧ n ≤ rest.length := by
  obtain ⟨rest, hm, hr⟩ := h.mem
  match rest, hr with
  | r :: rest, hr =>
    have := Buffer.write_at (xs := acc) (rest := r :: rest) (by simp) 0
    rw [← hm] at this
    refine ⟨rest, ?_, by simpa using hr⟩
    simp [finish, h.sn, this, str_ok acc rest h0]

theorem reset_ok {p : P} {n : Nat} (h : Room p n) :
    ∃ rest, reset p = some { p with mem := some 0 :: rest } ∧ rest.length + 1 = p.mem.length := by
  unfold Room at h
  match hm : p.mem with
  | [] => simp [hm] at h
  | a :: rest => exact ⟨rest, by simp [reset, CMem.write, hm], by simp⟩

/-- Bytes of an unquoted field or of the line end: neither quote nor separator. -/
def plain (c : UInt8) : Prop := c ≠ 34 ∧ c ≠ 44

theorem loop_plain : ∀ (u : List UInt8), (∀ c ∈ u, plain c) → ∀ {p : P} {acc : List UInt8} {n : Nat} (tail : List UInt8),
    (p.st = .preStartSpace ∨ p.st = .noQuote) → PR p acc (u.length + n) →
    ∃ p', loop p (u ++ tail) = loop p' tail ∧ (p'.st = .preStartSpace ∨ p'.st = .noQuote) ∧ PR p' (acc ++ u) n ∧ p'.out = p.out := by
  intro u
  induction u with
  | nil => intro _ p acc n tail hs h; exact ⟨p, rfl, hs, by simpa using h, rfl⟩
  | cons c u ih =>
    intro hp p acc n tail hs h
    have hc := hp c (by simp)
    have h' : PR p acc ((u.length + n) + 1) := by
      have : (c :: u).length + n = (u.length + n) + 1 := by simp; omega
      rwa [this] at h
    have key : ∃ p1, step p c = some (.ok p1) ∧ (p1.st = .preStartSpace ∨ p1.st = .noQuote) ∧ PR p1 (acc ++ [c]) (u.length + n) ∧ p1.out = p.out := by
      rcases hs with hs | hs
      · by_cases hb : blank c
        · obtain ⟨p1, a, b, e, d⟩ := put_ok h' c .preStartSpace
          exact ⟨p1, by simp [step, hs, hc.2, hb, a], Or.inl e, b, d⟩
        · obtain ⟨p1, a, b, e, d⟩ := put_ok h' c .noQuote
          exact ⟨p1, by simp [step, hs, hc.1, hc.2, hb, a], Or.inr e, b, d⟩
      · obtain ⟨p1, a, b, e, d⟩ := put_ok h' c .noQuote
        exact ⟨p1, by simp [step, hs, hc.1, hc.2, a], Or.inr e, b, d⟩
    obtain ⟨p1, k1, k2, k3, k4⟩ := key
    obtain ⟨p2, l1, l2, l3, l4⟩ := ih (fun x hx => hp x (by simp [hx])) tail k2 k3
    exact ⟨p2, by simp [loop, k1, l1], l2, by simpa using l3, by rw [l4, k4]⟩

/-- Ready for a field: at the start of the text or just behind a separator. -/
def Ready (p : P) (n : Nat) : Prop :=
  Room p n ∧ ((p.st = .newLine ∧ p.sn = some 0) ∨ p.st = .separator)

theorem Ready.mono {p : P} {n m : Nat} (h : Ready p n) (hm : m ≤ n) : Ready p m := ⟨h.1.mono hm, h.2⟩

/-- A non-empty run of plain bytes from a ready state. -/
theorem loop_start (u : List UInt8) (hne : u ≠ []) (hu : ∀ c ∈ u, plain c) {p : P} {n : Nat} (tail : List UInt8) (h : Ready p (u.length + n)) :
    ∃ p', loop p (u ++ tail) = loop p' tail ∧ (p'.st = .preStartSpace ∨ p'.st = .noQuote) ∧ PR p' u n ∧ p'.out = p.out := by
  match u, hne with
  | c :: u, _ =>
    have hc := hu c (by simp)
    have hr : Room p ((u.length + n) + 1) := h.1.mono (by simp; omega)
    have key : ∃ p1, step p c = some (.ok p1) ∧ (p1.st = .preStartSpace ∨ p1.st = .noQuote) ∧ PR p1 [c] (u.length + n) ∧ p1.out = p.out := by
      rcases h.2 with ⟨hs, hsn⟩ | hs
      · have he : p = ⟨p.mem, some 0, .newLine, p.out⟩ := by cases p; simp_all
        by_cases hb : blank c
        · obtain ⟨p1, a, b, e, d⟩ := put0_ok hr c .preStartSpace .newLine
          rw [← he] at a
          exact ⟨p1, by simp [step, hs, hc.2, hb, a], Or.inl e, b, d⟩
        · obtain ⟨p1, a, b, e, d⟩ := put0_ok hr c .noQuote .newLine
          rw [← he] at a
          exact ⟨p1, by simp [step, hs, hc.1, hc.2, hb, a], Or.inr e, b, d⟩
      · by_cases hb : blank c
        · obtain ⟨p1, a, b, e, d⟩ := put0_ok hr c .preStartSpace .separator
          exact ⟨p1, by simp only [step, hs]; simp [hc.2, hb, a], Or.inl e, b, d⟩
        · obtain ⟨p1, a, b, e, d⟩ := put0_ok hr c .noQuote .separator
          exact ⟨p1, by simp only [step, hs]; simp [hc.1, hc.2, hb, a], Or.inr e, b, d⟩
    obtain ⟨p1, k1, k2, k3, k4⟩ := key
    obtain ⟨p2, l1, l2, l3, l4⟩ := loop_plain u (fun x hx => hu x (by simp [hx])) tail k2 k3
    exact ⟨p2, by simp [loop, k1, l1], l2, by simpa using l3, by rw [l4, k4]⟩

/-- Inside a quoted field. -/
def InQ (p : P) (acc : List UInt8) (n : Nat) : Prop :=
  (p.st = .leadingQuote ∧ acc = [] ∧ Room p n) ∨ (p.st = .withQuote ∧ PR p acc n)

theorem loop_quoted : ∀ (f : List UInt8) {p : P} {acc : List UInt8} {n : Nat} (tail : List UInt8), InQ p acc ((esc f).length + n) →
    ∃ p', loop p (esc f ++ tail) = loop p' tail ∧ InQ p' (acc ++ f) n ∧ p'.out = p.out := by
  intro f
  induction f with
  | nil => intro p acc n tail h; exact ⟨p, by simp [esc], by simpa [esc] using h, rfl⟩
  | cons c f ih =>
    intro p acc n tail h
    by_cases hc : c = 34
    · have he : esc (c :: f) = 34 :: 34 :: esc f := by simp [esc, hc]
      rw [he] at h ⊢
      have key : ∃ p1 p2, step p 34 = some (.ok p1) ∧ step p1 34 = some (.ok p2) ∧ InQ p2 (acc ++ [34]) ((esc f).length + n) ∧ p2.out = p.out := by
        rcases h with ⟨hs, ha, hr⟩ | ⟨hs, hr⟩
        · obtain ⟨p2, a, b, e, d⟩ := put_ok (p := { p with sn := some 0, st := .internalQuote }) (acc := []) (n := (esc f).length + n)
            ⟨rfl, p.mem, by simp, by unfold Room at hr; simp at hr ⊢; omega⟩ 34 .withQuote
          exact ⟨{ p with sn := some 0, st := .internalQuote }, p2, by simp [step, hs], by simp [step, blank, a], Or.inr ⟨e, by rw [ha]; exact b⟩, d⟩
        · obtain ⟨rest, hm, hl⟩ := hr.mem
          obtain ⟨p2, a, b, e, d⟩ := put_ok (p := { p with st := .internalQuote }) (acc := acc) (n := (esc f).length + n)
            ⟨hr.sn, rest, hm, by simp at hl ⊢; omega⟩ 34 .withQuote
          exact ⟨{ p with st := .internalQuote }, p2, by simp [step, hs], by simp [step, blank, a], Or.inr ⟨e, b⟩, d⟩
      obtain ⟨p1, p2, k1, k2, k3, k4⟩ := key
      obtain ⟨p3, l1, l2, l3⟩ := ih tail k3
      exact ⟨p3, by simp [loop, k1, k2, l1], by simpa [hc] using l2, by rw [l3, k4]⟩
    · have he : esc (c :: f) = c :: esc f := by simp [esc, hc]
      rw [he] at h ⊢
      have key : ∃ p2, step p c = some (.ok p2) ∧ InQ p2 (acc ++ [c]) ((esc f).length + n) ∧ p2.out = p.out := by
        rcases h with ⟨hs, ha, hr⟩ | ⟨hs, hr⟩
        · obtain ⟨p2, a, b, e, d⟩ := put0_ok (p := p) (n := (esc f).length + n) (hr.mono (by simp; omega)) c .withQuote .leadingQuote
          exact ⟨p2, by simp only [step, hs]; simp [hc, a], Or.inr ⟨e, by rw [ha]; exact b⟩, d⟩
        · obtain ⟨rest, hm, hl⟩ := hr.mem
          obtain ⟨p2, a, b, e, d⟩ := put_ok (p := p) (acc := acc) (n := (esc f).length + n)
            ⟨hr.sn, rest, hm, by simp at hl ⊢; omega⟩ c .withQuote
          exact ⟨p2, by simp [step, hs, hc, a], Or.inr ⟨e, b⟩, d⟩
      obtain ⟨p2, k2, k3, k4⟩ := key
      obtain ⟨p3, l1, l2, l3⟩ := ih tail k3
      exact ⟨p3, by simp [loop, k2, l1], by simpa using l2, by rw [l3, k4]⟩

/-- A whole quoted field from a ready state: the closing quote is the last byte read. -/
theorem loop_qfield (f : List UInt8) {p : P} {n : Nat} (tail : List UInt8) (h : Ready p ((esc f).length + 2 + n)) :
    ∃ p', loop p (34 :: (esc f ++ 34 :: tail)) = loop p' tail ∧ p'.st = .internalQuote ∧ PR p' f n ∧ p'.out = p.out := by
  obtain ⟨rest, a1, a2⟩ := reset_ok h.1
  have hroom := h.1
  have s1 : step p 34 = some (.ok { p with mem := some 0 :: rest, sn := none, st := .leadingQuote }) := by
    rcases h.2 with ⟨hs, _⟩ | hs <;> simp [step, hs, blank, a1]
  obtain ⟨p2, b1, b2, b3⟩ := loop_quoted f (p := { p with mem := some 0 :: rest, sn := none, st := .leadingQuote }) (acc := []) (n := n + 1) (34 :: tail)
    (Or.inl ⟨rfl, rfl, by unfold Room at *; simp; omega⟩)
  have key : ∃ p3, step p2 34 = some (.ok p3) ∧ p3.st = .internalQuote ∧ PR p3 f n ∧ p3.out = p2.out := by
    rcases b2 with ⟨hs, ha, hr⟩ | ⟨hs, hr⟩
    · have hf : f = [] := by simpa using ha
      exact ⟨{ p2 with sn := some 0, st := .internalQuote }, by simp [step, hs], rfl, ⟨by simp [hf], p2.mem, by simp [hf], by unfold Room at hr; omega⟩, rfl⟩
    · obtain ⟨rest, hm, hl⟩ := hr.mem
      exact ⟨{ p2 with st := .internalQuote }, by simp [step, hs], rfl, ⟨by simpa using hr.sn, rest, by simpa using hm, by omega⟩, rfl⟩
  obtain ⟨p3, c1, c2, c3, c4⟩ := key
  exact ⟨p3, by simp [loop, s1, b1, c1], c2, c3, by rw [c4, b3]⟩

theorem plain_of_no_quotes {f : List UInt8} (h : ¬ CsvWriter.needsQuotes f = true) : ∀ c ∈ f, plain c ∧ c ≠ 13 ∧ c ≠ 10 := by
  intro c hc
  simp only [CsvWriter.needsQuotes, List.any_eq_true, not_exists, not_and, Bool.not_eq_true] at h
  have := h c hc
  simp at this
  exact ⟨⟨this.1.1.1, this.1.1.2⟩, this.1.2, this.2⟩

/-- One field followed by a separator. -/
theorem loop_field_sep (f : List UInt8) (h0 : 0 ∉ f) {p : P} {n : Nat} (tail : List UInt8) (h : Ready p ((fieldText f).length + 1 + n)) :
    ∃ p', loop p (fieldText f ++ 44 :: tail) = loop p' tail ∧ p'.st = .separator ∧ Ready p' n ∧ p'.out = p.out ++ [f] ∧
      p'.sn = none ∧ ∃ rest, p'.mem = (if CsvWriter.needsQuotes f then f else []).map some ++ some 0 :: rest := by
  by_cases hq : CsvWriter.needsQuotes f
  · have ht : fieldText f = 34 :: (esc f ++ [34]) := by simp [fieldText, hq]
    rw [ht] at h ⊢
    obtain ⟨p1, a1, a2, a3, a4⟩ := loop_qfield f (p := p) (n := n + 1) (44 :: tail) (h.mono (by simp; omega))
    obtain ⟨rest, b1, b2⟩ := finish_ok a3 h0 .separator
    refine ⟨⟨f.map some ++ some 0 :: rest, none, .separator, p1.out ++ [f]⟩, ?_, ?_, ?_, ?_, rfl, rest, by simp [hq]⟩
    · simp only [List.cons_append, List.append_assoc, List.nil_append] at a1 ⊢
      rw [a1]; simp [loop, step, a2, b1]
    · rfl
    · exact ⟨by unfold Room; simp; omega, Or.inr rfl⟩
    · simp [a4]
  · have ht : fieldText f = f := by simp [fieldText, hq]
    rw [ht] at h ⊢
    have hp := plain_of_no_quotes hq
    by_cases hne : f = []
    · subst hne
      obtain ⟨rest, b1, b2⟩ := reset_ok h.1
      have hroom := h.1
      rcases h.2 with ⟨hs, hsn⟩ | hs
      · refine ⟨{ mem := some 0 :: rest, sn := none, st := .separator, out := p.out ++ [[]] }, ?_, rfl, ⟨by unfold Room at *; simp at hroom ⊢; omega, Or.inr rfl⟩, rfl, rfl, rest, by simp⟩
        have hw : CMem.write p.mem 0 (some 0) = some (some 0 :: rest) := by
          simp only [reset, Option.bind_eq_bind] at b1
          cases hh : CMem.write p.mem 0 (some 0) with
          | none => rw [hh] at b1; simp at b1
          | some m => rw [hh] at b1; simp at b1; simp [b1]
        simp [loop, step, hs, hsn, hw]
      · refine ⟨{ mem := some 0 :: rest, sn := none, st := .separator, out := p.out ++ [[]] }, ?_, rfl, ⟨by unfold Room at *; simp at hroom ⊢; omega, Or.inr rfl⟩, rfl, rfl, rest, by simp⟩
        simp [loop, step, hs, b1, CMem.str]
    · obtain ⟨p1, a1, a2, a3, a4⟩ := loop_start f hne (fun c hc => (hp c hc).1) (p := p) (n := n + 1) (44 :: tail) (h.mono (by omega))
      obtain ⟨rest, b1, b2⟩ := finish_ok a3 h0 .separator
      obtain ⟨rest2, c1, c2⟩ := reset_ok (p := ⟨f.map some ++ some 0 :: rest, none, .separator, p1.out ++ [f]⟩) (n := n) (by unfold Room; simp; omega)
      refine ⟨⟨some 0 :: rest2, none, .separator, p1.out ++ [f]⟩, ?_, ?_, ?_, ?_, rfl, rest2, by simp [hq]⟩
      · rw [a1]
        rcases a2 with a2 | a2 <;> simp [loop, step, a2, b1, c1]
      · rfl
      · exact ⟨by unfold Room; simp at c2 ⊢; omega, Or.inr rfl⟩
      · simp [a4]

/-- The last field, followed by CRLF. -/
theorem last_field_crlf (f : List UInt8) (h0 : 0 ∉ f) {p : P} (h : Ready p ((fieldText f).length + 2)) :
    ∃ p', loop p (fieldText f ++ [13, 10]) = some (.ok p') ∧ endOf p' = some (.ok (p.out ++ [f])) := by
  by_cases hq : CsvWriter.needsQuotes f
  · have ht : fieldText f = 34 :: (esc f ++ [34]) := by simp [fieldText, hq]
    rw [ht] at h ⊢
    obtain ⟨p1, a1, a2, a3, a4⟩ := loop_qfield f (p := p) (n := 2) [13, 10] (h.mono (by simp))
    obtain ⟨rest, hm, hr⟩ := a3.mem
    match rest, hr with
    | r :: rest, hr =>
      have hw := Buffer.write_at (xs := f) (rest := r :: rest) (by simp) 0
      rw [← hm] at hw
      have hw0 : ∃ m, CMem.write (f.map some ++ some 0 :: rest) 0 (some 0) = some m := ⟨_, CMem.write_eq (by simp; omega)⟩
      obtain ⟨m0, hw0⟩ := hw0
      refine ⟨⟨f.map some ++ some 0 :: rest, none, .spaceAfterQuote, p1.out⟩, ?_, ?_⟩
      · simp only [List.cons_append, List.append_assoc, List.nil_append] at a1 ⊢
        rw [a1]; simp [loop, step, a2, blank, a3.sn, hw]
      · simp [endOf, str_ok f rest h0, hw0, a4]
  · have ht : fieldText f = f := by simp [fieldText, hq]
    rw [ht] at h ⊢
    have hp := plain_of_no_quotes hq
    obtain ⟨p1, a1, a2, a3, a4⟩ := loop_start (f ++ [13, 10]) (by simp) (by
        intro c hc
        simp only [List.mem_append, List.mem_cons, List.not_mem_nil, or_false] at hc
        rcases hc with hc | rfl | rfl
        · exact (hp c hc).1
        · exact ⟨by decide, by decide⟩
        · exact ⟨by decide, by decide⟩) (p := p) (n := 0) [] (h.mono (by simp))
    obtain ⟨rest, hm, hr⟩ := a3.mem
    match rest, hr with
    | r :: rest, hr =>
      have hw := Buffer.write_at (xs := f ++ [13, 10]) (rest := r :: rest) (by simp) 0
      rw [← hm] at hw
      have h0' : 0 ∉ f ++ [13, 10] := by simp [h0]
      have h0'' : 0 ∉ f := h0
      have hw2 : CMem.write ((f ++ [13, 10]).map some ++ some 0 :: rest) f.length (some 0) = some (f.map some ++ some 0 :: (some 10 :: some 0 :: rest)) := by
        have := Buffer.write_at (xs := f) (rest := some 13 :: some 10 :: some 0 :: rest) (by simp) 0
        simpa using this
      have hw0 : ∃ m, CMem.write (f.map some ++ some 0 :: (some 10 :: some 0 :: rest)) 0 (some 0) = some m := ⟨_, CMem.write_eq (by simp; omega)⟩
      obtain ⟨m0, hw0⟩ := hw0
      refine ⟨p1, by rw [List.append_nil] at a1; rw [a1]; rfl, ?_⟩
      have hst : p1.st = .noQuote ∨ p1.st = .preStartSpace := a2.symm
      have hst1 : p1.st ≠ .leadingQuote ∧ p1.st ≠ .withQuote := by rcases hst with h | h <;> rw [h] <;> simp
      simp only [endOf, hst1, ne_eq, not_false_iff, and_self, if_true, a3.sn, hw, Option.bind_eq_bind, Option.bind_some, hst]
      rw [List.drop_succ_cons, List.drop_zero, str_ok _ rest h0']
      simp only [Option.bind_some]
      rw [if_pos (by simp), show (f ++ [(13 : UInt8), 10]).length - 2 = f.length by simp, hw2]
      simp only [Option.bind_some]
      rw [str_ok _ _ h0'']
      simp [hw0, a4]


/-- The last field at the end of the text, without a line end. -/
theorem last_field_eof (f : List UInt8) (h0 : 0 ∉ f) {p : P} (h : Ready p (fieldText f).length)
    (hz : f = [] → p.st = .separator → p.sn = none ∧ ∃ rest, p.mem = some 0 :: rest) :
    ∃ p', loop p (fieldText f) = some (.ok p') ∧ endOf p' = some (.ok (p.out ++ [f])) := by
  by_cases hq : CsvWriter.needsQuotes f
  · have ht : fieldText f = 34 :: (esc f ++ [34]) := by simp [fieldText, hq]
    rw [ht] at h ⊢
    obtain ⟨p1, a1, a2, a3, a4⟩ := loop_qfield f (p := p) (n := 0) [] (h.mono (by simp))
    obtain ⟨rest, hm, hr⟩ := a3.mem
    match rest, hr with
    | r :: rest, hr =>
      have hw := Buffer.write_at (xs := f) (rest := r :: rest) (by simp) 0
      rw [← hm] at hw
      obtain ⟨m0, hw0⟩ : ∃ m, CMem.write (f.map some ++ some 0 :: rest) 0 (some 0) = some m := ⟨_, CMem.write_eq (by simp; omega)⟩
      refine ⟨p1, by rw [a1]; rfl, ?_⟩
      simp [endOf, a2, a3.sn, hw, str_ok f rest h0, hw0, a4]
  · have ht : fieldText f = f := by simp [fieldText, hq]
    rw [ht] at h ⊢
    have hp := plain_of_no_quotes hq
    by_cases hne : f = []
    · subst hne
      refine ⟨p, rfl, ?_⟩
      rcases h.2 with ⟨hs, hsn⟩ | hs
      · obtain ⟨rest, hm⟩ : ∃ a rest, p.mem = a :: rest := by
          have := h.1; unfold Room at this
          match p.mem, this with
          | a :: rest, _ => exact ⟨a, rest, rfl⟩
        obtain ⟨rest, hm⟩ := hm
        simp [endOf, hs, hsn, hm, CMem.write, CMem.str]
      · obtain ⟨e1, rest, e2⟩ := hz rfl hs
        simp [endOf, hs, e1, e2, CMem.write, CMem.str]
    · obtain ⟨p1, a1, a2, a3, a4⟩ := loop_start f hne (fun c hc => (hp c hc).1) (p := p) (n := 0) [] (h.mono (by simp))
      obtain ⟨rest, hm, hr⟩ := a3.mem
      match rest, hr with
      | r :: rest, hr =>
        have hw := Buffer.write_at (xs := f) (rest := r :: rest) (by simp) 0
        rw [← hm] at hw
        obtain ⟨m0, hw0⟩ : ∃ m, CMem.write (f.map some ++ some 0 :: rest) 0 (some 0) = some m := ⟨_, CMem.write_eq (by simp; omega)⟩
        refine ⟨p1, by rw [List.append_nil] at a1; rw [a1]; rfl, ?_⟩
        have hst : p1.st = .noQuote ∨ p1.st = .preStartSpace := a2.symm
        have hst1 : p1.st ≠ .leadingQuote ∧ p1.st ≠ .withQuote := by rcases hst with h | h <;> rw [h] <;> simp
        have hno : ¬ (f.length > 1 ∧ f[f.length - 2]? = some 13 ∧ f[f.length - 1]? = some 10) := by
          intro ⟨_, h1, _⟩
          exact (hp 13 (List.mem_of_getElem? h1)).2.1 rfl
        simp only [endOf, hst1, ne_eq, not_false_iff, and_self, if_true, a3.sn, hw, Option.bind_eq_bind, Option.bind_some, hst]
        rw [List.drop_succ_cons, List.drop_zero, str_ok _ rest h0]
        simp only [Option.bind_some]
        rw [if_neg hno]
        simp [hw0, a4]

/-- A whole record followed by CRLF. -/
theorem record_crlf : ∀ (fs : List (List UInt8)) (f : List UInt8), (∀ g ∈ f :: fs, 0 ∉ g) → ∀ {p : P},
    Ready p ((recText (f :: fs)).length + 2) →
    ∃ p', loop p (recText (f :: fs) ++ [13, 10]) = some (.ok p') ∧ endOf p' = some (.ok (p.out ++ f :: fs)) := by
  intro fs
  induction fs with
  | nil =>
    intro f h0 p h
    simp only [recText, tailText, List.append_nil] at h ⊢
    exact last_field_crlf f (h0 f (by simp)) h
  | cons g gs ih =>
    intro f h0 p h
    have he : recText (f :: g :: gs) = fieldText f ++ 44 :: recText (g :: gs) := by simp [recText, tailText]
    rw [he] at h ⊢
    obtain ⟨p1, a1, a2, a3, a4, _⟩ := loop_field_sep f (h0 f (by simp)) (p := p) (n := (recText (g :: gs)).length + 2) (recText (g :: gs) ++ [13, 10])
      (h.mono (by simp; omega))
    obtain ⟨p2, b1, b2⟩ := ih g (fun x hx => h0 x (by simp [hx])) a3
    refine ⟨p2, ?_, ?_⟩
    · rw [List.append_assoc, List.cons_append, a1, b1]
    · rw [b2, a4]; simp

/-- The record a text without final CRLF is read as: an empty last field behind a quoted one is replaced by that one. -/
def eofRead : List (List UInt8) → List (List UInt8)
  | [] => []
  | [f] => [f]
  | [f, g] => if CsvWriter.needsQuotes f ∧ g = [] then [f, f] else [f, g]
  | f :: g :: h :: fs => f :: eofRead (g :: h :: fs)

theorem record_eof : ∀ (fs : List (List UInt8)) (f : List UInt8), (∀ g ∈ f :: fs, 0 ∉ g) → ∀ {p : P},
    Ready p (recText (f :: fs)).length →
    (f :: fs = [[]] → p.st = .separator → p.sn = none ∧ ∃ rest, p.mem = some 0 :: rest) →
    ∃ p', loop p (recText (f :: fs)) = some (.ok p') ∧ endOf p' = some (.ok (p.out ++ eofRead (f :: fs))) := by
  intro fs
  induction fs with
  | nil =>
    intro f h0 p h hz
    simp only [recText, tailText, List.append_nil, eofRead] at h ⊢
    exact last_field_eof f (h0 f (by simp)) h (fun e => hz (by rw [e]))
  | cons g gs ih =>
    intro f h0 p h hz
    have he : recText (f :: g :: gs) = fieldText f ++ 44 :: recText (g :: gs) := by simp [recText, tailText]
    rw [he] at h ⊢
    obtain ⟨p1, a1, a2, a3, a4, a5, rest, a6⟩ := loop_field_sep f (h0 f (by simp)) (p := p) (n := (recText (g :: gs)).length) (recText (g :: gs))
      (h.mono (by simp; omega))
    by_cases hbad : CsvWriter.needsQuotes f ∧ g = [] ∧ gs = []
    · obtain ⟨hq, rfl, rfl⟩ := hbad
      have hr : recText [[]] = [] := by simp [recText, tailText, fieldText, CsvWriter.needsQuotes]
      rw [hr] at a1
      refine ⟨p1, by rw [hr, a1]; rfl, ?_⟩
      obtain ⟨m0, hw0⟩ : ∃ m, CMem.write (f.map some ++ some 0 :: rest) 0 (some 0) = some m := ⟨_, CMem.write_eq (by simp; omega)⟩
      rw [if_pos hq] at a6
      simp [endOf, a2, a5, a6, str_ok f rest (h0 f (by simp)), hw0, a4, eofRead, hq]
    · obtain ⟨p2, b1, b2⟩ := ih g (fun x hx => h0 x (by simp [hx])) a3 (by
        intro e _
        simp only [List.cons.injEq] at e
        refine ⟨a5, rest, ?_⟩
        rw [a6, if_neg (fun hq => hbad ⟨hq, e⟩)]; simp)
      refine ⟨p2, by rw [a1, b1], ?_⟩
      rw [b2, a4]
      match gs, hbad with
      | [], hbad => simp only [eofRead]; rw [if_neg (fun ⟨h1, h2⟩ => hbad ⟨h1, h2, rfl⟩)]; simp
      | _ :: _, _ => simp [eofRead]

theorem init_ready (n : Nat) : ∃ m, CMem.write (List.replicate (n + 1) (none : Option UInt8)) 0 (some 0) = some m ∧
    Ready ⟨m, some 0, .newLine, []⟩ n := by
  refine ⟨_, CMem.write_eq (by simp), ?_, Or.inl ⟨rfl, rfl⟩⟩
  simp [Room]

/-! ## Safety on arbitrary text -/

/-- What holds in front of every byte; `pre` is the text read so far, `n` the number of bytes left. -/
def Safe (p : P) (pre : List UInt8) (n : Nat) : Prop :=
  Room p n ∧
  match p.st with
  | .newLine => p.sn = some 0
  | .preStartSpace => ∃ acc, PR p acc n
  | .noQuote => ∃ acc, PR p acc n
  | .separator => p.sn = none ∧ ∃ (acc : List UInt8) (rest : List (Option UInt8)), p.mem = acc.map some ++ some 0 :: rest
  | .leadingQuote => True
  | .internalQuote => (∃ q, pre = q ++ [34]) ∧ ∃ acc, PR p acc n
  | .withQuote => ∃ acc, PR p acc n
  | .spaceAfterQuote => (p.sn = none ∧ ∃ (acc : List UInt8) (rest : List (Option UInt8)), p.mem = acc.map some ++ some 0 :: rest) ∨
      ((∃ q b, blank b = true ∧ pre = q ++ [34, b]) ∧ ∃ acc, PR p acc n)
  | .error => (∃ rest, p.mem = some 0 :: rest) ∧ ∀ i, p.sn = some i → i < p.mem.length

theorem finish_any {p : P} {acc : List UInt8} {n : Nat} (h : PR p acc n) (st : St) :
    ∃ rest f, finish p st = some ⟨acc.map some ++ some 0 :: rest, none, st, p.out ++ [f]⟩ ∧ n ≤ rest.length := by
  obtain ⟨rest, hm, hr⟩ := h.mem
  match rest, hr with
  | r :: rest, hr =>
    have := Buffer.write_at (xs := acc) (rest := r :: rest) (by simp) 0
    rw [← hm] at this
    obtain ⟨f, hf⟩ := str_any acc rest
    refine ⟨rest, f, ?_, by simpa using hr⟩
    simp [finish, h.sn, this, hf]

theorem reset_st {p : P} {n : Nat} (h : Room p n) :
    ∃ rest, CMem.write p.mem 0 (some 0) = some (some 0 :: rest) ∧ rest.length + 1 = p.mem.length := by
  unfold Room at h
  match hm : p.mem with
  | [] => simp [hm] at h
  | a :: rest => exact ⟨rest, by simp [CMem.write], by simp⟩

theorem step_safe {p : P} {pre : List UInt8} {n : Nat} (h : Safe p pre (n + 1)) (c : UInt8)
    (hx : ¬ ∃ q b, blank b = true ∧ pre = q ++ [34, b] ∧ c = 44) :
    ∃ r, step p c = some r ∧ ∀ p', r = .ok p' → Safe p' (pre ++ [c]) n := by
  obtain ⟨hroom, hst⟩ := h
  obtain ⟨rest0, w1, w2⟩ := reset_st hroom
  have hroom' : n + 2 ≤ p.mem.length := hroom
  have lead : ∀ (sn : Option Nat) (out : List (List UInt8)), Safe ⟨some 0 :: rest0, sn, .leadingQuote, out⟩ (pre ++ [c]) n :=
    fun sn out => ⟨by unfold Room at *; simp; omega, trivial⟩
  have err : ∀ (out : List (List UInt8)), Safe ⟨some 0 :: rest0, none, .error, out⟩ (pre ++ [c]) n :=
    fun out => ⟨by unfold Room at *; simp; omega, ⟨rest0, rfl⟩, by simp⟩
  have sep0 : ∀ (out : List (List UInt8)), Safe ⟨some 0 :: rest0, none, .separator, out⟩ (pre ++ [c]) n :=
    fun out => ⟨by unfold Room at *; simp; omega, rfl, [], rest0, rfl⟩
  cases hs : p.st with
  | error => exact ⟨_, by simp only [step, hs]; rfl, by simp⟩
  | newLine =>
    rw [hs] at hst
    by_cases h1 : c = 44
    · exact ⟨.ok ⟨some 0 :: rest0, none, .separator, p.out ++ [[]]⟩, by simp [step, hs, h1, hst, w1], by intro p' e; cases e; exact sep0 _⟩
    · by_cases h2 : blank c
      · obtain ⟨p1, a, b, e, d⟩ := put_ok (p := p) (acc := []) (n := n) ⟨hst, p.mem, by simp, hroom⟩ c .preStartSpace
        exact ⟨.ok p1, by simp [step, hs, h1, h2, a], by intro p' e'; cases e'; exact ⟨b.room.mono (by omega), by rw [e]; exact ⟨_, b⟩⟩⟩
      · by_cases h3 : c = 34
        · exact ⟨.ok ⟨some 0 :: rest0, none, .leadingQuote, p.out⟩, by simp [step, hs, h1, h2, h3, reset, w1, blank], by intro p' e; cases e; exact lead _ _⟩
        · obtain ⟨p1, a, b, e, d⟩ := put_ok (p := p) (acc := []) (n := n) ⟨hst, p.mem, by simp, hroom⟩ c .noQuote
          exact ⟨.ok p1, by simp [step, hs, h1, h2, h3, a], by intro p' e'; cases e'; exact ⟨b.room.mono (by omega), by rw [e]; exact ⟨_, b⟩⟩⟩
  | preStartSpace =>
    rw [hs] at hst
    obtain ⟨acc, hpr⟩ := hst
    by_cases h1 : c = 44
    · obtain ⟨rest, f, a, b⟩ := finish_any hpr .separator
      obtain ⟨rest2, u1, u2⟩ := reset_st (p := ⟨acc.map some ++ some 0 :: rest, none, .separator, p.out ++ [f]⟩) (n := n) (by unfold Room; simp; omega)
      refine ⟨.ok ⟨some 0 :: rest2, none, .separator, p.out ++ [f]⟩, ?_, by intro p' e; cases e; exact ⟨by unfold Room; simp at u2 ⊢; omega, rfl, [], rest2, rfl⟩⟩
      simp only [] at u1
      simp [step, hs, h1, a, reset, u1]
    · by_cases h2 : blank c
      · obtain ⟨p1, a, b, e, d⟩ := put_ok hpr c .preStartSpace
        exact ⟨.ok p1, by simp [step, hs, h1, h2, a], by intro p' e'; cases e'; exact ⟨b.room.mono (by omega), by rw [e]; exact ⟨_, b⟩⟩⟩
      · by_cases h3 : c = 34
        · exact ⟨.ok ⟨some 0 :: rest0, none, .leadingQuote, p.out⟩, by simp [step, hs, h1, h2, h3, reset, w1, blank], by intro p' e; cases e; exact lead _ _⟩
        · obtain ⟨p1, a, b, e, d⟩ := put_ok hpr c .noQuote
          exact ⟨.ok p1, by simp [step, hs, h1, h2, h3, a], by intro p' e'; cases e'; exact ⟨b.room.mono (by omega), by rw [e]; exact ⟨_, b⟩⟩⟩
  | noQuote =>
    rw [hs] at hst
    obtain ⟨acc, hpr⟩ := hst
    by_cases h1 : c = 44
    · obtain ⟨rest, f, a, b⟩ := finish_any hpr .separator
      obtain ⟨rest2, u1, u2⟩ := reset_st (p := ⟨acc.map some ++ some 0 :: rest, none, .separator, p.out ++ [f]⟩) (n := n) (by unfold Room; simp; omega)
      refine ⟨.ok ⟨some 0 :: rest2, none, .separator, p.out ++ [f]⟩, ?_, by intro p' e; cases e; exact ⟨by unfold Room; simp at u2 ⊢; omega, rfl, [], rest2, rfl⟩⟩
      simp only [] at u1
      simp [step, hs, h1, a, reset, u1]
    · by_cases h3 : c = 34
      · exact ⟨.ok ⟨some 0 :: rest0, none, .error, p.out⟩, by simp [step, hs, h1, h3, reset, w1], by intro p' e; cases e; exact err _⟩
      · obtain ⟨p1, a, b, e, d⟩ := put_ok hpr c .noQuote
        exact ⟨.ok p1, by simp [step, hs, h1, h3, a], by intro p' e'; cases e'; exact ⟨b.room.mono (by omega), by rw [e]; exact ⟨_, b⟩⟩⟩
  | separator =>
    by_cases h1 : c = 44
    · exact ⟨.ok ⟨some 0 :: rest0, none, .separator, p.out ++ [[]]⟩, by simp [step, hs, h1, reset, w1, CMem.str], by intro p' e; cases e; exact sep0 _⟩
    · by_cases h2 : blank c
      · obtain ⟨p1, a, b, e, d⟩ := put0_ok hroom c .preStartSpace .separator
        exact ⟨.ok p1, by simp only [step, hs]; simp [h1, h2, a], by intro p' e'; cases e'; exact ⟨b.room.mono (by omega), by rw [e]; exact ⟨_, b⟩⟩⟩
      · by_cases h3 : c = 34
        · exact ⟨.ok ⟨some 0 :: rest0, none, .leadingQuote, p.out⟩, by simp [step, hs, h1, h2, h3, reset, w1, blank], by intro p' e; cases e; exact lead _ _⟩
        · obtain ⟨p1, a, b, e, d⟩ := put0_ok hroom c .noQuote .separator
          exact ⟨.ok p1, by simp only [step, hs]; simp [h1, h2, h3, a], by intro p' e'; cases e'; exact ⟨b.room.mono (by omega), by rw [e]; exact ⟨_, b⟩⟩⟩
  | leadingQuote =>
    by_cases h3 : c = 34
    · refine ⟨.ok { p with sn := some 0, st := .internalQuote }, by simp [step, hs, h3], ?_⟩
      intro p' e; cases e
      exact ⟨hroom.mono (by omega), ⟨pre, by rw [h3]⟩, [], rfl, p.mem, by simp, by omega⟩
    · obtain ⟨p1, a, b, e, d⟩ := put0_ok hroom c .withQuote .leadingQuote
      exact ⟨.ok p1, by simp only [step, hs]; simp [h3, a], by intro p' e'; cases e'; exact ⟨b.room.mono (by omega), by rw [e]; exact ⟨_, b⟩⟩⟩
  | internalQuote =>
    rw [hs] at hst
    obtain ⟨⟨q, hq⟩, acc, hpr⟩ := hst
    by_cases h1 : c = 44
    · obtain ⟨rest, f, a, b⟩ := finish_any hpr .separator
      exact ⟨.ok ⟨acc.map some ++ some 0 :: rest, none, .separator, p.out ++ [f]⟩, by simp [step, hs, h1, a], by
        intro p' e; cases e
        exact ⟨by unfold Room; simp; omega, rfl, acc, rest, rfl⟩⟩
    · by_cases h2 : blank c
      · refine ⟨.ok { p with st := .spaceAfterQuote }, by simp [step, hs, h1, h2], ?_⟩
        intro p' e; cases e
        obtain ⟨rest, hm, hr⟩ := hpr.mem
        exact ⟨hroom.mono (by omega), Or.inr ⟨⟨q, c, h2, by rw [hq]; simp⟩, acc, hpr.sn, rest, hm, by omega⟩⟩
      · by_cases h3 : c = 34
        · obtain ⟨p1, a, b, e, d⟩ := put_ok hpr c .withQuote
          exact ⟨.ok p1, by simp [step, hs, h1, h3, blank]; rw [h3] at a; exact a, by intro p' e'; cases e'; exact ⟨b.room.mono (by omega), by rw [e]; exact ⟨_, b⟩⟩⟩
        · refine ⟨.ok ⟨some 0 :: rest0, some (acc.length + 1), .error, p.out⟩, by simp [step, hs, h1, h2, h3, reset, w1, hpr.sn], ?_⟩
          intro p' e; cases e
          obtain ⟨rest, hm, hr⟩ := hpr.mem
          refine ⟨by unfold Room; simp; omega, ⟨rest0, rfl⟩, ?_⟩
          intro i hi
          simp only [Option.some.injEq] at hi
          rw [hm] at w2
          simp at w2 ⊢; omega
  | withQuote =>
    rw [hs] at hst
    obtain ⟨acc, hpr⟩ := hst
    by_cases h3 : c = 34
    · refine ⟨.ok { p with st := .internalQuote }, by simp [step, hs, h3], ?_⟩
      intro p' e; cases e
      obtain ⟨rest, hm, hr⟩ := hpr.mem
      exact ⟨hroom.mono (by omega), ⟨pre, by rw [h3]⟩, acc, hpr.sn, rest, hm, by omega⟩
    · obtain ⟨p1, a, b, e, d⟩ := put_ok hpr c .withQuote
      exact ⟨.ok p1, by simp [step, hs, h3, a], by intro p' e'; cases e'; exact ⟨b.room.mono (by omega), by rw [e]; exact ⟨_, b⟩⟩⟩
  | spaceAfterQuote =>
    rw [hs] at hst
    by_cases h1 : c = 44
    · rcases hst with ⟨hsn, acc, rest, hm⟩ | ⟨⟨q, b, hb, hpre⟩, _⟩
      · obtain ⟨f, hf⟩ := str_any acc rest
        refine ⟨.ok { p with sn := none, st := .separator, out := p.out ++ [f] }, by rw [← hm] at hf; simp [step, hs, h1, hf], ?_⟩
        intro p' e; cases e
        exact ⟨hroom.mono (by omega), rfl, acc, rest, hm⟩
      · exact absurd ⟨q, b, hb, hpre, h1⟩ hx
    · by_cases h2 : blank c
      · rcases hst with ⟨hsn, acc, rest, hm⟩ | ⟨_, acc, hpr⟩
        · refine ⟨.ok p, by simp [step, hs, h1, h2, hsn], ?_⟩
          intro p' e; cases e
          exact ⟨hroom.mono (by omega), by rw [hs]; exact Or.inl ⟨hsn, acc, rest, hm⟩⟩
        · obtain ⟨rest, hm, hr⟩ := hpr.mem
          match rest, hr with
          | r :: rest, hr =>
            have hw := Buffer.write_at (xs := acc) (rest := r :: rest) (by simp) 0
            rw [← hm] at hw
            refine ⟨.ok ⟨acc.map some ++ some 0 :: rest, none, .spaceAfterQuote, p.out⟩, by simp [step, hs, h1, h2, hpr.sn, hw], ?_⟩
            intro p' e; cases e
            exact ⟨by unfold Room; simp at hr ⊢; omega, Or.inl ⟨rfl, acc, rest, rfl⟩⟩
      · exact ⟨.ok ⟨some 0 :: rest0, none, .error, p.out⟩, by simp [step, hs, h1, h2, reset, w1], by intro p' e; cases e; exact err _⟩

/-- The text has no closing quote, single blank, separator in a row. -/
def noQuoteBlankSep (s : List UInt8) : Prop := ∀ b, blank b = true → ¬ [34, b, 44] <:+: s

theorem loop_safe : ∀ (s pre : List UInt8) {p : P}, Safe p pre s.length → noQuoteBlankSep (pre ++ s) →
    ∃ r, loop p s = some r ∧ ∀ p', r = .ok p' → Safe p' (pre ++ s) 0 := by
  intro s
  induction s with
  | nil => intro pre p h _; exact ⟨.ok p, rfl, by intro p' e; cases e; simpa using h⟩
  | cons c s ih =>
    intro pre p h hn
    obtain ⟨r, a1, a2⟩ := step_safe (n := s.length) h c (by
      rintro ⟨q, b, hb, hpre, hc⟩
      exact hn b hb ⟨q, s, by rw [hpre, hc]; simp⟩)
    cases r with
    | error e => exact ⟨.error e, by simp [loop, a1], by simp⟩
    | ok p1 =>
      obtain ⟨r2, b1, b2⟩ := ih (pre ++ [c]) (a2 p1 rfl) (by simpa using hn)
      exact ⟨r2, by simp [loop, a1, b1], by simpa using b2⟩

theorem str_len : ∀ (m : List (Option UInt8)) (s : List UInt8), CMem.str m = some s → ∃ rest, m = s.map some ++ some 0 :: rest := by
  intro m
  induction m with
  | nil => intro s h; simp [CMem.str] at h
  | cons a m ih =>
    intro s h
    cases a with
    | none => simp [CMem.str] at h
    | some c =>
      by_cases hc : c = 0
      · simp [CMem.str, hc] at h; exact ⟨m, by simp [← h, hc]⟩
      · simp only [CMem.str, hc, if_false] at h
        cases hm : CMem.str m with
        | none => simp [hm] at h
        | some t =>
          simp [hm] at h
          obtain ⟨rest, hr⟩ := ih t hm
          exact ⟨rest, by rw [← h, hr]; simp⟩

/-- With a terminated string in the block (and trimming or not), the end of the parse is defined. -/
theorem tail_safe {acc : List UInt8} {rest : List (Option UInt8)} (out : List (List UInt8)) (trim : Bool) :
    ∃ r, (do
      let mem ← if trim = true then do
          let s ← CMem.str (acc.map some ++ some 0 :: rest)
          if s.length > 1 ∧ s[s.length - 2]? = some 13 ∧ s[s.length - 1]? = some 10 then
            CMem.write (acc.map some ++ some 0 :: rest) (s.length - 2) (some 0)
          else some (acc.map some ++ some 0 :: rest)
        else some (acc.map some ++ some 0 :: rest)
      let f ← CMem.str mem
      let _ ← CMem.write mem 0 (some 0)
      some (Except.ok (ε := Err) (out ++ [f]))) = some r := by
  obtain ⟨s, hs⟩ := str_any acc rest
  obtain ⟨m0, hw0⟩ : ∃ m, CMem.write (acc.map some ++ some 0 :: rest) 0 (some 0) = some m := ⟨_, CMem.write_eq (by simp; omega)⟩
  cases trim with
  | false => exact ⟨_, by simp [hs, hw0]; rfl⟩
  | true =>
    obtain ⟨rest2, hr⟩ := str_len _ _ hs
    by_cases ht : s.length > 1 ∧ s[s.length - 2]? = some 13 ∧ s[s.length - 1]? = some 10
    · have hw : CMem.write (acc.map some ++ some 0 :: rest) (s.length - 2) (some 0) =
          some ((s.take (s.length - 2)).map some ++ some 0 :: ((s.drop (s.length - 1)).map some ++ some 0 :: rest2)) := by
        rw [hr, CMem.write_eq (by simp; omega)]
        congr 1
        apply List.ext_getElem
        · simp; omega
        · intro i h1 h2
          simp only [List.length_set, List.length_append, List.length_map, List.length_cons] at h1
          simp only [List.getElem_set, List.getElem_append, List.length_map, List.length_take, List.getElem_map, List.getElem_take, List.getElem_cons]
          grind
      obtain ⟨f2, hf2⟩ := str_any (s.take (s.length - 2)) ((s.drop (s.length - 1)).map some ++ some 0 :: rest2)
      obtain ⟨m2, hw2⟩ : ∃ m, CMem.write ((s.take (s.length - 2)).map some ++ some 0 :: ((s.drop (s.length - 1)).map some ++ some 0 :: rest2)) 0 (some 0) = some m :=
        ⟨_, CMem.write_eq (by simp; omega)⟩
      refine ⟨.ok (out ++ [f2]), ?_⟩
      simp only [if_true, Option.bind_eq_bind, hs, Option.bind_some, if_pos ht, hw, hf2, hw2]
    · refine ⟨.ok (out ++ [s]), ?_⟩
      simp only [if_true, Option.bind_eq_bind, hs, Option.bind_some, if_neg ht, hw0]

theorem endOf_safe {p : P} {pre : List UInt8} (h : Safe p pre 0) : ∃ r, endOf p = some r := by
  obtain ⟨hroom, hst⟩ := h
  by_cases hl : p.st ≠ .leadingQuote ∧ p.st ≠ .withQuote
  · have key : ∃ (acc : List UInt8) (rest : List (Option UInt8)),
        (match p.sn with
          | some i => CMem.write p.mem i (some 0)
          | none => some p.mem) = some (acc.map some ++ some 0 :: rest) := by
      have pr : ∀ acc, PR p acc 0 → ∃ (acc : List UInt8) (rest : List (Option UInt8)),
          (match p.sn with
            | some i => CMem.write p.mem i (some 0)
            | none => some p.mem) = some (acc.map some ++ some 0 :: rest) := by
        intro acc hpr
        obtain ⟨rest, hm, hr⟩ := hpr.mem
        match rest, hr with
        | r :: rest, hr =>
          have hw := Buffer.write_at (xs := acc) (rest := r :: rest) (by simp) 0
          rw [← hm] at hw
          exact ⟨acc, rest, by rw [hpr.sn]; simpa using hw⟩
      cases hs : p.st with
      | newLine =>
        rw [hs] at hst
        exact pr [] ⟨hst, p.mem, by simp, hroom⟩
      | preStartSpace => rw [hs] at hst; obtain ⟨acc, hpr⟩ := hst; exact pr acc hpr
      | noQuote => rw [hs] at hst; obtain ⟨acc, hpr⟩ := hst; exact pr acc hpr
      | separator => rw [hs] at hst; obtain ⟨hsn, acc, rest, hm⟩ := hst; exact ⟨acc, rest, by rw [hsn, hm]⟩
      | leadingQuote => exact absurd hs hl.1
      | internalQuote => rw [hs] at hst; obtain ⟨_, acc, hpr⟩ := hst; exact pr acc hpr
      | withQuote => exact absurd hs hl.2
      | spaceAfterQuote =>
        rw [hs] at hst
        rcases hst with ⟨hsn, acc, rest, hm⟩ | ⟨_, acc, hpr⟩
        · exact ⟨acc, rest, by rw [hsn, hm]⟩
        · exact pr acc hpr
      | error =>
        rw [hs] at hst
        obtain ⟨⟨rest, hm⟩, hi⟩ := hst
        cases hsn : p.sn with
        | none => exact ⟨[], rest, by simp [hm]⟩
        | some i =>
          have := hi i hsn
          cases i with
          | zero => exact ⟨[], rest, by simp [CMem.write, hm]⟩
          | succ i =>
            exact ⟨[], rest.set i (some 0), by rw [hm] at this ⊢; simp [CMem.write] at this ⊢; omega⟩
    obtain ⟨acc, rest, hk⟩ := key
    obtain ⟨r, hr⟩ := tail_safe (acc := acc) (rest := rest) p.out (decide (p.st = .noQuote ∨ p.st = .preStartSpace))
    refine ⟨r, ?_⟩
    rw [← hr]
    cases hsn : p.sn with
    | none =>
      rw [hsn] at hk
      simp only [Option.some.injEq] at hk
      simp only [endOf, if_pos hl, Option.bind_eq_bind, hsn, hk, Option.bind_some, decide_eq_true_eq]
    | some i =>
      rw [hsn] at hk
      simp only at hk
      simp only [endOf, if_pos hl, Option.bind_eq_bind, hsn, hk, Option.bind_some, decide_eq_true_eq]
  · exact ⟨.error .unexpectedEnd, by simp only [endOf, if_neg hl]⟩

theorem launch_safe (s : List UInt8) (h : noQuoteBlankSep s) : ∃ r, launch s = some r := by
  obtain ⟨m, a1, a2⟩ := init_ready s.length
  obtain ⟨r, b1, b2⟩ := loop_safe s [] (p := ⟨m, some 0, .newLine, []⟩) ⟨a2.1, rfl⟩ (by simpa using h)
  cases r with
  | error e => exact ⟨.error e, by simp [launch, a1, b1]⟩
  | ok p =>
    obtain ⟨r2, c1⟩ := endOf_safe (b2 p rfl)
    exact ⟨r2, by simp [launch, a1, b1, c1]⟩

/-! ## The line reader -/
open Writer (WRep)

theorem lineLoop_split : ∀ (s : List UInt8) {w : Writer.W} {xs : List UInt8} (prev : UInt8) (iq : Bool), WRep w xs →
    ∃ w' a b, lineLoop w prev iq s = some (w', b) ∧ s = a ++ b ∧ WRep w' (xs ++ a) ∧ (s ≠ [] → a ≠ []) := by
  intro s
  induction s with
  | nil => intro w xs prev iq h; exact ⟨w, [], [], rfl, rfl, by simpa using h, by simp⟩
  | cons c s ih =>
    intro w xs prev iq h
    obtain ⟨w1, a1, a2⟩ := Writer.writeChar_ok h c
    by_cases hc : c = 34
    · obtain ⟨w2, a, b, b1, b2, b3, _⟩ := ih c (!iq) a2
      exact ⟨w2, c :: a, b, by simp only [lineLoop, a1, Option.bind_eq_bind, Option.bind_some, if_pos hc]; exact b1, by rw [b2]; rfl, by simpa using b3, by simp⟩
    · by_cases hb : (!iq && c == 10 && prev == 13) = true
      · exact ⟨w1, [c], s, by simp only [lineLoop, a1, Option.bind_eq_bind, Option.bind_some, if_neg hc, if_pos hb], rfl, a2, by simp⟩
      · obtain ⟨w2, a, b, b1, b2, b3, _⟩ := ih c iq a2
        exact ⟨w2, c :: a, b, by simp only [lineLoop, a1, Option.bind_eq_bind, Option.bind_some, if_neg hc, if_neg hb]; exact b1, by rw [b2]; rfl, by simpa using b3, by simp⟩

/-- Bytes that cannot end a line outside quotes. -/
theorem lineLoop_plain : ∀ (u : List UInt8), (∀ c ∈ u, c ≠ 34 ∧ c ≠ 10) → ∀ {w : Writer.W} {xs : List UInt8} (prev : UInt8) (tail : List UInt8), WRep w xs →
    ∃ w' prev', lineLoop w prev false (u ++ tail) = lineLoop w' prev' false tail ∧ WRep w' (xs ++ u) := by
  intro u
  induction u with
  | nil => intro _ w xs prev tail h; exact ⟨w, prev, rfl, by simpa using h⟩
  | cons c u ih =>
    intro hu w xs prev tail h
    obtain ⟨w1, a1, a2⟩ := Writer.writeChar_ok h c
    obtain ⟨w2, p2, b1, b2⟩ := ih (fun x hx => hu x (by simp [hx])) c tail a2
    have hc := hu c (by simp)
    exact ⟨w2, p2, by simp [lineLoop, a1, hc.1, hc.2, b1], by simpa using b2⟩

theorem lineLoop_esc : ∀ (f : List UInt8) {w : Writer.W} {xs : List UInt8} (prev : UInt8) (tail : List UInt8), WRep w xs →
    ∃ w' prev', lineLoop w prev true (esc f ++ tail) = lineLoop w' prev' true tail ∧ WRep w' (xs ++ esc f) := by
  intro f
  induction f with
  | nil => intro w xs prev tail h; exact ⟨w, prev, rfl, by simpa [esc] using h⟩
  | cons c f ih =>
    intro w xs prev tail h
    by_cases hc : c = 34
    · have he : esc (c :: f) = 34 :: 34 :: esc f := by simp [esc, hc]
      rw [he]
      obtain ⟨w1, a1, a2⟩ := Writer.writeChar_ok h 34
      obtain ⟨w2, b1, b2⟩ := Writer.writeChar_ok a2 34
      obtain ⟨w3, p3, c1, c2⟩ := ih 34 tail b2
      exact ⟨w3, p3, by simp [lineLoop, a1, b1, c1], by simpa using c2⟩
    · have he : esc (c :: f) = c :: esc f := by simp [esc, hc]
      rw [he]
      obtain ⟨w1, a1, a2⟩ := Writer.writeChar_ok h c
      obtain ⟨w3, p3, c1, c2⟩ := ih c tail a2
      exact ⟨w3, p3, by simp [lineLoop, a1, hc, c1], by simpa using c2⟩

theorem lineLoop_field (f : List UInt8) {w : Writer.W} {xs : List UInt8} (prev : UInt8) (tail : List UInt8) (h : WRep w xs) :
    ∃ w' prev', lineLoop w prev false (fieldText f ++ tail) = lineLoop w' prev' false tail ∧ WRep w' (xs ++ fieldText f) := by
  by_cases hq : CsvWriter.needsQuotes f
  · have ht : fieldText f = 34 :: (esc f ++ [34]) := by simp [fieldText, hq]
    rw [ht]
    obtain ⟨w1, a1, a2⟩ := Writer.writeChar_ok h 34
    obtain ⟨w2, p2, b1, b2⟩ := lineLoop_esc f 34 (34 :: tail) a2
    obtain ⟨w3, c1, c2⟩ := Writer.writeChar_ok b2 34
    refine ⟨w3, 34, ?_, by simpa using c2⟩
    simp only [List.cons_append, List.append_assoc, List.nil_append]
    simp [lineLoop, a1, b1, c1]
  · have ht : fieldText f = f := by simp [fieldText, hq]
    rw [ht]
    have hp := plain_of_no_quotes hq
    exact lineLoop_plain f (fun c hc => ⟨(hp c hc).1.1, (hp c hc).2.2⟩) prev tail h

theorem lineLoop_tailText : ∀ (fs : List (List UInt8)) {w : Writer.W} {xs : List UInt8} (prev : UInt8) (tail : List UInt8), WRep w xs →
    ∃ w' prev', lineLoop w prev false (tailText fs ++ tail) = lineLoop w' prev' false tail ∧ WRep w' (xs ++ tailText fs) := by
  intro fs
  induction fs with
  | nil => intro w xs prev tail h; exact ⟨w, prev, rfl, by simpa [tailText] using h⟩
  | cons f fs ih =>
    intro w xs prev tail h
    obtain ⟨w1, a1, a2⟩ := Writer.writeChar_ok h 44
    obtain ⟨w2, p2, b1, b2⟩ := lineLoop_field f 44 (tailText fs ++ tail) a2
    obtain ⟨w3, p3, c1, c2⟩ := ih p2 tail b2
    exact ⟨w3, p3, by simp [tailText, lineLoop, a1, b1, c1], by simpa [tailText] using c2⟩

theorem lineLoop_rec (fs : List (List UInt8)) {w : Writer.W} {xs : List UInt8} (prev : UInt8) (tail : List UInt8) (h : WRep w xs) :
    ∃ w' prev', lineLoop w prev false (recText fs ++ tail) = lineLoop w' prev' false tail ∧ WRep w' (xs ++ recText fs) := by
  cases fs with
  | nil => exact ⟨w, prev, rfl, by simpa [recText] using h⟩
  | cons f fs =>
    obtain ⟨w2, p2, b1, b2⟩ := lineLoop_field f prev (tailText fs ++ tail) h
    obtain ⟨w3, p3, c1, c2⟩ := lineLoop_tailText fs p2 tail b2
    exact ⟨w3, p3, by simp [recText, b1, c1], by simpa [recText] using c2⟩

theorem getLineNext_rec (fs : List (List UInt8)) (tail : List UInt8) :
    getLineNext (recText fs ++ [13, 10] ++ tail) = some (some (recText fs ++ [13, 10] ++ [0]), tail) := by
  obtain ⟨w1, p1, a1, a2⟩ := lineLoop_rec fs 0 ([13, 10] ++ tail) Writer.init_ok
  obtain ⟨w2, b1, b2⟩ := Writer.writeChar_ok a2 13
  obtain ⟨w3, c1, c2⟩ := Writer.writeChar_ok b2 10
  have hl : lineLoop Writer.stringWriter 0 false (recText fs ++ [13, 10] ++ tail) = some (w3, tail) := by
    rw [List.append_assoc, a1]
    simp [lineLoop, b1, c1]
  have hd := Writer.dataZ_ok c2
  have hn : Writer.length w3 ≠ 0 := by simp [Writer.length, c2.len]
  simp only [getLineNext, hl, Option.bind_eq_bind, Option.bind_some, if_neg hn, hd]
  simp

theorem getLineNext_nil : getLineNext [] = some (none, []) := by rfl

theorem getLineNext_cons (c : UInt8) (s : List UInt8) :
    ∃ a b, getLineNext (c :: s) = some (some (a ++ [0]), b) ∧ c :: s = a ++ b ∧ a ≠ [] := by
  obtain ⟨w, a, b, h1, h2, h3, h4⟩ := lineLoop_split (c :: s) 0 false Writer.init_ok
  have hn : Writer.length w ≠ 0 := by
    have := h4 (by simp)
    simp only [List.nil_append] at h3
    have hl := h3.len
    simp only [Writer.length, hl]
    exact fun e => this (List.length_eq_zero_iff.mp e)
  have hd := Writer.dataZ_ok h3
  refine ⟨a, b, ?_, h2, h4 (by simp)⟩
  simp only [getLineNext, h1, Option.bind_eq_bind, Option.bind_some, if_neg hn, hd]
  simp

end CsvParser
