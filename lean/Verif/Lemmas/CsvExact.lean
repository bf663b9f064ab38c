import Mathlib.Data.List.Basic
import Verif.Spec.CsvExact
import Verif.Lemmas.Csv
/-! # The CSV automaton on every text -/
namespace CsvParser
open CsvGrammar CsvText

theorem blank_iff (c : UInt8) : blank c = true ↔ Blank c := by
  simp only [blank, Bool.or_eq_true, beq_iff_eq, Blank]; tauto

theorem doubled_eq (f : List UInt8) : doubled f = esc f := by
  induction f with
  | nil => rfl
  | cons c f ih => by_cases h : c = 34 <;> simp [doubled, esc, h, ih]

theorem mem_doubled {f : List UInt8} {c : UInt8} (h : c ∈ f) : c ∈ doubled f := by
  induction f with
  | nil => simp at h
  | cons d f ih =>
    unfold doubled
    rcases List.mem_cons.1 h with rfl | h
    · split <;> simp_all
    · split <;> simp [ih h]

/-- At the beginning of a field; `prev` is the value of the field before, if it was quoted. -/
def At (p : P) (prev : Option (List UInt8)) (n : Nat) : Prop :=
  Room p n ∧ ((p.st = .newLine ∧ p.sn = some 0 ∧ prev = none) ∨
    (p.st = .separator ∧ p.sn = none ∧ 0 ∉ prev.getD [] ∧ ∃ rest, p.mem = (prev.getD []).map some ++ some 0 :: rest))

theorem At.ready {p : P} {prev : Option (List UInt8)} {n : Nat} (h : At p prev n) : Ready p n :=
  ⟨h.1, h.2.imp (fun x => ⟨x.1, x.2.1⟩) (fun x => x.1)⟩

/-- The state at the end of a bare text. -/
def bareSt (u : List UInt8) : St := if u.all blank then .preStartSpace else .noQuote

theorem loop_plain_st : ∀ (u : List UInt8), (∀ c ∈ u, plain c) → ∀ {p : P} {acc : List UInt8} {n : Nat} (tail : List UInt8),
    (p.st = .preStartSpace ∨ p.st = .noQuote) → PR p acc (u.length + n) →
    ∃ p', loop p (u ++ tail) = loop p' tail ∧ p'.st = (if p.st = .preStartSpace then bareSt u else .noQuote) ∧ PR p' (acc ++ u) n ∧ p'.out = p.out := by
  intro u
  induction u with
  | nil =>
    intro _ p acc n tail hs h
    refine ⟨p, rfl, ?_, by simpa using h, rfl⟩
    rcases hs with hs | hs <;> simp [hs, bareSt]
  | cons c u ih =>
    intro hp p acc n tail hs h
    have hc := hp c (by simp)
    have h' : PR p acc ((u.length + n) + 1) := by
      have : (c :: u).length + n = (u.length + n) + 1 := by simp; omega
      rwa [this] at h
    have key : ∃ p1, step p c = some (.ok p1) ∧ p1.st = (if p.st = .preStartSpace ∧ blank c then .preStartSpace else .noQuote) ∧ PR p1 (acc ++ [c]) (u.length + n) ∧
        p1.out = p.out := by
      rcases hs with hs | hs
      · by_cases hb : blank c
        · obtain ⟨p1, a, b, e, d⟩ := put_ok h' c .preStartSpace
          exact ⟨p1, by simp [step, hs, hc.2, hb, a], by simp [e, hs, hb], b, d⟩
        · obtain ⟨p1, a, b, e, d⟩ := put_ok h' c .noQuote
          exact ⟨p1, by simp [step, hs, hc.1, hc.2, hb, a], by simp [e, hs, hb], b, d⟩
      · obtain ⟨p1, a, b, e, d⟩ := put_ok h' c .noQuote
        exact ⟨p1, by simp [step, hs, hc.1, hc.2, a], by simp [e, hs], b, d⟩
    obtain ⟨p1, k1, k2, k3, k4⟩ := key
    obtain ⟨p2, l1, l2, l3, l4⟩ := ih (fun x hx => hp x (by simp [hx])) tail (by rw [k2]; split <;> simp) k3
    refine ⟨p2, by simp [loop, k1, l1], ?_, by simpa using l3, by rw [l4, k4]⟩
    rw [l2, k2]
    by_cases hb : blank c <;> by_cases hs' : p.st = .preStartSpace <;> simp [hb, hs', bareSt]

theorem loop_bare (u : List UInt8) (hne : u ≠ []) (hu : Bare u) {p : P} {n : Nat} (tail : List UInt8) (h : Ready p (u.length + n)) :
    ∃ p', loop p (u ++ tail) = loop p' tail ∧ p'.st = bareSt u ∧ PR p' u n ∧ p'.out = p.out := by
  match u, hne with
  | c :: u, _ =>
    have hc := hu c (by simp)
    have hr : Room p ((u.length + n) + 1) := h.1.mono (by simp; omega)
    have key : ∃ p1, step p c = some (.ok p1) ∧ p1.st = (if blank c then .preStartSpace else .noQuote) ∧ PR p1 [c] (u.length + n) ∧ p1.out = p.out := by
      rcases h.2 with ⟨hs, hsn⟩ | hs
      · have he : p = ⟨p.mem, some 0, .newLine, p.out⟩ := by cases p; simp_all
        by_cases hb : blank c
        · obtain ⟨p1, a, b, e, d⟩ := put0_ok hr c .preStartSpace .newLine
          rw [← he] at a
          exact ⟨p1, by simp [step, hs, hc.2, hb, a], by simp [e, hb], b, d⟩
        · obtain ⟨p1, a, b, e, d⟩ := put0_ok hr c .noQuote .newLine
          rw [← he] at a
          exact ⟨p1, by simp [step, hs, hc.1, hc.2, hb, a], by simp [e, hb], b, d⟩
      · by_cases hb : blank c
        · obtain ⟨p1, a, b, e, d⟩ := put0_ok hr c .preStartSpace .separator
          exact ⟨p1, by simp only [step, hs]; simp [hc.2, hb, a], by simp [e, hb], b, d⟩
        · obtain ⟨p1, a, b, e, d⟩ := put0_ok hr c .noQuote .separator
          exact ⟨p1, by simp only [step, hs]; simp [hc.1, hc.2, hb, a], by simp [e, hb], b, d⟩
    obtain ⟨p1, k1, k2, k3, k4⟩ := key
    obtain ⟨p2, l1, l2, l3, l4⟩ := loop_plain_st u (fun x hx => hu x (by simp [hx])) tail (by rw [k2]; split <;> simp) k3
    refine ⟨p2, by simp [loop, k1, l1], ?_, by simpa using l3, by rw [l4, k4]⟩
    rw [l2, k2]
    by_cases hb : blank c <;> simp [hb, bareSt]

theorem bareSt_cases (u : List UInt8) : bareSt u = .preStartSpace ∨ bareSt u = .noQuote := by
  unfold bareSt; split <;> simp

theorem bareSt_blanks {u : List UInt8} (h : Blanks u) : bareSt u = .preStartSpace := by
  unfold bareSt
  rw [if_pos]
  simp only [List.all_eq_true, blank_iff]
  exact h

theorem bareSt_other {u : List UInt8} (h : ∃ c ∈ u, ¬ Blank c) : bareSt u = .noQuote := by
  unfold bareSt
  rw [if_neg]
  obtain ⟨c, h1, h2⟩ := h
  simp only [List.all_eq_true, blank_iff]
  exact fun hx => h2 (hx c h1)

theorem bare_of_blanks {u : List UInt8} (h : Blanks u) : Bare u := by
  intro c hc
  rcases h c hc with rfl | rfl | rfl | rfl <;> decide

/-- The opening quote. -/
theorem loop_open (lead : List UInt8) (hl : Blanks lead) {p : P} {n : Nat} (tail : List UInt8) (h : Ready p (lead.length + 1 + n)) :
    ∃ p', loop p (lead ++ 34 :: tail) = loop p' tail ∧ p'.st = .leadingQuote ∧ Room p' (n + 1) ∧ p'.out = p.out := by
  by_cases hne : lead = []
  · subst hne
    obtain ⟨rest, a1, a2⟩ := reset_ok h.1
    have hroom := h.1
    refine ⟨{ p with mem := some 0 :: rest, sn := none, st := .leadingQuote }, ?_, rfl, by unfold Room at *; simp at hroom ⊢; omega, rfl⟩
    rcases h.2 with ⟨hs, _⟩ | hs <;> simp [loop, step, hs, blank, a1]
  · obtain ⟨p1, k1, k2, k3, k4⟩ := loop_bare lead hne (bare_of_blanks hl) (p := p) (n := n + 1) (34 :: tail) (h.mono (by omega))
    rw [bareSt_blanks hl] at k2
    have hroom := k3.room
    obtain ⟨rest, a1, a2⟩ := reset_ok hroom
    have hpos : 0 < lead.length := List.length_pos_of_ne_nil hne
    refine ⟨{ p1 with mem := some 0 :: rest, sn := none, st := .leadingQuote }, ?_, rfl, by unfold Room at *; simp; omega, k4⟩
    rw [k1]
    simp [loop, step, k2, blank, a1]

/-- A quoted value up to its closing quote. -/
theorem loop_value (lead f : List UInt8) (hl : Blanks lead) {p : P} {n : Nat} (tail : List UInt8) (h : Ready p (lead.length + (doubled f).length + 2 + n)) :
    ∃ p', loop p (lead ++ 34 :: (doubled f ++ 34 :: tail)) = loop p' tail ∧ p'.st = .internalQuote ∧ PR p' f n ∧ p'.out = p.out := by
  obtain ⟨p1, a1, a2, a3, a4⟩ := loop_open lead hl (p := p) (n := (doubled f).length + 1 + n) (doubled f ++ 34 :: tail) (h.mono (by omega))
  obtain ⟨p2, b1, b2, b3⟩ := loop_quoted f (p := p1) (acc := []) (n := n + 1) (34 :: tail) (Or.inl ⟨a2, rfl, by rw [← doubled_eq]; exact a3.mono (by omega)⟩)
  rw [← doubled_eq] at b1
  have key : ∃ p3, step p2 34 = some (.ok p3) ∧ p3.st = .internalQuote ∧ PR p3 f n ∧ p3.out = p2.out := by
    rcases b2 with ⟨hs, ha, hr⟩ | ⟨hs, hr⟩
    · have hf : f = [] := by simpa using ha
      exact ⟨{ p2 with sn := some 0, st := .internalQuote }, by simp [step, hs], rfl, ⟨by simp [hf], p2.mem, by simp [hf], by unfold Room at hr; omega⟩, rfl⟩
    · obtain ⟨rest, hm, hl⟩ := hr.mem
      exact ⟨{ p2 with st := .internalQuote }, by simp [step, hs], rfl, ⟨by simpa using hr.sn, rest, by simpa using hm, by omega⟩, rfl⟩
  obtain ⟨p3, c1, c2, c3, c4⟩ := key
  exact ⟨p3, by rw [a1, b1]; simp [loop, c1], c2, c3, by rw [c4, b3, a4]⟩

/-- Behind a closing quote and blanks. -/
def Closed (p : P) (f trail : List UInt8) (n : Nat) : Prop :=
  (trail = [] ∧ p.st = .internalQuote ∧ PR p f n) ∨ (trail.length = 1 ∧ p.st = .spaceAfterQuote ∧ PR p f n) ∨
  (2 ≤ trail.length ∧ p.st = .spaceAfterQuote ∧ p.sn = none ∧ ∃ rest, p.mem = f.map some ++ some 0 :: rest ∧ n ≤ rest.length)

theorem loop_blanks_after (f : List UInt8) : ∀ (trail : List UInt8), Blanks trail → ∀ {p : P} {n : Nat} (tail : List UInt8), p.st = .spaceAfterQuote → p.sn = none →
    ∀ rest, p.mem = f.map some ++ some 0 :: rest → n ≤ rest.length → loop p (trail ++ tail) = loop p tail := by
  intro trail
  induction trail with
  | nil => intro _ p n tail _ _ rest _ _; rfl
  | cons b trail ih =>
    intro hb p n tail hs hn rest hm hr
    have hb1 : blank b = true := (blank_iff b).2 (hb b (by simp))
    have hne : b ≠ 44 := by
      rcases hb b (by simp) with rfl | rfl | rfl | rfl <;> decide
    have e : step p b = some (.ok p) := by simp [step, hs, hne, hb1, hn]
    simp only [List.cons_append, loop, e, Option.bind_eq_bind, Option.bind_some]
    exact ih (fun c hc => hb c (by simp [hc])) tail hs hn rest hm hr

theorem loop_field (lead f trail : List UInt8) (hl : Blanks lead) (ht : Blanks trail) {p : P} {n : Nat} (tail : List UInt8)
    (h : Ready p ((quoted lead f trail).length + n)) :
    ∃ p', loop p (quoted lead f trail ++ tail) = loop p' tail ∧ Closed p' f trail n ∧ p'.out = p.out := by
  have hlen : (quoted lead f trail).length = lead.length + (doubled f).length + 2 + trail.length := by simp [quoted]; omega
  obtain ⟨p1, a1, a2, a3, a4⟩ := loop_value lead f hl (p := p) (n := trail.length + n) (trail ++ tail) (h.mono (by omega))
  have e : quoted lead f trail ++ tail = lead ++ 34 :: (doubled f ++ 34 :: (trail ++ tail)) := by simp [quoted]
  rw [e, a1]
  have hb44 : ∀ c, Blank c → c ≠ 44 := by
    intro c hc
    rcases hc with rfl | rfl | rfl | rfl <;> decide
  match trail, ht with
  | [], _ => exact ⟨p1, rfl, .inl ⟨rfl, a2, by simpa using a3⟩, a4⟩
  | [b], ht =>
    have hb := ht b (by simp)
    have hb1 : blank b = true := (blank_iff b).2 hb
    refine ⟨{ p1 with st := .spaceAfterQuote }, ?_, .inr (.inl ⟨rfl, rfl, ?_⟩), a4⟩
    · simp [loop, step, a2, hb44 b hb, hb1]
    · obtain ⟨rest, hm, hr⟩ := a3.mem
      exact ⟨a3.sn, rest, hm, by simp at hr; omega⟩
  | b :: c :: trail, ht =>
    have hb := ht b (by simp)
    have hb1 : blank b = true := (blank_iff b).2 hb
    have hc := ht c (by simp)
    have hc1 : blank c = true := (blank_iff c).2 hc
    obtain ⟨rest, hm, hr⟩ := a3.mem
    match rest, hr with
    | r :: rest, hr =>
      have hw := Buffer.write_at (xs := f) (rest := r :: rest) (by simp) 0
      rw [← hm] at hw
      refine ⟨⟨f.map some ++ some 0 :: rest, none, .spaceAfterQuote, p1.out⟩, ?_, .inr (.inr ⟨by simp, rfl, rfl, rest, rfl, by simp at hr; omega⟩), a4⟩
      rw [← loop_blanks_after f trail (fun d hd => ht d (by simp [hd])) (n := 0) tail (p := ⟨f.map some ++ some 0 :: rest, none, .spaceAfterQuote, p1.out⟩)
        rfl rfl rest rfl (Nat.zero_le _)]
      simp [loop, step, a2, hb44 b hb, hb1, hb44 c hc, hc1, a3.sn, hw]

theorem closed_sep {p : P} {f trail : List UInt8} {n : Nat} (h : Closed p f trail (n + 1)) (ht : trail.length ≠ 1) (h0 : 0 ∉ f) (tail : List UInt8) :
    ∃ p', loop p (44 :: tail) = loop p' tail ∧ At p' (some f) n ∧ p'.out = p.out ++ [f] := by
  rcases h with ⟨_, hs, hr⟩ | ⟨h1, _⟩ | ⟨_, hs, hn, rest, hm, hl⟩
  · obtain ⟨rest, b1, b2⟩ := finish_ok hr h0 .separator
    exact ⟨⟨f.map some ++ some 0 :: rest, none, .separator, p.out ++ [f]⟩, by simp [loop, step, hs, b1],
      ⟨by unfold Room; simp; omega, .inr ⟨rfl, rfl, h0, rest, rfl⟩⟩, rfl⟩
  · exact absurd h1 ht
  · exact ⟨⟨p.mem, none, .separator, p.out ++ [f]⟩, by simp [loop, step, hs, hm, str_ok f rest h0],
      ⟨by unfold Room; simp [hm]; omega, .inr ⟨rfl, rfl, h0, rest, hm⟩⟩, rfl⟩

theorem bare_sep (u : List UInt8) (hu : Bare u) (h0 : 0 ∉ u) {p : P} {n : Nat} (tail : List UInt8) (h : Ready p (u.length + 1 + n)) :
    ∃ p', loop p (u ++ 44 :: tail) = loop p' tail ∧ At p' none n ∧ p'.out = p.out ++ [u] := by
  by_cases hne : u = []
  · subst hne
    obtain ⟨rest, b1, b2⟩ := reset_ok h.1
    obtain ⟨rest', d1, d2⟩ := reset_st h.1
    have hroom := h.1
    rcases h.2 with ⟨hs, hsn⟩ | hs
    · refine ⟨⟨some 0 :: rest', none, .separator, p.out ++ [[]]⟩, by simp [loop, step, hs, hsn, d1], ⟨by unfold Room at *; simp at hroom ⊢; omega, .inr ⟨rfl, rfl, by simp, rest', by simp⟩⟩, rfl⟩
    · exact ⟨⟨some 0 :: rest, none, .separator, p.out ++ [[]]⟩, by simp [loop, step, hs, b1, CMem.str], ⟨by unfold Room at *; simp at hroom ⊢; omega, .inr ⟨rfl, rfl, by simp, rest, by simp⟩⟩, rfl⟩
  · obtain ⟨p1, a1, a2, a3, a4⟩ := loop_bare u hne hu (p := p) (n := n + 1) (44 :: tail) (h.mono (by omega))
    obtain ⟨rest, b1, b2⟩ := finish_ok a3 h0 .separator
    obtain ⟨rest2, c1, c2⟩ := reset_ok (p := ⟨u.map some ++ some 0 :: rest, none, .separator, p1.out ++ [u]⟩) (n := n) (by unfold Room; simp; omega)
    refine ⟨⟨some 0 :: rest2, none, .separator, p1.out ++ [u]⟩, ?_, ⟨by unfold Room; simp at c2 ⊢; omega, .inr ⟨rfl, rfl, by simp, rest2, by simp⟩⟩, by simp [a4]⟩
    rw [a1]
    rcases bareSt_cases u with e | e <;> rw [e] at a2 <;> simp [loop, step, a2, b1, c1]

/-- The loop ends and the record is complete. -/
def Gives (p : P) (s : List UInt8) (fs : List (List UInt8)) : Prop := ∃ p', loop p s = some (.ok p') ∧ endOf p' = some (.ok (p.out ++ fs))

theorem suffix_iff (u : List UInt8) : (u.length > 1 ∧ u[u.length - 2]? = some 13 ∧ u[u.length - 1]? = some 10) ↔ [13, 10] <:+ u := by
  constructor
  · intro ⟨h1, h2, h3⟩
    refine ⟨u.take (u.length - 2), ?_⟩
    obtain ⟨l2, e2⟩ := List.getElem?_eq_some_iff.1 h2
    obtain ⟨l3, e3⟩ := List.getElem?_eq_some_iff.1 h3
    have hd : u.drop (u.length - 2) = [13, 10] := by
      rw [List.drop_eq_getElem_cons l2, e2, show u.length - 2 + 1 = u.length - 1 by omega, List.drop_eq_getElem_cons l3, e3]
      simp; omega
    rw [← hd, List.take_append_drop]
  · rintro ⟨w, rfl⟩
    simp

theorem mem_of_suffix_take (u : List UInt8) : 0 ∉ u → 0 ∉ withoutCrlf u := by
  intro h hm
  unfold withoutCrlf at hm
  split at hm
  · exact h (List.mem_of_mem_take hm)
  · exact h hm

theorem end_bare {p : P} {u : List UInt8} (hst : p.st = .preStartSpace ∨ p.st = .noQuote) (hr : PR p u 0) (h0 : 0 ∉ u) :
    endOf p = some (.ok (p.out ++ [withoutCrlf u])) := by
  obtain ⟨rest, hm, hl⟩ := hr.mem
  match rest, hl with
  | r :: rest, hl =>
    have hw := Buffer.write_at (xs := u) (rest := r :: rest) (by simp) 0
    rw [← hm] at hw
    have hst' : p.st = .noQuote ∨ p.st = .preStartSpace := hst.symm
    have hst1 : p.st ≠ .leadingQuote ∧ p.st ≠ .withQuote := by rcases hst with h | h <;> rw [h] <;> simp
    simp only [endOf, hst1, ne_eq, not_false_iff, and_self, if_true, hr.sn, hw, Option.bind_eq_bind, Option.bind_some, hst']
    rw [List.drop_succ_cons, List.drop_zero, str_ok _ rest h0]
    simp only [Option.bind_some, suffix_iff]
    unfold withoutCrlf
    by_cases hc : [13, 10] <:+ u
    · rw [if_pos hc, if_pos hc]
      obtain ⟨w, rfl⟩ := hc
      have h0w : 0 ∉ w := fun hx => h0 (by simp [hx])
      have hw2 : CMem.write ((w ++ [13, 10]).map some ++ some 0 :: rest) w.length (some 0) = some (w.map some ++ some 0 :: (some 10 :: some 0 :: rest)) := by
        have := Buffer.write_at (xs := w) (rest := some 13 :: some 10 :: some 0 :: rest) (by simp) 0
        simpa using this
      obtain ⟨m0, hw0⟩ : ∃ m, CMem.write (w.map some ++ some 0 :: (some 10 :: some 0 :: rest)) 0 (some 0) = some m := ⟨_, CMem.write_eq (by simp; omega)⟩
      rw [show (w ++ [(13 : UInt8), 10]).length - 2 = w.length by simp, hw2]
      simp only [Option.bind_some]
      rw [str_ok _ _ h0w]
      simp [hw0]
    · rw [if_neg hc, if_neg hc]
      obtain ⟨m0, hw0⟩ : ∃ m, CMem.write (u.map some ++ some 0 :: rest) 0 (some 0) = some m := ⟨_, CMem.write_eq (by simp; omega)⟩
      simp [str_ok _ rest h0, hw0]

theorem end_closed {p : P} {f trail : List UInt8} (h : Closed p f trail 0) (h0 : 0 ∉ f) : endOf p = some (.ok (p.out ++ [f])) := by
  rcases h with ⟨_, hs, hr⟩ | ⟨_, hs, hr⟩ | ⟨_, hs, hn, rest, hm, _⟩
  · obtain ⟨rest, hm, hl⟩ := hr.mem
    match rest, hl with
    | r :: rest, hl =>
      have hw := Buffer.write_at (xs := f) (rest := r :: rest) (by simp) 0
      rw [← hm] at hw
      obtain ⟨m0, hw0⟩ : ∃ m, CMem.write (f.map some ++ some 0 :: rest) 0 (some 0) = some m := ⟨_, CMem.write_eq (by simp; omega)⟩
      simp [endOf, hs, hr.sn, hw, str_ok f rest h0, hw0]
  · obtain ⟨rest, hm, hl⟩ := hr.mem
    match rest, hl with
    | r :: rest, hl =>
      have hw := Buffer.write_at (xs := f) (rest := r :: rest) (by simp) 0
      rw [← hm] at hw
      obtain ⟨m0, hw0⟩ : ∃ m, CMem.write (f.map some ++ some 0 :: rest) 0 (some 0) = some m := ⟨_, CMem.write_eq (by simp; omega)⟩
      simp [endOf, hs, hr.sn, hw, str_ok f rest h0, hw0]
  · obtain ⟨m0, hw0⟩ : ∃ m, CMem.write (f.map some ++ some 0 :: rest) 0 (some 0) = some m := ⟨_, CMem.write_eq (by simp; omega)⟩
    simp [endOf, hs, hn, hm, str_ok f rest h0, hw0]

/-- In the error state, with an empty value and a cursor inside the block. -/
def Err0 (p : P) : Prop := p.st = .error ∧ (∃ rest, p.mem = some 0 :: rest) ∧ ∀ i, p.sn = some i → i < p.mem.length ∧ i ≠ 0

theorem end_error {p : P} (h : Err0 p) : endOf p = some (.ok (p.out ++ [[]])) := by
  obtain ⟨hs, ⟨rest, hm⟩, hi⟩ := h
  cases hn : p.sn with
  | none => simp [endOf, hs, hn, hm, CMem.str, CMem.write]
  | some i =>
    obtain ⟨h1, h2⟩ := hi i hn
    have hw := CMem.write_eq (v := some (0 : UInt8)) h1
    have hset : p.mem.set i (some 0) = some 0 :: rest.set (i - 1) (some 0) := by
      rw [hm]
      cases i with
      | zero => exact absurd rfl h2
      | succ i => simp
    simp only [endOf, hs, hn, hw, hset]
    simp [CMem.str, CMem.write]

theorem error_more {p : P} (h : p.st = .error) (d : UInt8) (s : List UInt8) : loop p (d :: s) = some (.error .malformed) := by
  simp [loop, step, h]

theorem stray_quote {p : P} {u : List UInt8} {n : Nat} (hs : p.st = .noQuote) (hr : PR p u n) (tail : List UInt8) :
    ∃ p', loop p (34 :: tail) = loop p' tail ∧ Err0 p' ∧ p'.out = p.out := by
  obtain ⟨rest, a1, a2⟩ := reset_ok hr.room
  exact ⟨{ p with mem := some 0 :: rest, sn := none, st := .error }, by simp [loop, step, hs, a1], ⟨rfl, ⟨rest, rfl⟩, by simp⟩, rfl⟩

theorem stray_byte {p : P} {f trail : List UInt8} {n : Nat} (h : Closed p f trail (n + 1)) (c : UInt8) (hb : ¬ Blank c) (hc : c ≠ 44) (hq : trail = [] → c ≠ 34)
    (tail : List UInt8) : ∃ p', loop p (c :: tail) = loop p' tail ∧ Err0 p' ∧ p'.out = p.out := by
  have hb' : ¬ blank c = true := fun h => hb ((blank_iff c).1 h)
  rcases h with ⟨ht, hs, hr⟩ | ⟨_, hs, hr⟩ | ⟨_, hs, hn, rest, hm, _⟩
  · obtain ⟨rest, a1, a2⟩ := reset_ok hr.room
    have hroom := hr.room
    refine ⟨{ p with mem := some 0 :: rest, sn := some (f.length + 1), st := .error }, by simp [loop, step, hs, hb', hc, hq ht, a1, hr.sn], ⟨rfl, ⟨rest, rfl⟩, ?_⟩, rfl⟩
    intro i hi
    simp only [Option.some.injEq] at hi
    subst hi
    unfold Room at hroom
    simp
    omega
  · obtain ⟨rest, a1, a2⟩ := reset_ok hr.room
    exact ⟨{ p with mem := some 0 :: rest, sn := none, st := .error }, by simp [loop, step, hs, hb', hc, a1], ⟨rfl, ⟨rest, rfl⟩, by simp⟩, rfl⟩
  · have hroom : Room p 0 := by unfold Room; simp [hm]; omega
    obtain ⟨rest, a1, a2⟩ := reset_ok hroom
    exact ⟨{ p with mem := some 0 :: rest, sn := none, st := .error }, by simp [loop, step, hs, hb', hc, a1], ⟨rfl, ⟨rest, rfl⟩, by simp⟩, rfl⟩

theorem zero_of_quoted {lead f trail : List UInt8} (h : 0 ∉ quoted lead f trail) : 0 ∉ f :=
  fun hm => h (by simp [quoted, mem_doubled hm])

theorem last_ok {prev : Option (List UInt8)} {t v : List UInt8} (h : Last prev t v) (h0 : 0 ∉ t) {p : P} (ha : At p prev t.length) : Gives p t [v] := by
  cases h with
  | bare u hu hne =>
    by_cases he : t = []
    · subst he
      have hp : prev = none := hne.resolve_left (fun h => h rfl)
      subst hp
      refine ⟨p, rfl, ?_⟩
      have hv : withoutCrlf [] = [] := by unfold withoutCrlf; split <;> rfl
      rw [hv]
      obtain ⟨rest, d1, d2⟩ := reset_st ha.1
      rcases ha.2 with ⟨hs, hsn, _⟩ | ⟨hs, hsn, _, rest, hm⟩
      · simp only [endOf, hs, hsn, d1]
        simp [CMem.str, CMem.write]
      · simp at hm
        simp [endOf, hs, hsn, hm, CMem.str, CMem.write]
    · obtain ⟨p1, a1, a2, a3, a4⟩ := loop_bare t he hu (p := p) (n := 0) [] (ha.ready.mono (by simp))
      rw [List.append_nil] at a1
      refine ⟨p1, by rw [a1]; rfl, ?_⟩
      rw [end_bare (by rw [a2]; exact bareSt_cases t) a3 h0, a4]
  | quoted lead f trail hl ht =>
    obtain ⟨p1, a1, a2, a3⟩ := loop_field lead v trail hl ht (p := p) (n := 0) [] (ha.ready.mono (by simp))
    rw [List.append_nil] at a1
    exact ⟨p1, by rw [a1]; rfl, by rw [end_closed a2 (zero_of_quoted h0), a3]⟩
  | repeated f hp =>
    subst hp
    refine ⟨p, rfl, ?_⟩
    rcases ha.2 with ⟨_, _, h⟩ | ⟨hs, hsn, h0, rest, hm⟩
    · simp at h
    · simp only [Option.getD_some] at h0 hm
      obtain ⟨m0, hw0⟩ : ∃ m, CMem.write (v.map some ++ some 0 :: rest) 0 (some 0) = some m := ⟨_, CMem.write_eq (by simp; omega)⟩
      simp [endOf, hs, hsn, hm, str_ok v rest h0, hw0]
  | strayQuote u hu hx =>
    obtain ⟨p1, a1, a2, a3, a4⟩ := loop_bare u (by rintro rfl; simp at hx) hu (p := p) (n := 1) [34] (ha.ready.mono (by simp))
    rw [bareSt_other hx] at a2
    obtain ⟨p2, b1, b2, b3⟩ := stray_quote a2 a3 []
    exact ⟨p2, by rw [a1, b1]; rfl, by rw [end_error b2, b3, a4]⟩
  | strayByte lead f trail c hl ht hb hc hq =>
    obtain ⟨p1, a1, a2, a3⟩ := loop_field lead f trail hl ht (p := p) (n := 1) [c] (ha.ready.mono (by simp))
    obtain ⟨p2, b1, b2, b3⟩ := stray_byte a2 c hb hc hq []
    exact ⟨p2, by rw [a1, b1]; rfl, by rw [end_error b2, b3, a3]⟩

theorem reads_ok {prev : Option (List UInt8)} {s : List UInt8} {fs : List (List UInt8)} (h : Reads prev s fs) (h0 : 0 ∉ s) {p : P} (ha : At p prev s.length) : Gives p s fs := by
  induction h generalizing p with
  | last prev t v hl => exact last_ok hl h0 ha
  | bare prev u rest fs hu _ ih =>
    simp only [List.mem_append, List.mem_cons, not_or] at h0
    obtain ⟨p1, a1, a2, a3⟩ := bare_sep u hu h0.1 (p := p) (n := rest.length) rest (ha.ready.mono (by simp; omega))
    obtain ⟨p2, b1, b2⟩ := ih h0.2.2 a2
    exact ⟨p2, by rw [a1, b1], by rw [b2, a3]; simp⟩
  | quoted prev lead f trail rest fs hl ht h1 _ ih =>
    simp only [List.mem_append, List.mem_cons, not_or] at h0
    obtain ⟨p1, a1, a2, a3⟩ := loop_field lead f trail hl ht (p := p) (n := rest.length + 1) (44 :: rest) (ha.ready.mono (by simp))
    obtain ⟨p2, b1, b2, b3⟩ := closed_sep a2 h1 (zero_of_quoted h0.1) rest
    obtain ⟨p3, c1, c2⟩ := ih h0.2.2 b2
    exact ⟨p3, by rw [a1, b1, c1], by rw [c2, b3, a3]; simp⟩

/-- The text is refused. -/
def Rejects (p : P) (s : List UInt8) : Prop := (∃ e, loop p s = some (.error e)) ∨ ∃ p' e, loop p s = some (.ok p') ∧ endOf p' = some (.error e)

theorem rejects_of_eq {p p' : P} {s s' : List UInt8} (e : loop p s = loop p' s') (h : Rejects p' s') : Rejects p s := by
  unfold Rejects at *
  rw [e]; exact h

theorem refused_ok {s : List UInt8} (h : Refused s) (h0 : 0 ∉ s) {p : P} {prev : Option (List UInt8)} (ha : At p prev s.length) : Rejects p s := by
  induction h generalizing p prev with
  | unclosed lead f hl =>
    obtain ⟨p1, a1, a2, a3, a4⟩ := loop_open lead hl (p := p) (n := (doubled f).length) (doubled f) (ha.ready.mono (by simp; omega))
    obtain ⟨p2, b1, b2, b3⟩ := loop_quoted f (p := p1) (acc := []) (n := 0) [] (Or.inl ⟨a2, rfl, by rw [← doubled_eq]; exact a3.mono (by omega)⟩)
    rw [← doubled_eq, List.append_nil] at b1
    refine .inr ⟨p2, .unexpectedEnd, by rw [a1, b1]; rfl, ?_⟩
    rcases b2 with ⟨hs, _⟩ | ⟨hs, _⟩ <;> simp [endOf, hs]
  | strayQuote u d rest hu hx =>
    obtain ⟨p1, a1, a2, a3, a4⟩ := loop_bare u (by rintro rfl; simp at hx) hu (p := p) (n := rest.length + 2) (34 :: d :: rest) (ha.ready.mono (by simp))
    rw [bareSt_other hx] at a2
    obtain ⟨p2, b1, b2, b3⟩ := stray_quote a2 a3 (d :: rest)
    exact .inl ⟨_, by rw [a1, b1, error_more b2.1]⟩
  | strayByte lead f trail c d rest hl ht hb hc hq =>
    obtain ⟨p1, a1, a2, a3⟩ := loop_field lead f trail hl ht (p := p) (n := rest.length + 1 + 1) (c :: d :: rest) (ha.ready.mono (by simp))
    obtain ⟨p2, b1, b2, b3⟩ := stray_byte a2 c hb hc hq (d :: rest)
    exact .inl ⟨_, by rw [a1, b1, error_more b2.1]⟩
  | bare u rest hu _ ih =>
    simp only [List.mem_append, List.mem_cons, not_or] at h0
    obtain ⟨p1, a1, a2, a3⟩ := bare_sep u hu h0.1 (p := p) (n := rest.length) rest (ha.ready.mono (by simp; omega))
    exact rejects_of_eq a1 (ih h0.2.2 a2)
  | quoted lead f trail rest hl ht h1 _ ih =>
    simp only [List.mem_append, List.mem_cons, not_or] at h0
    obtain ⟨p1, a1, a2, a3⟩ := loop_field lead f trail hl ht (p := p) (n := rest.length + 1) (44 :: rest) (ha.ready.mono (by simp))
    obtain ⟨p2, b1, b2, b3⟩ := closed_sep a2 h1 (zero_of_quoted h0.1) rest
    exact rejects_of_eq (by rw [a1, b1]) (ih h0.2.2 b2)

theorem init_at (n : Nat) : ∃ m, CMem.write (List.replicate (n + 1) (none : Option UInt8)) 0 (some 0) = some m ∧ At ⟨m, some 0, .newLine, []⟩ none n := by
  refine ⟨_, CMem.write_eq (by simp), ?_, Or.inl ⟨rfl, rfl, rfl⟩⟩
  simp [Room]

theorem parse_reads {s : List UInt8} {fs : List (List UInt8)} (h : Reads none s fs) (h0 : 0 ∉ s) : parse s = some (some fs) := by
  obtain ⟨m, e, ha⟩ := init_at s.length
  obtain ⟨p, b1, b2⟩ := reads_ok h h0 ha
  simp [parse, launch, e, b1, b2]

theorem parse_refused {s : List UInt8} (h : Refused s) (h0 : 0 ∉ s) : parse s = some none := by
  obtain ⟨m, e, ha⟩ := init_at s.length
  rcases refused_ok h h0 ha with ⟨x, b⟩ | ⟨p, x, b1, b2⟩
  · simp [parse, launch, e, b]
  · simp [parse, launch, e, b1, b2]

theorem split_bare (s : List UInt8) : ∃ u rest, s = u ++ rest ∧ Bare u ∧ (rest = [] ∨ (∃ r, rest = 34 :: r) ∨ ∃ r, rest = 44 :: r) := by
  induction s with
  | nil => exact ⟨[], [], rfl, by simp [Bare], .inl rfl⟩
  | cons c s ih =>
    by_cases h1 : c = 34
    · exact ⟨[], c :: s, rfl, by simp [Bare], .inr (.inl ⟨s, by rw [h1]⟩)⟩
    · by_cases h2 : c = 44
      · exact ⟨[], c :: s, rfl, by simp [Bare], .inr (.inr ⟨s, by rw [h2]⟩)⟩
      · obtain ⟨u, rest, e, hu, hr⟩ := ih
        refine ⟨c :: u, rest, by rw [e]; rfl, ?_, hr⟩
        intro d hd
        rcases List.mem_cons.1 hd with rfl | hd
        · exact ⟨h1, h2⟩
        · exact hu d hd

theorem split_blanks (s : List UInt8) : ∃ u rest, s = u ++ rest ∧ Blanks u ∧ (rest = [] ∨ ∃ c r, rest = c :: r ∧ ¬ Blank c) := by
  induction s with
  | nil => exact ⟨[], [], rfl, by simp [Blanks], .inl rfl⟩
  | cons c s ih =>
    by_cases h1 : Blank c
    · obtain ⟨u, rest, e, hu, hr⟩ := ih
      refine ⟨c :: u, rest, by rw [e]; rfl, ?_, hr⟩
      intro d hd
      rcases List.mem_cons.1 hd with rfl | hd
      · exact h1
      · exact hu d hd
    · exact ⟨[], c :: s, rfl, by simp [Blanks], .inr ⟨c, s, rfl, h1⟩⟩

theorem split_value : ∀ (n : Nat) (s : List UInt8), s.length ≤ n → (∃ f, s = doubled f) ∨ ∃ f tail, s = doubled f ++ 34 :: tail ∧ tail.head? ≠ some 34 := by
  intro n
  induction n with
  | zero =>
    intro s hs
    have : s = [] := List.length_eq_zero_iff.1 (by omega)
    exact .inl ⟨[], by simp [this, doubled]⟩
  | succ n ih =>
    intro s hs
    match s, hs with
    | [], _ => exact .inl ⟨[], rfl⟩
    | c :: s, hs =>
      by_cases hc : c = 34
      · subst hc
        match s, hs with
        | [], _ => exact .inr ⟨[], [], rfl, by simp⟩
        | d :: s, hs =>
          by_cases hd : d = 34
          · subst hd
            rcases ih s (by simp at hs; omega) with ⟨f, rfl⟩ | ⟨f, tail, rfl, ht⟩
            · exact .inl ⟨34 :: f, by simp [doubled]⟩
            · exact .inr ⟨34 :: f, tail, by simp [doubled], ht⟩
          · exact .inr ⟨[], d :: s, rfl, by simpa using hd⟩
      · rcases ih s (by simp at hs; omega) with ⟨f, rfl⟩ | ⟨f, tail, rfl, ht⟩
        · exact .inl ⟨c :: f, by simp [doubled, hc]⟩
        · exact .inr ⟨c :: f, tail, by simp [doubled, hc], ht⟩

theorem every_text : ∀ (n : Nat) (s : List UInt8) (prev : Option (List UInt8)), s.length ≤ n → (∃ fs, Reads prev s fs) ∨ Refused s ∨ Unset s := by
  intro n
  induction n with
  | zero =>
    intro s prev hs
    have : s = [] := List.length_eq_zero_iff.1 (by omega)
    subst this
    cases prev with
    | none => exact .inl ⟨_, .last _ _ _ (.bare [] (by simp [Bare]) (.inr rfl))⟩
    | some f => exact .inl ⟨_, .last _ _ _ (.repeated f rfl)⟩
  | succ n ih =>
    intro s prev hs
    obtain ⟨u, rest, rfl, hu, hr⟩ := split_bare s
    rcases hr with rfl | ⟨r, rfl⟩ | ⟨r, rfl⟩
    · rw [List.append_nil]
      by_cases he : u = []
      · subst he
        cases prev with
        | none => exact .inl ⟨_, .last _ _ _ (.bare [] (by simp [Bare]) (.inr rfl))⟩
        | some f => exact .inl ⟨_, .last _ _ _ (.repeated f rfl)⟩
      · exact .inl ⟨_, .last _ _ _ (.bare u hu (.inl he))⟩
    · by_cases hx : ∃ c ∈ u, ¬ Blank c
      · match r with
        | [] => exact .inl ⟨_, .last _ _ _ (.strayQuote u hu hx)⟩
        | d :: r => exact .inr (.inl (.strayQuote u d r hu hx))
      · have hb : Blanks u := fun c hc => Classical.byContradiction fun h => hx ⟨c, hc, h⟩
        rcases split_value r.length r (Nat.le_refl _) with ⟨f, rfl⟩ | ⟨f, tail, rfl, ht⟩
        · exact .inr (.inl (.unclosed u f hb))
        · obtain ⟨trail, rest2, rfl, hbt, hr2⟩ := split_blanks tail
          have e : u ++ 34 :: (doubled f ++ 34 :: (trail ++ rest2)) = quoted u f trail ++ rest2 := by simp [quoted]
          rw [e]
          rcases hr2 with rfl | ⟨c, r2, rfl, hcb⟩
          · rw [List.append_nil]
            exact .inl ⟨_, .last _ _ _ (.quoted u f trail hb hbt)⟩
          · by_cases hc : c = 44
            · subst hc
              by_cases h1 : trail.length = 1
              · obtain ⟨b, rfl⟩ := List.length_eq_one_iff.1 h1
                exact .inr (.inr (.here u f b r2 hb (hbt b (by simp))))
              · have hl : r2.length ≤ n := by simp at hs; omega
                rcases ih r2 (some f) hl with ⟨fs, h⟩ | h | h
                · exact .inl ⟨_, .quoted prev u f trail r2 fs hb hbt h1 h⟩
                · exact .inr (.inl (.quoted u f trail r2 hb hbt h1 h))
                · exact .inr (.inr (.quoted u f trail r2 hb hbt h1 h))
            · have hq : trail = [] → c ≠ 34 := by
                rintro rfl rfl
                simp at ht
              match r2 with
              | [] => exact .inl ⟨_, .last _ _ _ (.strayByte u f trail c hb hbt hcb hc hq)⟩
              | d :: r2 => exact .inr (.inl (.strayByte u f trail c d r2 hb hbt hcb hc hq))
    · have hl : r.length ≤ n := by simp at hs; omega
      rcases ih r none hl with ⟨fs, h⟩ | h | h
      · exact .inl ⟨_, .bare prev u r fs hu h⟩
      · exact .inr (.inl (.bare u r hu h))
      · exact .inr (.inr (.bare u r hu h))

end CsvParser
