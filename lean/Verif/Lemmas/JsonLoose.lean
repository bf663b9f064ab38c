import Verif.Spec.JsonLoose
import Verif.Props.JsonText
/-! # JSON: scalars and strings of the language that the parser accepts -/
open JsonSpec Json

namespace Json

theorem isWs_iff (c : UInt8) : isWs c = true ↔ IsBlank c := by simp [isWs, IsBlank, or_assoc]
theorem isSep_iff (c : UInt8) : isSep c = true ↔ IsBlank c ∨ c = 44 ∨ c = 93 ∨ c = 125 := by
  rw [← isWs_iff]; simp [isSep, or_assoc]
theorem atSep_iff (r : Bytes) : AtSeparator r ↔ Follow r := by
  simp only [AtSeparator, Follow, isSep_iff]
theorem isWord_iff (c : UInt8) : isWord c = true ↔ IsWord c :=
  Str.byte_all (P := fun c => isWord c = true ↔ ((97 ≤ c ∧ c ≤ 122) ∨ (65 ≤ c ∧ c ≤ 90) ∨ (48 ≤ c ∧ c ≤ 57) ∨ c = 95)) (by decide +kernel) c
theorem digit_iff (c : UInt8) : IsDigit c ↔ c = 48 ∨ isDigit19 c = true :=
  Str.byte_all (P := fun c => (48 ≤ c ∧ c ≤ 57) ↔ c = 48 ∨ isDigit19 c = true) (by decide +kernel) c

/-! ## Numbers -/

/-- The variables of the number parser after the text `a`. -/
structure NumInv (n : Num) (a : Bytes) : Prop where
  text : n.text = a
  dot : n.dot = true ↔ 46 ∈ a
  exp : n.exp = true ↔ (101 ∈ a ∨ 69 ∈ a)
  prev : n.prev = a.getLast?.getD 0
  zero : n.zero = true ↔ a.head? = some 48
  ok : ∀ b c d, a = b ++ c :: d → MayFollow b c
  nul : 0 ∉ a

theorem NumInv.prev_nil {n : Num} {a : Bytes} (h : NumInv n a) : n.prev = 0 ↔ a = [] := by
  rw [h.prev]
  cases hl : a.getLast? with
  | none => simp [List.getLast?_eq_none_iff.1 hl]
  | some x =>
    have hx := List.mem_of_getLast? hl
    constructor
    · intro h'; simp at h'; subst h'; exact absurd hx h.nul
    · intro h'; subst h'; cases hx
theorem NumInv.prev_last {n : Num} {a : Bytes} (h : NumInv n a) {c : UInt8} (hc : c ≠ 0) : n.prev = c ↔ ∃ b, a = b ++ [c] := by
  rw [h.prev]
  constructor
  · intro e
    cases hl : a.getLast? with
    | none => rw [hl] at e; exact absurd e.symm hc
    | some x => rw [hl] at e; simp at e; subst e; exact List.getLast?_eq_some_iff.1 hl
  · rintro ⟨b, rfl⟩; simp
theorem NumInv.endsE {n : Num} {a : Bytes} (h : NumInv n a) : (n.prev = 101 ∨ n.prev = 69) ↔ EndsInE a := by
  rw [h.prev_last (by decide), h.prev_last (by decide)]
  constructor
  · rintro (⟨b, e⟩ | ⟨b, e⟩)
    · exact ⟨b, _, e, .inl rfl⟩
    · exact ⟨b, _, e, .inr rfl⟩
  · rintro ⟨b, c, e, rfl | rfl⟩
    · exact .inl ⟨b, e⟩
    · exact .inr ⟨b, e⟩
theorem NumInv.endsDigit {n : Num} {a : Bytes} (h : NumInv n a) : (n.prev = 48 ∨ isDigit19 n.prev = true) ↔ EndsInDigit a := by
  rw [← digit_iff]
  constructor
  · intro hd
    have h0 : n.prev ≠ 0 := by intro e; rw [e] at hd; exact absurd hd (by simp [IsDigit])
    obtain ⟨b, e⟩ := (h.prev_last h0).1 rfl
    exact ⟨b, _, e, hd⟩
  · rintro ⟨b, c, e, hc⟩
    have h0 : c ≠ 0 := by rintro rfl; exact absurd hc (by simp [IsDigit])
    rw [(h.prev_last h0).2 ⟨b, e⟩]; exact hc
theorem NumInv.lone {n : Num} {a : Bytes} (h : NumInv n a) : (n.zero && !n.dot && !n.exp) = true ↔ a = [48] := by
  have hd : n.dot = false ↔ 46 ∉ a := by rw [← h.dot]; simp
  have he : n.exp = false ↔ ¬ (101 ∈ a ∨ 69 ∈ a) := by rw [← h.exp]; simp
  simp only [Bool.and_eq_true, Bool.not_eq_true', hd, he, h.zero]
  constructor
  · rintro ⟨⟨h1, h2⟩, h3⟩
    match a, h1, h with
    | [x], h1, _ => simp at h1; rw [h1]
    | x :: y :: r, h1, h =>
      simp at h1; subst h1
      simp only [List.mem_cons, not_or] at h2 h3
      rcases h.ok [48] y r rfl with g | g | g | g | g
      · exact absurd rfl g.2
      · rcases g.2 with g | ⟨b, c, e, g⟩
        · cases g
        · have := congrArg List.getLast? e; simp at this; subst this; simp at g
      · obtain ⟨b, c, e, g⟩ := g.2
        have := congrArg List.getLast? e; simp at this; subst this; simp at g
      · exact absurd g.1.symm h2.2.1
      · rcases g.1 with g | g
        · exact absurd g.symm h3.1.2.1
        · exact absurd g.symm h3.2.2.1
  · rintro rfl; simp

theorem ok_snoc {a : Bytes} {c : UInt8} (h : ∀ b x d, a = b ++ x :: d → MayFollow b x) (hc : MayFollow a c) : ∀ b x d, a ++ [c] = b ++ x :: d → MayFollow b x := by
  intro b x d e
  rcases List.eq_nil_or_concat d with rfl | ⟨d', y, rfl⟩
  · have := List.append_inj' e rfl
    obtain ⟨rfl, e2⟩ := this; cases e2; exact hc
  · have e' : a ++ [c] = (b ++ x :: d') ++ [y] := by rw [e]; simp
    exact h b x d' (List.append_inj' e' rfl).1

theorem numStep_iff {n : Num} {a : Bytes} (h : NumInv n a) {c : UInt8} (hc : c ≠ 0) :
    (∀ n', numStep n c = .ok n' → MayFollow a c ∧ NumInv n' (a ++ [c])) ∧ (MayFollow a c → ∃ n', numStep n c = .ok n') := by
  have hz := h.zero
  have hdot := h.dot
  have hexp := h.exp
  have hE := h.endsE
  have hD := h.endsDigit
  have hL := h.lone
  have hN := h.prev_nil
  have hhead : ∀ x : UInt8, (a ++ [c]).head? = some x ↔ (if a = [] then c = x else a.head? = some x) := by
    intro x; cases a <;> simp
  have mk : ∀ n' : Num, MayFollow a c → n'.text = n.text ++ [c] → n'.prev = c → (n'.dot = true ↔ n.dot = true ∨ c = 46) → (n'.exp = true ↔ n.exp = true ∨ c = 101 ∨ c = 69) →
      (n'.zero = true ↔ (n.zero = true ∨ (n.prev = 0 ∧ c = 48))) → NumInv n' (a ++ [c]) := by
    intro n' hm h1 h2 h3 h4 h5
    refine ⟨by rw [h1, h.text], by rw [h3, hdot]; simp [eq_comm], ?_, by rw [h2]; simp, ?_, ok_snoc h.ok hm, by simp [h.nul, Ne.symm hc]⟩
    · rw [h4, hexp]; simp only [List.mem_append, List.mem_singleton]
      constructor
      · rintro ((g | g) | g | g)
        · exact .inl (.inl g)
        · exact .inr (.inl g)
        · exact .inl (.inr g.symm)
        · exact .inr (.inr g.symm)
      · rintro ((g | g) | (g | g))
        · exact .inl (.inl g)
        · exact .inr (.inl g.symm)
        · exact .inl (.inr g)
        · exact .inr (.inr g.symm)
    · rw [h5, hhead, hz, hN]
      cases a with
      | nil => simp
      | cons x a => simp
  have nd : ∀ x : UInt8, x ∈ ([45, 43, 46, 101, 69] : List UInt8) → ¬ IsDigit x := by simp [IsDigit]
  rw [numStep]
  simp only
  by_cases c45 : c = 45
  · subst c45
    simp only [if_true]
    by_cases g : n.prev ≠ 0 ∧ n.prev ≠ 101 ∧ n.prev ≠ 69
    · rw [if_pos g]
      refine ⟨(by intro n' h; cases h), ?_⟩
      rintro (⟨g', _⟩ | ⟨_, g' | g'⟩ | ⟨g', _⟩ | ⟨g', _⟩ | ⟨g' | g', _⟩)
      · exact absurd g' (nd _ (by decide))
      · exact absurd (hN.2 g') g.1
      · rcases hE.2 g' with e | e
        · exact absurd e g.2.1
        · exact absurd e g.2.2
      all_goals exact absurd g' (by decide)
    · rw [if_neg g]
      refine ⟨?_, fun _ => ⟨_, rfl⟩⟩
      intro n' e; cases e
      have hm : MayFollow a 45 := by
        refine .inr (.inl ⟨rfl, ?_⟩)
        by_cases h0 : n.prev = 0
        · exact .inl (hN.1 h0)
        · by_cases h1 : n.prev = 101
          · exact .inr (hE.1 (.inl h1))
          · by_cases h2 : n.prev = 69
            · exact .inr (hE.1 (.inr h2))
            · exact absurd ⟨h0, h1, h2⟩ g
      exact ⟨hm, mk _ hm rfl rfl (by simp) (by simp) (by simp)⟩
  rw [if_neg c45]
  by_cases c43 : c = 43
  · subst c43
    simp only [if_true]
    by_cases g : n.prev ≠ 101 ∧ n.prev ≠ 69
    · rw [if_pos g]
      refine ⟨(by intro n' h; cases h), ?_⟩
      rintro (⟨g', _⟩ | ⟨g', _⟩ | ⟨_, g'⟩ | ⟨g', _⟩ | ⟨g' | g', _⟩)
      · exact absurd g' (nd _ (by decide))
      · exact absurd g' (by decide)
      · rcases hE.2 g' with e | e
        · exact absurd e g.1
        · exact absurd e g.2
      all_goals exact absurd g' (by decide)
    · rw [if_neg g]
      refine ⟨?_, fun _ => ⟨_, rfl⟩⟩
      intro n' e; cases e
      have hm : MayFollow a 43 := by
        refine .inr (.inr (.inl ⟨rfl, ?_⟩))
        by_cases h1 : n.prev = 101
        · exact hE.1 (.inl h1)
        · by_cases h2 : n.prev = 69
          · exact hE.1 (.inr h2)
          · exact absurd ⟨h1, h2⟩ g
      exact ⟨hm, mk _ hm rfl rfl (by simp) (by simp) (by simp)⟩
  rw [if_neg c43]
  by_cases c48 : c = 48
  · subst c48
    simp only [if_true]
    by_cases g : (n.zero && !n.dot && !n.exp) = true
    · rw [if_pos g]
      refine ⟨(by intro n' h; cases h), ?_⟩
      rintro (⟨_, g'⟩ | ⟨g', _⟩ | ⟨g', _⟩ | ⟨g', _⟩ | ⟨g' | g', _⟩)
      · exact absurd (hL.1 g) g'
      all_goals exact absurd g' (by decide)
    · rw [if_neg g]
      refine ⟨?_, fun _ => ⟨_, rfl⟩⟩
      intro n' e; cases e
      have hm : MayFollow a 48 := .inl ⟨by simp [IsDigit], fun e => g (hL.2 e)⟩
      refine ⟨hm, ?_⟩
      split
      · exact mk _ hm rfl rfl (by simp) (by simp) (by simp_all)
      · exact mk _ hm rfl rfl (by simp) (by simp) (by simp_all)
  rw [if_neg c48]
  by_cases c46 : c = 46
  · subst c46
    simp only [if_true]
    by_cases g : n.dot = true
    · rw [if_pos g]
      refine ⟨(by intro n' h; cases h), ?_⟩
      rintro (⟨g', _⟩ | ⟨g', _⟩ | ⟨g', _⟩ | ⟨_, g', _⟩ | ⟨g' | g', _⟩)
      · exact absurd g' (nd _ (by decide))
      · exact absurd g' (by decide)
      · exact absurd g' (by decide)
      · exact absurd (hdot.1 g) g'
      all_goals exact absurd g' (by decide)
    rw [if_neg g]
    by_cases g2 : n.prev ≠ 48 ∧ isDigit19 n.prev = false
    · rw [if_pos g2]
      refine ⟨(by intro n' h; cases h), ?_⟩
      rintro (⟨g', _⟩ | ⟨g', _⟩ | ⟨g', _⟩ | ⟨_, _, g'⟩ | ⟨g' | g', _⟩)
      · exact absurd g' (nd _ (by decide))
      · exact absurd g' (by decide)
      · exact absurd g' (by decide)
      · rcases hD.2 g' with e | e
        · exact absurd e g2.1
        · rw [g2.2] at e; cases e
      all_goals exact absurd g' (by decide)
    · rw [if_neg g2]
      refine ⟨?_, fun _ => ⟨_, rfl⟩⟩
      intro n' e; cases e
      have hm : MayFollow a 46 := by
        refine .inr (.inr (.inr (.inl ⟨rfl, fun hm => g (hdot.2 hm), hD.1 ?_⟩)))
        by_cases h1 : n.prev = 48
        · exact .inl h1
        · cases h2 : isDigit19 n.prev with
          | true => exact .inr rfl
          | false => exact absurd ⟨h1, h2⟩ g2
      exact ⟨hm, mk _ hm rfl rfl (by simp) (by simp) (by simp)⟩
  rw [if_neg c46]
  by_cases cE : c = 101 ∨ c = 69
  · rw [if_pos cE]
    by_cases g : n.exp = true
    · rw [if_pos g]
      refine ⟨(by intro n' h; cases h), ?_⟩
      rintro (⟨g', _⟩ | ⟨g', _⟩ | ⟨g', _⟩ | ⟨g', _⟩ | ⟨_, g', g'', _⟩)
      · exact absurd g' (nd _ (by rcases cE with rfl | rfl <;> decide))
      · exact absurd g' c45
      · exact absurd g' c43
      · exact absurd g' c46
      · rcases hexp.1 g with e | e
        · exact absurd e g'
        · exact absurd e g''
    rw [if_neg g]
    by_cases g2 : isDigit19 n.prev = false ∧ n.prev ≠ 48
    · rw [if_pos g2]
      refine ⟨(by intro n' h; cases h), ?_⟩
      rintro (⟨g', _⟩ | ⟨g', _⟩ | ⟨g', _⟩ | ⟨g', _⟩ | ⟨_, _, _, g'⟩)
      · exact absurd g' (nd _ (by rcases cE with rfl | rfl <;> decide))
      · exact absurd g' c45
      · exact absurd g' c43
      · exact absurd g' c46
      · rcases hD.2 g' with e | e
        · exact absurd e g2.2
        · rw [g2.1] at e; cases e
    · rw [if_neg g2]
      refine ⟨?_, fun _ => ⟨_, rfl⟩⟩
      intro n' e; cases e
      have hm : MayFollow a c := by
        refine .inr (.inr (.inr (.inr ⟨cE, fun hm => g (hexp.2 (.inl hm)), fun hm => g (hexp.2 (.inr hm)), hD.1 ?_⟩)))
        by_cases h1 : n.prev = 48
        · exact .inl h1
        · cases h2 : isDigit19 n.prev with
          | true => exact .inr rfl
          | false => exact absurd ⟨h2, h1⟩ g2
      exact ⟨hm, mk _ hm rfl rfl (by simp [c46]) (by simp [cE]) (by simp [c48])⟩
  rw [if_neg cE]
  simp only [not_or] at cE
  have nm : ∀ P : Prop, (IsDigit c ∧ a ≠ [48] → P) → MayFollow a c → P := by
    rintro P hP (g' | ⟨g', _⟩ | ⟨g', _⟩ | ⟨g', _⟩ | ⟨g' | g', _⟩)
    · exact hP g'
    · exact absurd g' c45
    · exact absurd g' c43
    · exact absurd g' c46
    · exact absurd g' cE.1
    · exact absurd g' cE.2
  by_cases g : (n.zero && !n.dot && !n.exp) = true
  · rw [if_pos g]
    exact ⟨(by intro n' h; cases h), nm _ fun g' => absurd (hL.1 g) g'.2⟩
  rw [if_neg g]
  cases g2 : isDigit19 c with
  | false =>
    simp only [if_true]
    refine ⟨(by intro n' h; cases h), nm _ fun g' => ?_⟩
    rcases (digit_iff c).1 g'.1 with e | e
    · exact absurd e c48
    · rw [g2] at e; cases e
  | true =>
    simp only [Bool.true_eq_false, if_false]
    refine ⟨?_, fun _ => ⟨_, rfl⟩⟩
    intro n' e; cases e
    have hm : MayFollow a c := .inl ⟨(digit_iff c).2 (.inr g2), fun e => g (hL.2 e)⟩
    exact ⟨hm, mk _ hm rfl rfl (by simp [c46]) (by simp [cE.1, cE.2]) (by simp [c48])⟩

theorem numInv_init : NumInv {} [] := ⟨rfl, by simp, by simp, rfl, by simp, by simp, by simp⟩

theorem numEnd_iff {n : Num} {a : Bytes} (h : NumInv n a) (p : Nat) :
    (∀ e q, numEnd n p = some (.ok (e, q)) → EndsInDigit a ∧ q = p - 1 ∧ e = .prim none (if 46 ∈ a then .real else .integer) a) ∧
    (EndsInDigit a → numEnd n p = some (.ok (.prim none (if 46 ∈ a then .real else .integer) a, p - 1))) := by
  have he : (Elem.prim none (if n.dot = true then .real else .integer) n.text) = .prim none (if 46 ∈ a then .real else .integer) a := by
    simp only [h.text, h.dot]
  rw [numEnd, he]
  constructor
  · intro e q
    split
    · intro h; cases h
    · rename_i g
      intro h'; cases h'
      refine ⟨h.endsDigit.1 ?_, rfl, rfl⟩
      by_cases h1 : n.prev = 48
      · exact .inl h1
      · cases h2 : isDigit19 n.prev with
        | true => exact .inr rfl
        | false => exact absurd ⟨h1, h2⟩ g
  · intro hd
    rw [if_neg]
    rintro ⟨g1, g2⟩
    rcases h.endsDigit.2 hd with e | e
    · exact g1 e
    · rw [g2] at e; cases e

theorem numLoop_sound : ∀ (rest : Bytes) (p : Nat) (n : Num) (a : Bytes), 0 ∉ rest → NumInv n a → ∀ e q, numLoop rest p n = some (.ok (e, q)) →
    ∃ t post, rest = t ++ post ∧ Follow post ∧ NumberText (a ++ t) ∧ q = p + t.length - 1 ∧ e = .prim none (if 46 ∈ a ++ t then .real else .integer) (a ++ t) := by
  intro rest
  induction rest with
  | nil =>
    intro p n a _ hn e q h
    obtain ⟨h1, h2, h3⟩ := (numEnd_iff hn p).1 e q h
    exact ⟨[], [], rfl, (by intro c r h; cases h), by simpa using ⟨hn.ok, h1⟩, by simpa using h2, by simpa using h3⟩
  | cons c rest ih =>
    intro p n a h0 hn e q h
    simp only [List.mem_cons, not_or] at h0
    rw [numLoop] at h
    split at h
    · rename_i hs
      obtain ⟨h1, h2, h3⟩ := (numEnd_iff hn p).1 e q h
      exact ⟨[], c :: rest, rfl, follow_cons hs, by simpa using ⟨hn.ok, h1⟩, by simpa using h2, by simpa using h3⟩
    · cases hst : numStep n c with
      | error e => rw [hst] at h; cases h
      | ok n' =>
        rw [hst] at h
        obtain ⟨_, hi⟩ := (numStep_iff hn (Ne.symm h0.1)).1 n' hst
        obtain ⟨t, post, g1, g2, g3, g4, g5⟩ := ih (p + 1) n' (a ++ [c]) h0.2 hi e q h
        refine ⟨c :: t, post, by rw [g1]; rfl, g2, by simpa using g3, by simp; omega, by simpa using g5⟩

theorem mayFollow_sep {a : Bytes} {c : UInt8} (h : MayFollow a c) : isSep c = false ∧ c ≠ 0 := by
  rcases h with ⟨h, _⟩ | ⟨rfl, _⟩ | ⟨rfl, _⟩ | ⟨rfl, _⟩ | ⟨rfl | rfl, _⟩
  · have := dig_facts c h; exact ⟨this.2.2.2.2.2.2.1, this.1⟩
  all_goals decide

theorem numLoop_complete : ∀ (t : Bytes) (p : Nat) (n : Num) (a post : Bytes), NumInv n a → Follow post → NumberText (a ++ t) →
    numLoop (t ++ post) p n = some (.ok (.prim none (if 46 ∈ a ++ t then .real else .integer) (a ++ t), p + t.length - 1)) := by
  intro t
  induction t with
  | nil =>
    intro p n a post hn hf ht
    rw [List.append_nil] at *
    have := (numEnd_iff hn p).2 ht.2
    cases post with
    | nil => exact this
    | cons c r => rw [List.nil_append, numLoop, if_pos (hf c r rfl)]; exact this
  | cons c t ih =>
    intro p n a post hn hf ht
    have hm := ht.1 a c t rfl
    obtain ⟨hs, h0⟩ := mayFollow_sep hm
    obtain ⟨n', hst⟩ := (numStep_iff hn h0).2 hm
    rw [List.cons_append, numLoop, if_neg (by simp [hs]), hst]
    have := ih (p + 1) n' (a ++ [c]) post ((numStep_iff hn h0).1 n' hst).2 hf (by simpa using ht)
    simp only [List.append_assoc, List.singleton_append] at this
    simp only [List.length_cons]
    rw [this]; congr 4; omega

/-! ## Strings -/

theorem unescape_other {d : UInt8} (h : ∀ c, (d, c) ∉ escapeOf) : unescape d = [92, d] := by
  have h1 := h d
  have h8 := h 8
  have h12 := h 12
  have h10 := h 10
  have h13 := h 13
  have h9 := h 9
  simp [escapeOf] at h1 h8 h12 h10 h13 h9
  simp [unescape, *]

theorem strLoop_complete {t v : Bytes} (h : LooseChars t v) : ∀ (p : Nat) (acc post : Bytes), strLoop (t ++ 34 :: post) p acc = some (.ok (acc ++ v, p + t.length)) := by
  induction h with
  | nil => intro p acc post; rw [List.nil_append, strLoop.eq_def]; simp
  | plain h1 h2 _ ih =>
    intro p acc post
    rw [List.cons_append, strLoop.eq_def]
    simp only [if_neg h1, if_neg h2]
    rw [ih]; simp; omega
  | escape hd _ ih =>
    intro p acc post
    rw [List.cons_append, List.cons_append, strLoop.eq_def]
    simp only [show (92 : UInt8) ≠ 34 by decide, if_false, if_true]
    rw [unescape_ok hd, ih]; simp; omega
  | other hd _ ih =>
    intro p acc post
    rw [List.cons_append, List.cons_append, strLoop.eq_def]
    simp only [show (92 : UInt8) ≠ 34 by decide, if_false, if_true]
    rw [unescape_other hd, ih]; simp; omega

theorem strLoop_sound : ∀ (n : Nat) (rest : Bytes) (p : Nat) (acc : Bytes), rest.length ≤ n → ∀ v q, strLoop rest p acc = some (.ok (v, q)) →
    ∃ t u post, rest = t ++ 34 :: post ∧ LooseChars t u ∧ v = acc ++ u ∧ q = p + t.length := by
  intro n
  induction n with
  | zero =>
    intro rest p acc hn v q h
    have : rest = [] := List.eq_nil_of_length_eq_zero (by omega)
    subst this; cases h
  | succ n ih =>
    intro rest p acc hn v q h
    cases rest with
    | nil => cases h
    | cons c rest =>
      simp only [List.length_cons] at hn
      rw [strLoop.eq_def] at h
      simp only at h
      split at h
      · rename_i hc
        cases h
        exact ⟨[], [], rest, by rw [hc]; rfl, .nil, by simp, by simp⟩
      rename_i c34
      split at h
      · rename_i hc
        cases rest with
        | nil => cases h
        | cons d rest =>
          simp only [List.length_cons] at hn
          simp only at h
          obtain ⟨t, u, post, g1, g2, g3, g4⟩ := ih rest (p + 2) _ (by omega) v q h
          subst hc g1
          by_cases hd : ∃ c, (d, c) ∈ escapeOf
          · obtain ⟨c, hd⟩ := hd
            rw [unescape_ok hd] at g3
            exact ⟨92 :: d :: t, c :: u, post, rfl, .escape hd g2, by rw [g3]; simp, by rw [g4]; simp; omega⟩
          · have hd : ∀ c, (d, c) ∉ escapeOf := fun c hc => hd ⟨c, hc⟩
            rw [unescape_other hd] at g3
            exact ⟨92 :: d :: t, 92 :: d :: u, post, rfl, .other hd g2, by rw [g3]; simp, by rw [g4]; simp; omega⟩
      · rename_i hc
        obtain ⟨t, u, post, g1, g2, g3, g4⟩ := ih rest (p + 1) _ (by omega) v q h
        subst g1
        exact ⟨c :: t, c :: u, post, rfl, .plain c34 hc g2, by rw [g3]; simp, by rw [g4]; simp; omega⟩

theorem decodeEscape_iff (d x : UInt8) : decodeEscape d = some x ↔ (d, x) ∈ escapeOf ∧ d ≠ 47 := by
  have : ∀ d : UInt8, decodeEscape d = (if d = 47 then none else (escapeOf.find? fun y => y.1 = d).map Prod.snd) :=
    fun d => Str.byte_all (P := fun d => decodeEscape d = (if d = 47 then none else (escapeOf.find? fun y => y.1 = d).map Prod.snd)) (by decide +kernel) d
  rw [this]
  split
  · rename_i h; simp [h]
  · rename_i h
    constructor
    · intro g
      rw [Option.map_eq_some_iff] at g
      obtain ⟨y, g1, g2⟩ := g
      have := List.mem_of_find?_eq_some g1
      have h2 := List.find?_some g1
      simp at h2
      obtain ⟨y1, y2⟩ := y
      simp at h2 g2; subst h2 g2
      exact ⟨this, h⟩
    · rintro ⟨g, _⟩
      simp only [escapeOf, List.mem_cons, Prod.mk.injEq, List.not_mem_nil, or_false] at g
      rcases g with ⟨rfl, rfl⟩ | ⟨rfl, rfl⟩ | ⟨rfl, rfl⟩ | ⟨rfl, rfl⟩ | ⟨rfl, rfl⟩ | ⟨rfl, rfl⟩ | ⟨rfl, rfl⟩ | ⟨rfl, rfl⟩ <;> first | rfl | exact absurd rfl h

theorem secondPass_decode : ∀ (n : Nat) (u : Bytes), u.length ≤ n → SecondPass u (decode u) := by
  intro n
  induction n with
  | zero =>
    intro u hn
    have : u = [] := List.eq_nil_of_length_eq_zero (by omega)
    subst this; exact .nil
  | succ n ih =>
    intro u hn
    match u, hn with
    | [], _ => exact .nil
    | [c], _ => exact .keep (by intro d x t' _ h; cases h) .nil
    | c :: d :: s, hn =>
      simp only [List.length_cons] at hn
      rw [decode.eq_3]
      split
      · rename_i hc
        subst hc
        cases hd : decodeEscape d with
        | none =>
          refine .keep ?_ (ih (d :: s) (by simp; omega))
          intro d' x t' _ e hm
          cases e
          by_cases h47 : d = 47
          · exact h47
          · rw [(decodeEscape_iff d x).2 ⟨hm, h47⟩] at hd; cases hd
        | some x =>
          have := (decodeEscape_iff d x).1 hd
          exact .escape this.1 this.2 (ih s (by omega))
      · rename_i hc
        exact .keep (fun _ _ _ h => absurd h hc) (ih (d :: s) (by simp; omega))

theorem decode_of_secondPass {u v : Bytes} (h : SecondPass u v) : decode u = v := by
  induction h with
  | nil => rfl
  | escape h1 h2 _ ih => rw [decode_escape ((decodeEscape_iff _ _).2 ⟨h1, h2⟩), ih]
  | @keep c t s h _ ih =>
    cases t with
    | nil => rw [← ih]; simp [decode]
    | cons d t =>
      rw [decode.eq_3]
      split
      · rename_i hc
        cases hd : decodeEscape d with
        | none => rw [ih]
        | some x =>
          have := (decodeEscape_iff d x).1 hd
          exact absurd (h d x t hc rfl this.1) this.2
      · rw [ih]

end Json
