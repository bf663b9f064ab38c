import Verif.Props.JsonOps
/-! # JSON: the parser -/
open JsonSpec Json

namespace Json

/-! ## Totality -/

theorem unescape_ne {d : UInt8} (h : d ≠ 0) : 0 ∉ unescape d := by
  rw [unescape]
  split
  · simpa using h.symm
  all_goals (repeat' (split; · decide))
  simpa using h.symm

theorem last_tail {c : UInt8} {rest : Bytes} (h : (c :: rest).getLast? ≠ some 92) (hr : rest ≠ []) : rest.getLast? ≠ some 92 := by
  cases rest with
  | nil => exact absurd rfl hr
  | cons d r => rwa [List.getLast?_cons_cons] at h

theorem strLoop_total : ∀ (n : Nat) (rest : Bytes) (p : Nat) (acc : Bytes), rest.length ≤ n → 0 ∉ rest → 0 ∉ acc → rest.getLast? ≠ some 92 →
    ∃ r, strLoop rest p acc = some r ∧ ∀ v q, r = .ok (v, q) → p ≤ q ∧ q < p + rest.length ∧ 0 ∉ v := by
  intro n
  induction n with
  | zero =>
    intro rest p acc hn _ _ _
    have : rest = [] := List.eq_nil_of_length_eq_zero (by omega)
    subst this
    exact ⟨_, rfl, by intro v q h; cases h⟩
  | succ n ih =>
    intro rest p acc hn h0 ha hl
    cases rest with
    | nil => exact ⟨_, rfl, by intro v q h; cases h⟩
    | cons c rest =>
      simp only [List.length_cons] at hn
      simp only [List.mem_cons, not_or] at h0
      rw [strLoop.eq_def]
      simp only
      split
      · exact ⟨_, rfl, by intro v q h; cases h; exact ⟨by omega, by simp, ha⟩⟩
      split
      · rename_i hc
        cases rest with
        | nil => subst hc; exact absurd rfl hl
        | cons d rest =>
          simp only [List.length_cons] at hn
          simp only [List.mem_cons, not_or] at h0
          have hl2 : rest.getLast? ≠ some 92 := by
            by_cases hr : rest = []
            · subst hr; simp
            · exact last_tail (last_tail hl (by simp)) hr
          obtain ⟨r, h1, h2⟩ := ih rest (p + 2) (acc ++ unescape d) (by omega) h0.2.2
            (by simp only [List.mem_append, not_or]; exact ⟨ha, unescape_ne (fun h => h0.2.1 h.symm)⟩) hl2
          refine ⟨r, h1, fun v q h => ?_⟩
          obtain ⟨a, b, c⟩ := h2 v q h
          exact ⟨by omega, by simp; omega, c⟩
      · have hl2 : rest.getLast? ≠ some 92 := by
          by_cases hr : rest = []
          · subst hr; simp
          · exact last_tail hl hr
        obtain ⟨r, h1, h2⟩ := ih rest (p + 1) (acc ++ [c]) (by omega) h0.2 (by simp [ha, h0.1]) hl2
        refine ⟨r, h1, fun v q h => ?_⟩
        obtain ⟨a, b, c⟩ := h2 v q h
        exact ⟨by omega, by simp; omega, c⟩

theorem numStep_prev {n n' : Num} {c : UInt8} (h : numStep n c = .ok n') : n'.prev = c ∧ n'.text = n.text ++ [c] := by
  rw [numStep] at h
  simp only at h
  repeat' (split at h)
  all_goals first | (cases h; exact ⟨rfl, rfl⟩) | cases h

theorem numLoop_total : ∀ (rest : Bytes) (p : Nat) (n : Num), 0 ∉ rest → 0 ∉ n.text → (n.prev ≠ 0 → 0 < p) →
    ∃ r, numLoop rest p n = some r ∧ ∀ e q, r = .ok (e, q) → p ≤ q + 1 ∧ (n.prev = 0 → p ≤ q) ∧ q < p + rest.length ∧
      ∃ t v, e = .prim none t v ∧ (t = .real ∨ t = .integer) ∧ 0 ∉ v := by
  have hend : ∀ (p : Nat) (n : Num) (k : Nat), 0 ∉ n.text → (n.prev ≠ 0 → 0 < p) → ∃ r, numEnd n p = some r ∧ ∀ e q, r = .ok (e, q) →
      p ≤ q + 1 ∧ (n.prev = 0 → p ≤ q) ∧ q < p + k ∧ ∃ t v, e = .prim none t v ∧ (t = .real ∨ t = .integer) ∧ 0 ∉ v := by
    intro p n k ht hp
    rw [numEnd]
    split
    · exact ⟨_, rfl, by intro e q h; cases h⟩
    · rename_i hd
      refine ⟨_, rfl, ?_⟩
      intro e q h
      have hp0 : n.prev ≠ 0 := by intro h; rw [h] at hd; exact hd (by decide)
      have := hp hp0
      cases h
      exact ⟨by omega, fun h => absurd h hp0, by omega, _, _, rfl, by cases n.dot <;> simp, ht⟩
  intro rest
  induction rest with
  | nil => intro p n _ ht hp; exact hend p n 0 ht hp
  | cons c rest ih =>
    intro p n h0 ht hp
    simp only [List.mem_cons, not_or] at h0
    rw [numLoop]
    split
    · exact hend p n _ ht hp
    · cases hs : numStep n c with
      | error e => exact ⟨_, rfl, by intro e q h; cases h⟩
      | ok n' =>
        obtain ⟨hpv, htx⟩ := numStep_prev hs
        obtain ⟨r, h1, h2⟩ := ih (p + 1) n' h0.2 (by rw [htx]; simp [ht, h0.1]) (by omega)
        refine ⟨r, h1, ?_⟩
        intro e q h
        obtain ⟨a, b, c', d⟩ := h2 e q h
        exact ⟨by omega, by omega, by simp; omega, d⟩

/-- The result of parsing is an element as the API builds it, of NUL-free texts. -/
abbrev Parsed (e : Elem) : Prop := Valid (fun v => 0 ∉ v) (fun v => 0 ∉ v) (fun v => 0 ∉ v) (fun v => 0 ∉ v) e

/-- A parser result is defined, and a success ends inside the string, at or after `p`. -/
def Fine (s : Bytes) (p : Nat) (x : P Elem) : Prop :=
  ∃ r, x = some r ∧ ∀ e q, r = .ok (e, q) → p ≤ q ∧ q < s.length ∧ Parsed e

theorem literalAt_total {s : Bytes} {p : Nat} (lit : Bytes) (hp : p ≤ s.length) :
    ∃ b, literalAt s p lit = some b ∧ (b = true → p + lit.length ≤ s.length) := by
  rw [literalAt, if_pos hp]
  split
  · rename_i h
    have hl := congrArg List.length h
    simp only [List.length_take, List.length_drop] at hl
    have : ∃ c, rd s (p + lit.length) = some c := by
      rw [rd]; exact ⟨(s ++ [0])[p + lit.length]'(by simp; omega), List.getElem?_eq_getElem _⟩
    obtain ⟨c, hc⟩ := this
    exact ⟨_, by rw [hc]; rfl, fun _ => by omega⟩
  · exact ⟨_, rfl, by simp⟩

theorem wordAt_total {s : Bytes} {p : Nat} (hp : p ≤ s.length) : Fine s p (wordAt s p) := by
  obtain ⟨b1, e1, f1⟩ := literalAt_total litTrue hp
  obtain ⟨b2, e2, f2⟩ := literalAt_total litFalse hp
  obtain ⟨b3, e3, f3⟩ := literalAt_total litNull hp
  rw [wordAt, e1, Option.bind_some]
  split
  · rename_i h
    refine ⟨_, rfl, ?_⟩
    intro e q he; cases he
    have := f1 h
    exact ⟨by omega, by simp [litTrue] at this; omega, by simp [boolCreate, Valid, litTrue]⟩
  rw [e2, Option.bind_some]
  split
  · rename_i h
    refine ⟨_, rfl, ?_⟩
    intro e q he; cases he
    have := f2 h
    exact ⟨by omega, by simp [litFalse] at this; omega, by simp [boolCreate, Valid, litFalse]⟩
  rw [e3, Option.bind_some]
  split
  · rename_i h
    refine ⟨_, rfl, ?_⟩
    intro e q he; cases he
    have := f3 h
    exact ⟨by omega, by simp [litNull] at this; omega, by simp [nullCreate, Valid, litNull]⟩
  · exact ⟨_, rfl, by intro e q h; cases h⟩

theorem mem_drop_zero {s : Bytes} (h : 0 ∉ s) (p : Nat) : 0 ∉ s.drop p := fun hm => h (List.mem_of_mem_drop hm)

theorem scalarAt_total {s : Bytes} {p : Nat} (c : UInt8) (h0 : 0 ∉ s) (hp : p < s.length) : Fine s p (scalarAt s p c) := by
  rw [scalarAt]
  split
  · obtain ⟨r, h1, h2⟩ := numLoop_total (s.drop p) p {} (mem_drop_zero h0 p) (by simp) (by simp)
    refine ⟨r, h1, ?_⟩
    intro e q h
    obtain ⟨_, a, b, t, v, he, ht, hv⟩ := h2 e q h
    simp only [List.length_drop] at b
    refine ⟨a rfl, by omega, ?_⟩
    subst he
    rcases ht with rfl | rfl <;> simpa [Valid] using hv
  · exact wordAt_total (by omega)

theorem stringAt_total {s : Bytes} {p : Nat} (h0 : 0 ∉ s) (hl : s.getLast? ≠ some 92) (hp : p < s.length) :
    ∃ r, stringAt s p = some r ∧ ∀ v q, r = .ok (v, q) → p < q ∧ q < s.length ∧ 0 ∉ v := by
  have hl2 : (s.drop (p + 1)).getLast? ≠ some 92 := by
    by_cases hr : s.drop (p + 1) = []
    · rw [hr]; simp
    · rw [List.getLast?_drop]; split
      · simp
      · exact hl
  obtain ⟨r, h1, h2⟩ := strLoop_total _ (s.drop (p + 1)) (p + 1) [] (Nat.le_refl _) (mem_drop_zero h0 _) (by simp) hl2
  refine ⟨r, h1, ?_⟩
  intro v q h
  obtain ⟨a, b, c⟩ := h2 v q h
  simp only [List.length_drop] at b
  exact ⟨by omega, by omega, c⟩

theorem decode_ne : ∀ (n : Nat) (v : Bytes), v.length ≤ n → 0 ∉ v → 0 ∉ decode v := by
  intro n
  induction n with
  | zero =>
    intro v hn _
    have : v = [] := List.eq_nil_of_length_eq_zero (by omega)
    subst this; simp [decode]
  | succ n ih =>
    intro v hn h0
    match v, hn, h0 with
    | [], _, _ => simp [decode]
    | [c], _, h0 => simpa [decode] using h0
    | c :: d :: s, hn, h0 =>
      simp only [List.length_cons] at hn
      have h0' := h0
      simp only [List.mem_cons, not_or] at h0'
      have h1 := ih (d :: s) (by simp; omega) (by simp [h0'.2])
      have h2 := ih s (by omega) h0'.2.2
      rw [decode.eq_3]
      split
      · cases hd : decodeEscape d with
        | none => simp [h0'.1, h1]
        | some x =>
          have : x ≠ 0 := by
            rw [decodeEscape] at hd
            repeat' (split at hd)
            all_goals first | (cases hd; first | decide | exact fun h => h0'.2.1 h.symm) | cases hd
          simp [this.symm, h2]
      · simp [h0'.1, h1]

/-- Every string that begins in the text is read without leaving it. -/
def StrTotal (s : Bytes) : Prop := ∀ p, s[p]? = some 34 → ∃ r, stringAt s p = some r ∧ ∀ v q, r = .ok (v, q) → p < q ∧ q < s.length ∧ 0 ∉ v

theorem strTotal_of_last {s : Bytes} (h0 : 0 ∉ s) (hl : s.getLast? ≠ some 92) : StrTotal s :=
  fun p hp => stringAt_total h0 hl (List.getElem?_eq_some_iff.1 hp).1

theorem stringValueAt_total {s : Bytes} {p : Nat} (hS : StrTotal s) (hp : s[p]? = some 34) : Fine s p (stringValueAt s p) := by
  obtain ⟨r, h1, h2⟩ := hS p hp
  rw [stringValueAt, h1]
  match r, h2 with
  | .error e, _ => exact ⟨_, rfl, by intro e q h; cases h⟩
  | .ok (v, q), h2 =>
    obtain ⟨a, b, c⟩ := h2 v q rfl
    refine ⟨_, rfl, ?_⟩
    intro e q' h; cases h
    exact ⟨by omega, b, by simpa [stringCreate, Valid] using decode_ne _ v (Nat.le_refl _) c⟩

theorem rd_some {s : Bytes} {p : Nat} (hp : p ≤ s.length) : ∃ c, rd s p = some c ∧ (c ≠ 0 → p < s.length) := by
  refine ⟨(s ++ [0])[p]'(by simp; omega), List.getElem?_eq_getElem _, ?_⟩
  intro h
  by_cases hl : p < s.length
  · exact hl
  · have : p = s.length := by omega
    subst this; simp at h

theorem rd_get {s : Bytes} {p : Nat} {c : UInt8} (hc : rd s p = some c) (hp : p < s.length) : s[p]? = some c := by
  rw [rd, List.getElem?_append_left hp] at hc
  exact hc

theorem skip_bound (f : UInt8 → Bool) (s : Bytes) {p : Nat} (hp : p ≤ s.length) : p ≤ skip f s p ∧ skip f s p ≤ s.length := by
  rw [skip]
  have := (List.takeWhile_prefix f (l := s.drop p)).length_le
  simp only [List.length_drop] at this
  omega

theorem unquotedKey_bound {s : Bytes} {p colon : Nat} (h : unquotedKey s p = some colon) : p < colon ∧ colon < s.length := by
  rw [unquotedKey] at h
  cases hc : s[p]? with
  | none => simp [hc] at h
  | some c =>
    have hp := (List.getElem?_eq_some_iff.1 hc).1
    simp only [hc] at h
    split at h
    · split at h
      · rename_i h58
        cases h
        have a := skip_bound (fun c => c == 45 || isWord c) s (p := p + 1) (by omega)
        have b := skip_bound isWs s a.2
        exact ⟨by omega, (List.getElem?_eq_some_iff.1 h58).1⟩
      · cases h
    · cases h

theorem Fine.mono {s : Bytes} {p p' : Nat} {x : P Elem} (h : Fine s p' x) (hp : p ≤ p') : Fine s p x := by
  obtain ⟨r, h1, h2⟩ := h
  exact ⟨r, h1, fun e q he => let ⟨a, b, c⟩ := h2 e q he; ⟨by omega, b, c⟩⟩

theorem Fine.err {s : Bytes} {p : Nat} (e : Err) : Fine s p (some (.error e)) := ⟨_, rfl, by intro e q h; cases h⟩

theorem Fine.next {s : Bytes} {p p' : Nat} {x : P Elem} {f : Elem → Nat → P Elem} (hx : Fine s p' x)
    (hf : ∀ e q, p' ≤ q → q < s.length → Parsed e → Fine s p (f e q)) : Fine s p (andThen x f) := by
  obtain ⟨r, h1, h2⟩ := hx
  subst h1
  match r, h2 with
  | .error e, _ => exact Fine.err e
  | .ok (e, q), h2 =>
    obtain ⟨a, b, c⟩ := h2 e q rfl
    exact hf e q a b c

theorem loops_total {s : Bytes} (h0 : 0 ∉ s) (hS : StrTotal s) : ∀ fuel,
    (∀ p c, s[p]? = some c → p < s.length → 2 * (s.length - p) ≤ fuel → Fine s p (valueAt fuel s p c)) ∧
    (∀ p prev kids, p ≤ s.length → 2 * (s.length - p) + 1 ≤ fuel → (∀ x ∈ kids, Parsed x) → Fine s p (arrLoop fuel s p prev kids)) ∧
    (∀ p prev name kids, p ≤ s.length → 2 * (s.length - p) + 1 ≤ fuel → (∀ k, name = some k → 0 ∉ k) →
      ObjOk (fun v => 0 ∉ v) (fun v => 0 ∉ v) (fun v => 0 ∉ v) (fun v => 0 ∉ v) kids → Fine s p (objLoop fuel s p prev name kids)) := by
  intro fuel
  induction fuel with
  | zero => refine ⟨by intros; omega, by intros; omega, by intros; omega⟩
  | succ fuel ih =>
    obtain ⟨ihv, iha, iho⟩ := ih
    refine ⟨?_, ?_, ?_⟩
    · intro p c hcp hp hf
      rw [valueAt]
      split
      · rename_i h34
        exact stringValueAt_total hS (h34 ▸ hcp)
      split
      · exact (iha (p + 1) 91 [] (by omega) (by omega) (by simp)).mono (by omega)
      split
      · exact (iho (p + 1) 123 none [] (by omega) (by omega) (by simp) ⟨by simp, List.nodup_nil, by simp [keys]⟩).mono (by omega)
      · exact scalarAt_total c h0 hp
    · intro p prev kids hp hf hk
      obtain ⟨c, hc, hlt⟩ := rd_some hp
      rw [arrLoop, hc]
      simp only
      split
      · exact Fine.err _
      rename_i hc0
      have hp' := hlt hc0
      split
      · exact (iha (p + 1) prev kids (by omega) (by omega) hk).mono (by omega)
      split
      · split
        · exact Fine.err _
        · exact (iha (p + 1) c kids (by omega) (by omega) hk).mono (by omega)
      split
      · refine ⟨_, rfl, ?_⟩
        intro e q h; cases h
        exact ⟨Nat.le_refl _, hp', by rw [Parsed, Valid]; exact (validAll_iff kids).2 hk⟩
      split
      · exact Fine.err _
      · refine (ihv p c (rd_get hc hp') hp' (by omega)).next ?_
        intro e q h1 h2 h3
        obtain ⟨c', hc', _⟩ := rd_some (s := s) (p := q) (by omega)
        rw [hc', Option.bind_some]
        refine (iha (q + 1) c' (kids ++ [e]) (by omega) (by omega) ?_).mono (by omega)
        intro x hx
        rcases List.mem_append.1 hx with hx | hx
        · exact hk x hx
        · simp at hx; subst hx; exact h3
    · intro p prev name kids hp hf hn hk
      obtain ⟨c, hc, hlt⟩ := rd_some hp
      rw [objLoop, hc]
      simp only
      split
      · exact Fine.err _
      rename_i hc0
      have hp' := hlt hc0
      split
      · exact (iho (p + 1) prev name kids (by omega) (by omega) hn hk).mono (by omega)
      split
      · split
        · exact Fine.err _
        · exact (iho (p + 1) c name kids (by omega) (by omega) hn hk).mono (by omega)
      split
      · split
        · exact Fine.err _
        · exact (iho (p + 1) c name kids (by omega) (by omega) hn hk).mono (by omega)
      split
      · split
        · exact Fine.err _
        · refine ⟨_, rfl, ?_⟩
          intro e q h; cases h
          exact ⟨Nat.le_refl _, hp', hk.elem _⟩
      cases name with
      | some k =>
        refine (ihv p c (rd_get hc hp') hp' (by omega)).next ?_
        intro e q h1 h2 h3
        obtain ⟨c', hc', _⟩ := rd_some (s := s) (p := q) (by omega)
        rw [hc', Option.bind_some]
        exact (iho (q + 1) c' none _ (by omega) (by omega) (by simp) (hk.append (hn k rfl) h3)).mono (by omega)
      | none =>
        simp only
        split
        · rename_i h34
          obtain ⟨r, h1, h2⟩ := hS p (by rw [← h34]; exact rd_get hc hp')
          rw [h1]
          match r, h2 with
          | .error e, _ => exact Fine.err e
          | .ok (v, q), h2 =>
            obtain ⟨a, b, d⟩ := h2 v q rfl
            obtain ⟨c', hc', _⟩ := rd_some (s := s) (p := q) (by omega)
            rw [andThen, hc', Option.bind_some]
            exact (iho (q + 1) c' (some v) kids (by omega) (by omega) (by intro k hk; cases hk; exact d) hk).mono (by omega)
        split
        · exact Fine.err _
        split
        · exact Fine.err _
        cases hu : unquotedKey s p with
        | none => exact Fine.err _
        | some colon =>
          obtain ⟨a, b⟩ := unquotedKey_bound hu
          refine (iho (colon + 1) 58 _ kids (by omega) (by omega) ?_ hk).mono (by omega)
          intro k hk; cases hk
          exact fun hm => mem_drop_zero h0 p (List.mem_of_mem_take hm)

theorem parseLoop_total {s : Bytes} (h0 : 0 ∉ s) (hS : StrTotal s) : ∀ (rest : Bytes) (p : Nat), p + rest.length = s.length → rest = s.drop p →
    Fine s p (parseLoop s rest p) := by
  intro rest
  induction rest with
  | nil => intro p _ _; exact Fine.err _
  | cons c rest ih =>
    intro p hp hd
    simp only [List.length_cons] at hp
    have hcp : s[p]? = some c := by
      have := congrArg (·[0]?) hd
      simpa using this.symm
    have hd' : rest = s.drop (p + 1) := by
      rw [List.drop_eq_getElem_cons (by omega)] at hd
      exact (List.cons.inj hd).2
    have hv := (loops_total h0 hS (2 * s.length + 1)).1 p c hcp (by omega) (by omega)
    rw [parseLoop]
    split
    · exact hv
    split
    · exact (ih (p + 1) (by omega) hd').mono (by omega)
    · exact hv
end Json

/-- C25, partial: on every C string that does not end in a backslash `JsonParse` terminates without reading past the terminator, and gives an error or
an element and a position inside the string; the element is valid: literal texts for booleans and null, keys of objects distinct. Missing: texts that end
in a backslash (next theorem). -/
theorem C25_parse_total_partial (s : Bytes) (h0 : 0 ∉ s) (hl : s.getLast? ≠ some 92) :
    (∃ err, Json.parse s = some (.error err)) ∨
    ∃ e q, Json.parse s = some (.ok (e, q)) ∧ q < s.length ∧ Valid (fun v => 0 ∉ v) (fun v => 0 ∉ v) (fun v => 0 ∉ v) (fun v => 0 ∉ v) e := by
  obtain ⟨r, h1, h2⟩ := parseLoop_total h0 (strTotal_of_last h0 hl) s 0 (by omega) rfl
  match r, h1, h2 with
  | .error e, h1, _ => exact Or.inl ⟨e, h1⟩
  | .ok (e, q), h1, h2 => exact Or.inr ⟨e, q, h1, (h2 e q rfl).2⟩

/-- C25 fails: on `"\` the parser steps over the terminator, and so it does for a string value or a key at any depth. -/
theorem C25_backslash_at_end : Json.parse [34, 92] = none ∧ Json.parse [91, 34, 97, 92] = none ∧ Json.parse [123, 34, 92] = none := by
  refine ⟨rfl, rfl, rfl⟩

example : Json.parse [123, 34, 97, 34, 58, 91, 49, 44, 116, 114, 117, 101, 93, 125] =
    some (.ok (.cont none .object [.cont (some [97]) .array [.prim none .integer [49], .prim none .bool litTrue]], 13)) := rfl
