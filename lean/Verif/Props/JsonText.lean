import Verif.Props.JsonParse
/-! # JSON: texts of RFC 8259 are parsed to their documents -/
open JsonSpec Json

namespace Json

/-- What may follow a number or a literal. -/
def Follow (post : Bytes) : Prop := ∀ c r, post = c :: r → isSep c = true

theorem isWs_of {c : UInt8} (h : c = 32 ∨ c = 9 ∨ c = 10 ∨ c = 13) : isWs c = true := by
  rcases h with rfl | rfl | rfl | rfl <;> rfl

/-! ## Strings -/
theorem unescape_ok {d c : UInt8} (h : (d, c) ∈ escapeOf) : unescape d = [c] := by
  simp only [escapeOf, List.mem_cons, Prod.mk.injEq, List.not_mem_nil, or_false] at h
  rcases h with ⟨rfl, rfl⟩ | ⟨rfl, rfl⟩ | ⟨rfl, rfl⟩ | ⟨rfl, rfl⟩ | ⟨rfl, rfl⟩ | ⟨rfl, rfl⟩ | ⟨rfl, rfl⟩ | ⟨rfl, rfl⟩ <;> rfl

theorem strLoop_ok {t v : Bytes} (h : Chars t v) : ∀ (p : Nat) (acc post : Bytes), strLoop (t ++ 34 :: post) p acc = some (.ok (acc ++ v, p + t.length)) := by
  induction h with
  | nil => intro p acc post; rw [List.nil_append, strLoop.eq_def]; simp
  | plain _ h1 h2 _ ih =>
    intro p acc post
    rw [List.cons_append, strLoop.eq_def]
    simp only [if_neg h1, if_neg h2]
    rw [ih]; simp; omega
  | escape hd _ ih =>
    intro p acc post
    rw [List.cons_append, List.cons_append, strLoop.eq_def]
    simp only [show (92 : UInt8) ≠ 34 by decide, if_false, if_true]
    rw [unescape_ok hd, ih]; simp; omega

theorem stringAt_ok {t v : Bytes} (h : Chars t v) {s : Bytes} {p : Nat} {post : Bytes} (hs : s.drop p = [34] ++ t ++ [34] ++ post) :
    stringAt s p = some (.ok (v, p + t.length + 1)) := by
  have : s.drop (p + 1) = t ++ 34 :: post := by
    rw [← List.drop_drop, hs]; simp
  rw [stringAt, this, strLoop_ok h]; simp; omega

theorem decode_id : ∀ (v : Bytes), NoEscapes v → decode v = v := by
  intro v
  induction v with
  | nil => intro _; rfl
  | cons c v ih =>
    intro h
    have ih := ih (fun a d b e => h (c :: a) d b (by rw [e]; rfl))
    cases v with
    | nil => rfl
    | cons d v =>
      rw [decode.eq_3]
      split
      · rename_i hc
        have hd := h [] d v (by rw [hc]; rfl)
        have : decodeEscape d = none := by
          simp only [List.mem_cons, List.not_mem_nil, or_false, not_or] at hd
          simp [decodeEscape, hd]
        rw [this, ih]
      · rw [ih]

/-! ## Numbers -/
def numFold (n : Num) : Bytes → Except Err Num
  | [] => .ok n
  | c :: cs => match numStep n c with
    | .error e => .error e
    | .ok n => numFold n cs

theorem numLoop_fold : ∀ (w : Bytes) (n n' : Num) (p : Nat) (post : Bytes), numFold n w = .ok n' → (∀ c ∈ w, isSep c = false) → Follow post →
    numLoop (w ++ post) p n = numEnd n' (p + w.length) := by
  intro w
  induction w with
  | nil =>
    intro n n' p post h _ hf
    cases h
    cases post with
    | nil => rfl
    | cons c r => rw [List.nil_append, numLoop, if_pos (hf c r rfl)]; rfl
  | cons c w ih =>
    intro n n' p post h hw hf
    rw [List.cons_append, numLoop, if_neg (by simp [hw c (by simp)])]
    rw [numFold] at h
    cases hs : numStep n c with
    | error e => rw [hs] at h; cases h
    | ok m =>
      rw [hs] at h
      simp only
      rw [ih m n' (p + 1) post h (fun x hx => hw x (List.mem_cons_of_mem _ hx)) hf]
      simp only [List.length_cons]; congr 1; omega

theorem numFold_append (a b : Bytes) : ∀ (n n' : Num), numFold n a = .ok n' → numFold n (a ++ b) = numFold n' b := by
  induction a with
  | nil => intro n n' h; cases h; rfl
  | cons c a ih =>
    intro n n' h
    rw [numFold] at h
    rw [List.cons_append, numFold]
    cases hs : numStep n c with
    | error e => rw [hs] at h; cases h
    | ok m => rw [hs] at h; exact ih m n' h

/-- A decimal digit. -/
def Dig (c : UInt8) : Prop := 48 ≤ c ∧ c ≤ 57
theorem dig_facts (c : UInt8) : Dig c → c ≠ 0 ∧ c ≠ 45 ∧ c ≠ 43 ∧ c ≠ 46 ∧ c ≠ 101 ∧ c ≠ 69 ∧ isSep c = false ∧ (c = 48 ∨ isDigit19 c = true) ∧
    c ≠ 44 ∧ c ≠ 91 ∧ c ≠ 58 ∧ c ≠ 34 ∧ c ≠ 123 ∧ isWs c = false ∧ c ≠ 93 ∧ c ≠ 125 :=
  Str.byte_all (P := fun c => (48 ≤ c ∧ c ≤ 57) → c ≠ 0 ∧ c ≠ 45 ∧ c ≠ 43 ∧ c ≠ 46 ∧ c ≠ 101 ∧ c ≠ 69 ∧ isSep c = false ∧ (c = 48 ∨ isDigit19 c = true) ∧
    c ≠ 44 ∧ c ≠ 91 ∧ c ≠ 58 ∧ c ≠ 34 ∧ c ≠ 123 ∧ isWs c = false ∧ c ≠ 93 ∧ c ≠ 125) (by decide +kernel) c

theorem numStep_dig {n : Num} {c : UInt8} (hc : Dig c) (hz : (n.zero && !n.dot && !n.exp) = false) (hp : n.prev ≠ 0) :
    numStep n c = .ok { n with prev := c, text := n.text ++ [c] } := by
  obtain ⟨a, b, d, e, f, g, _, i, _⟩ := dig_facts c hc
  rw [numStep]
  simp only [if_neg b, if_neg d, if_neg e, f, g, or_self, if_false, hz, Bool.false_eq_true]
  by_cases h48 : c = 48
  · simp [h48, hp]
  · simp [h48, i.resolve_left h48]

theorem numFold_digs : ∀ (ds : Bytes) (n : Num), (∀ c ∈ ds, Dig c) → (n.zero && !n.dot && !n.exp) = false → n.prev ≠ 0 →
    numFold n ds = .ok { n with prev := (ds.getLast?).getD n.prev, text := n.text ++ ds } := by
  intro ds
  induction ds with
  | nil => intro n _ _ _; simp [numFold]
  | cons c ds ih =>
    intro n hd hz hp
    have hc := hd c (by simp)
    rw [numFold, numStep_dig hc hz hp]
    simp only
    rw [ih { n with prev := c, text := n.text ++ [c] } (fun x hx => hd x (List.mem_cons_of_mem _ hx)) hz (dig_facts c hc).1]
    cases ds with
    | nil => simp
    | cons d ds => simp only [List.getLast?_cons_cons, List.getLast?_eq_some_getLast (List.cons_ne_nil d ds), Option.getD_some, List.append_assoc, List.singleton_append]

/-- The state after a well-formed beginning of a number ending in a digit. -/
structure NumOk (n : Num) (text : Bytes) (dot : Bool) : Prop where
  text : n.text = text
  dot : n.dot = dot
  last : Dig n.prev

theorem last_dig {ds : Bytes} {d : UInt8} (h : ∀ c ∈ ds, Dig c) (hd : Dig d) : Dig (ds.getLast?.getD d) := by
  cases hl : ds.getLast? with
  | none => exact hd
  | some x => exact h x (List.mem_of_getLast? hl)

theorem int_ok {sg i : Bytes} (hs : sg = [] ∨ sg = [45]) (hi : IntPart i) : ∃ n, numFold {} (sg ++ i) = .ok n ∧ NumOk n (sg ++ i) false ∧ n.exp = false := by
  have hsg : ∃ n0 : Num, numFold {} sg = .ok n0 ∧ n0.text = sg ∧ n0.dot = false ∧ n0.exp = false ∧ n0.zero = false := by
    rcases hs with rfl | rfl
    · exact ⟨{}, rfl, rfl, rfl, rfl, rfl⟩
    · exact ⟨{ prev := 45, text := [45] }, rfl, rfl, rfl, rfl, rfl⟩
  obtain ⟨n0, e0, t0, d0, x0, z0⟩ := hsg
  rw [numFold_append sg i _ n0 e0]
  rcases hi with rfl | ⟨c, ds, rfl, h1, h2, h3⟩
  · have : numStep n0 48 = .ok (if n0.prev = 0 then { n0 with prev := 48, text := n0.text ++ [48], zero := true } else { n0 with prev := 48, text := n0.text ++ [48] }) := by
      rw [numStep]; simp [z0]
    rw [numFold, this]
    refine ⟨_, rfl, ?_⟩
    split
    · exact ⟨⟨by simp [t0], d0, by simp [Dig]⟩, x0⟩
    · exact ⟨⟨by simp [t0], d0, by simp [Dig]⟩, x0⟩
  · have h19 : isDigit19 c = true := by simp [isDigit19, h1, h2]
    have hc : Dig c := ⟨by rw [UInt8.le_iff_toNat_le] at h1 ⊢; simp at h1 ⊢; omega, h2⟩
    obtain ⟨a, b, d, e, f, g, _⟩ := dig_facts c hc
    have h48 : c ≠ 48 := by rintro rfl; simp at h1
    have : numStep n0 c = .ok { n0 with prev := c, text := n0.text ++ [c] } := by
      rw [numStep]; simp [b, d, e, f, g, h48, z0, h19]
    rw [numFold, this]
    simp only
    rw [numFold_digs ds _ h3 (by simp [z0]) a]
    exact ⟨_, rfl, ⟨by simp [t0], d0, last_dig h3 hc⟩, x0⟩

theorem prev_digit {n : Num} (h : Dig n.prev) : n.prev = 48 ∨ isDigit19 n.prev = true := (dig_facts _ h).2.2.2.2.2.2.2.1

theorem mantissa_ok {w : Bytes} {real : Bool} (h : Mantissa w real) : ∃ n, numFold {} w = .ok n ∧ NumOk n w real ∧ n.exp = false := by
  obtain ⟨sg, i, f, rfl, hs, hi, hf⟩ := h
  obtain ⟨n, e, ok, hx⟩ := int_ok hs hi
  rw [numFold_append _ f _ n e]
  cases real with
  | false =>
    simp only [Bool.false_eq_true, if_false] at hf
    subst hf
    exact ⟨n, rfl, by simpa using ok, hx⟩
  | true =>
    simp only [if_true] at hf
    obtain ⟨ds, rfl, hne, hds⟩ := hf
    have hp := prev_digit ok.last
    have : numStep n 46 = .ok { n with prev := 46, text := n.text ++ [46], dot := true } := by
      rw [numStep]
      simp only [ok.dot]
      rcases hp with hp | hp <;> simp [hp]
    rw [numFold, this]
    simp only
    rw [numFold_digs ds _ hds (by simp) (by simp)]
    refine ⟨_, rfl, ⟨by simp [ok.text], rfl, ?_⟩, hx⟩
    cases hl : ds.getLast? with
    | none => exact absurd (List.getLast?_eq_none_iff.1 hl) hne
    | some x => simpa [Dig] using hds x (List.mem_of_getLast? hl)

theorem number_ok {w : Bytes} {real : Bool} (h : Number w real) : ∃ n, numFold {} w = .ok n ∧ NumOk n w real := by
  obtain ⟨m, x, rfl, hm, hx⟩ := h
  obtain ⟨n, e, ok, hexp⟩ := mantissa_ok hm
  rw [numFold_append _ x _ n e]
  rcases hx with rfl | ⟨c, sg, ds, rfl, hc, hs, hne, hds⟩
  · exact ⟨n, rfl, by simpa using ok⟩
  have hp := prev_digit ok.last
  have h1 : numStep n c = .ok { n with prev := c, text := n.text ++ [c], exp := true } := by
    rw [numStep]
    rcases hc with rfl | rfl <;> rcases hp with hp | hp <;> simp [hexp, hp]
  rw [numFold, h1]
  simp only
  have h2 : ∃ n', numFold { n with prev := c, text := n.text ++ [c], exp := true } sg = .ok n' ∧ n'.text = n.text ++ [c] ++ sg ∧ n'.dot = n.dot ∧ n'.exp = true ∧ n'.prev ≠ 0 := by
    rcases hs with rfl | rfl | rfl
    · exact ⟨_, rfl, by simp, rfl, rfl, by rcases hc with rfl | rfl <;> simp⟩
    · refine ⟨{ n with prev := 43, text := n.text ++ [c] ++ [43], exp := true }, ?_, rfl, rfl, rfl, by simp⟩
      rcases hc with rfl | rfl <;> simp [numFold, numStep]
    · refine ⟨{ n with prev := 45, text := n.text ++ [c] ++ [45], exp := true }, ?_, rfl, rfl, rfl, by simp⟩
      rcases hc with rfl | rfl <;> simp [numFold, numStep]
  obtain ⟨n', e2, t2, d2, x2, p2⟩ := h2
  rw [numFold_append sg ds _ n' e2, numFold_digs ds n' hds (by simp [x2]) p2]
  refine ⟨_, rfl, by simp [t2, ok.text], by simp [d2, ok.dot], ?_⟩
  cases hl : ds.getLast? with
  | none => exact absurd (List.getLast?_eq_none_iff.1 hl) hne
  | some x => simpa [Dig] using hds x (List.mem_of_getLast? hl)

/-- Characters of a number. -/
def NumChar (c : UInt8) : Prop := Dig c ∨ c = 45 ∨ c = 43 ∨ c = 46 ∨ c = 101 ∨ c = 69

theorem number_chars {w : Bytes} {real : Bool} (h : Number w real) : (∀ c ∈ w, NumChar c) ∧ (∃ c r, w = c :: r ∧ (c = 45 ∨ Dig c)) ∧ ∃ r c, w = r ++ [c] ∧ Dig c := by
  obtain ⟨m, x, rfl, ⟨sg, i, f, rfl, hs, hi, hf⟩, hx⟩ := h
  have hsg : ∀ c ∈ sg, NumChar c := by
    rcases hs with rfl | rfl
    · simp
    · intro c hc; simp at hc; subst hc; exact Or.inr (Or.inl rfl)
  have hid : (∀ c ∈ i, Dig c) ∧ i ≠ [] := by
    rcases hi with rfl | ⟨c, ds, rfl, h1, h2, h3⟩
    · exact ⟨by intro c hc; simp at hc; subst hc; simp [Dig], by simp⟩
    · refine ⟨?_, by simp⟩
      intro d hd
      rcases List.mem_cons.1 hd with rfl | hd
      · exact ⟨by rw [UInt8.le_iff_toNat_le] at h1 ⊢; simp at h1 ⊢; omega, h2⟩
      · exact h3 d hd
  have hfd : f = [] ∨ ∃ ds, f = 46 :: ds ∧ (∀ c ∈ ds, Dig c) ∧ ds ≠ [] := by
    cases real with
    | false => exact Or.inl (by simpa using hf)
    | true =>
      simp only [if_true] at hf
      obtain ⟨ds, h, hne, hds⟩ := hf
      exact Or.inr ⟨ds, h, hds, hne⟩
  have hlast : ∀ {l : Bytes}, (∀ c ∈ l, Dig c) → l ≠ [] → ∃ r c, l = r ++ [c] ∧ Dig c := by
    intro l h hn
    exact ⟨l.dropLast, l.getLast hn, (List.dropLast_concat_getLast hn).symm, h _ (List.getLast_mem hn)⟩
  refine ⟨?_, ?_, ?_⟩
  · intro c hc
    rcases List.mem_append.1 hc with hc | hc
    · rcases List.mem_append.1 hc with hc | hc
      · rcases List.mem_append.1 hc with hc | hc
        · exact hsg c hc
        · exact Or.inl (hid.1 c hc)
      · rcases hfd with rfl | ⟨ds, rfl, h, _⟩
        · cases hc
        · rcases List.mem_cons.1 hc with rfl | hc
          · exact Or.inr (Or.inr (Or.inr (Or.inl rfl)))
          · exact Or.inl (h c hc)
    · rcases hx with rfl | ⟨e, sg, ds, rfl, he, hs, hne, hds⟩
      · cases hc
      · rcases List.mem_cons.1 hc with rfl | hc
        · rcases he with rfl | rfl
          · exact Or.inr (Or.inr (Or.inr (Or.inr (Or.inl rfl))))
          · exact Or.inr (Or.inr (Or.inr (Or.inr (Or.inr rfl))))
        · rcases List.mem_append.1 hc with hc | hc
          · rcases hs with rfl | rfl | rfl
            · cases hc
            · simp at hc; subst hc; exact Or.inr (Or.inr (Or.inl rfl))
            · simp at hc; subst hc; exact Or.inr (Or.inl rfl)
          · exact Or.inl (hds c hc)
  · rcases hs with rfl | rfl
    · cases i with
      | nil => exact absurd rfl hid.2
      | cons c i => exact ⟨c, i ++ f ++ x, by simp, Or.inr (hid.1 c (by simp))⟩
    · exact ⟨45, i ++ f ++ x, by simp, Or.inl rfl⟩
  · rcases hx with rfl | ⟨e, sg', ds, rfl, he, hs', hne, hds⟩
    · rcases hfd with rfl | ⟨ds, rfl, h, hne⟩
      · obtain ⟨r, c, hr, hc⟩ := hlast hid.1 hid.2
        exact ⟨sg ++ r, c, by rw [hr]; simp, hc⟩
      · obtain ⟨r, c, hr, hc⟩ := hlast h hne
        exact ⟨sg ++ i ++ 46 :: r, c, by rw [hr]; simp, hc⟩
    · obtain ⟨r, c, hr, hc⟩ := hlast hds hne
      exact ⟨sg ++ i ++ f ++ (e :: (sg' ++ r)), c, by rw [hr]; simp, hc⟩

theorem numChar_sep {c : UInt8} (h : NumChar c) : isSep c = false := by
  rcases h with h | rfl | rfl | rfl | rfl | rfl
  · exact (dig_facts c h).2.2.2.2.2.2.1
  all_goals rfl

theorem numLoop_ok {w : Bytes} {real : Bool} (h : Number w real) (p : Nat) {post : Bytes} (hf : Follow post) :
    numLoop (w ++ post) p {} = some (.ok (.prim none (if real then .real else .integer) w, p + w.length - 1)) := by
  obtain ⟨n, e, ok⟩ := number_ok h
  rw [numLoop_fold w {} n p post e (fun c hc => numChar_sep ((number_chars h).1 c hc)) hf, numEnd]
  rw [if_neg, ok.dot, ok.text]
  rcases prev_digit ok.last with h | h <;> simp [h]

/-! ## Literals -/
theorem drop_len {s t post : Bytes} {p : Nat} (h : s.drop p = t ++ post) (ht : t ≠ []) : p + t.length ≤ s.length := by
  have := congrArg List.length h
  simp at this
  have : 0 < t.length := List.length_pos_iff.2 ht
  omega

theorem rd_at {s t post : Bytes} {p i : Nat} (h : s.drop p = t ++ post) (hi : i < t.length) : rd s (p + i) = t[i]? := by
  have h1 : s[p + i]? = t[i]? := by
    rw [← List.getElem?_drop, h, List.getElem?_append_left hi]
  have h2 := drop_len h (List.ne_nil_of_length_pos (by omega))
  rw [rd, List.getElem?_append_left (by omega), h1]

theorem rd_post {s t post : Bytes} {p : Nat} (h : s.drop p = t ++ post) (ht : t ≠ []) : rd s (p + t.length) = some (post.headD 0) := by
  have h2 := drop_len h ht
  have h1 : s[p + t.length]? = post[0]? := by
    rw [← List.getElem?_drop, h, List.getElem?_append_right (Nat.le_refl _)]; simp
  rw [rd]
  cases post with
  | nil =>
    have : s.length ≤ p + t.length := by simpa using h1
    rw [List.getElem?_append_right this]
    simp [show p + t.length - s.length = 0 by omega]
  | cons c r =>
    have hc : s[p + t.length]? = some c := by simpa using h1
    have := (List.getElem?_eq_some_iff.1 hc).1
    rw [List.getElem?_append_left this, hc]; rfl

theorem literalAt_yes {s lit post : Bytes} {p : Nat} (h : s.drop p = lit ++ post) (hl : lit ≠ []) (hf : Follow post) : literalAt s p lit = some true := by
  have h2 := drop_len h hl
  rw [literalAt, if_pos (by omega), if_pos (by rw [h]; simp), rd_post h hl]
  cases post with
  | nil => rfl
  | cons c r => simp [hf c r rfl]

theorem literalAt_no {s lit post : Bytes} {p : Nat} (hp : p ≤ s.length) (h : s.drop p = post) (hl : post.take lit.length ≠ lit) : literalAt s p lit = some false := by
  rw [literalAt, if_pos hp, if_neg (by rw [h]; exact hl)]

/-! ## Values -/

/-- The result for a text `t` at `p`: an element for `d`, the position of the last character of `t`. -/
def Yields (x : P Elem) (p : Nat) (t : Bytes) (d : Doc) : Prop := ∃ e, x = some (.ok (e, p + t.length - 1)) ∧ doc e = d

/-- First and last characters of a value. -/
structure Ends (t : Bytes) : Prop where
  first : ∃ c r, t = c :: r ∧ c ≠ 0 ∧ isWs c = false ∧ c ≠ 44 ∧ c ≠ 93 ∧ c ≠ 58 ∧ c ≠ 125
  last : ∃ r c, t = r ++ [c] ∧ c ≠ 44 ∧ c ≠ 91 ∧ c ≠ 58

theorem value_ends {ok : Bytes → Prop} {t : Bytes} {d : Doc} (h : Value ok t d) : Ends t := by
  have num : ∀ {t : Bytes} {real : Bool}, Number t real → Ends t := by
    intro t real h
    obtain ⟨_, ⟨c, r, h1, h2⟩, ⟨r', c', h3, h4⟩⟩ := number_chars h
    refine ⟨⟨c, r, h1, ?_⟩, ⟨r', c', h3, ?_⟩⟩
    · rcases h2 with rfl | h2
      · decide
      · obtain ⟨a, _, _, _, _, _, _, _, b, _, f, _, _, g, h, i⟩ := dig_facts c h2
        exact ⟨a, g, b, h, f, i⟩
    · obtain ⟨a, _, _, _, _, _, _, _, b, e, f, _⟩ := dig_facts c' h4
      exact ⟨b, e, f⟩
  cases h with
  | null => exact ⟨⟨110, [117, 108, 108], rfl, by decide⟩, ⟨[110, 117, 108], 108, rfl, by decide⟩⟩
  | true => exact ⟨⟨116, [114, 117, 101], rfl, by decide⟩, ⟨[116, 114, 117], 101, rfl, by decide⟩⟩
  | false => exact ⟨⟨102, [97, 108, 115, 101], rfl, by decide⟩, ⟨[102, 97, 108, 115], 101, rfl, by decide⟩⟩
  | integer h => exact num h
  | real h => exact num h
  | @string t s _ _ => exact ⟨⟨34, t ++ [34], rfl, by decide⟩, ⟨[34] ++ t, 34, rfl, by decide⟩⟩
  | @emptyArray t _ => exact ⟨⟨91, t ++ [93], rfl, by decide⟩, ⟨[91] ++ t, 93, rfl, by decide⟩⟩
  | @array t _ _ => exact ⟨⟨91, t ++ [93], rfl, by decide⟩, ⟨[91] ++ t, 93, rfl, by decide⟩⟩
  | @emptyObject t _ => exact ⟨⟨123, t ++ [125], rfl, by decide⟩, ⟨[123] ++ t, 125, rfl, by decide⟩⟩
  | @object t _ _ => exact ⟨⟨123, t ++ [125], rfl, by decide⟩, ⟨[123] ++ t, 125, rfl, by decide⟩⟩

theorem drop_more {s a b : Bytes} {p : Nat} (h : s.drop p = a ++ b) : s.drop (p + a.length) = b := by
  rw [← List.drop_drop, h]; simp

theorem rd_head {s : Bytes} {p : Nat} {c : UInt8} {r : Bytes} (h : s.drop p = c :: r) : rd s p = some c := by
  have := rd_at (t := [c]) (post := r) (i := 0) (by simpa using h) (by simp)
  simpa using this

theorem arr_blank : ∀ (w : Bytes) (f : Nat) {s : Bytes} {p : Nat} (prev : UInt8) (kids : List Elem) {post : Bytes}, Blank w → s.drop p = w ++ post →
    arrLoop (w.length + f) s p prev kids = arrLoop f s (p + w.length) prev kids := by
  intro w
  induction w with
  | nil => intros; simp
  | cons c w ih =>
    intro f s p prev kids post hb hs
    have hw := isWs_of (hb c (by simp))
    have h0 : c ≠ 0 := by rintro rfl; simp [isWs] at hw
    rw [List.length_cons, show w.length + 1 + f = (w.length + f) + 1 by omega, arrLoop, rd_head (by rw [hs]; rfl)]
    simp only [if_neg h0, hw, if_true]
    rw [ih f (p := p + 1) prev kids (fun x hx => hb x (List.mem_cons_of_mem _ hx)) (post := post) (by rw [← List.drop_drop, hs]; simp)]
    congr 1; omega

theorem obj_blank : ∀ (w : Bytes) (f : Nat) {s : Bytes} {p : Nat} (prev : UInt8) (name : Option Bytes) (kids : List Elem) {post : Bytes}, Blank w → s.drop p = w ++ post →
    objLoop (w.length + f) s p prev name kids = objLoop f s (p + w.length) prev name kids := by
  intro w
  induction w with
  | nil => intros; simp
  | cons c w ih =>
    intro f s p prev name kids post hb hs
    have hw := isWs_of (hb c (by simp))
    have h0 : c ≠ 0 := by rintro rfl; simp [isWs] at hw
    rw [List.length_cons, show w.length + 1 + f = (w.length + f) + 1 by omega, objLoop, rd_head (by rw [hs]; rfl)]
    simp only [if_neg h0, hw, if_true]
    rw [ih f (p := p + 1) prev name kids (fun x hx => hb x (List.mem_cons_of_mem _ hx)) (post := post) (by rw [← List.drop_drop, hs]; simp)]
    congr 1; omega

/-- Statement about a value. -/
def ValueOk (t : Bytes) (d : Doc) : Prop :=
  ∀ (s : Bytes) (p : Nat) (post : Bytes) (fuel : Nat) (c : UInt8) (r : Bytes), s.drop p = t ++ post → Follow post → 2 * t.length ≤ fuel → t = c :: r →
    Yields (valueAt fuel s p c) p t d
/-- Statement about the contents of an array. -/
def ItemsOk (t : Bytes) (ds : List Doc) : Prop :=
  ∀ (s : Bytes) (p : Nat) (post : Bytes) (fuel : Nat) (prev : UInt8) (kids : List Elem), s.drop p = t ++ 93 :: post → 2 * t.length + 1 ≤ fuel → (prev = 91 ∨ prev = 44) →
    ∃ es, arrLoop fuel s p prev kids = some (.ok (.cont none .array (kids ++ es), p + t.length)) ∧ docs es = ds
/-- Statement about the contents of an object. -/
def MembersOk (t : Bytes) (ms : List (Bytes × Doc)) : Prop :=
  ∀ (s : Bytes) (p : Nat) (post : Bytes) (fuel : Nat) (prev : UInt8) (kids : List Elem), s.drop p = t ++ 125 :: post → 2 * t.length + 1 ≤ fuel →
    (keys kids).Nodup → ∃ kids', objLoop fuel s p prev none kids = some (.ok (.cont none .object kids', p + t.length)) ∧
      ∀ k, members kids' k = ((ms.reverse.find? fun x => x.1 = k).map Prod.snd).or (members kids k)

theorem follow_cons {c : UInt8} {post : Bytes} (h : isSep c = true) : Follow (c :: post) := by
  intro c' r e; cases e; exact h
theorem follow_blank {b post : Bytes} (hb : Blank b) (h : Follow post) : Follow (b ++ post) := by
  cases b with
  | nil => exact h
  | cons c b => exact follow_cons (by rw [isSep, isWs_of (hb c (by simp))]; rfl)

theorem scalar_value {s : Bytes} {p fuel : Nat} {c : UInt8} (hf : 0 < fuel) (h1 : c ≠ 34) (h2 : c ≠ 91) (h3 : c ≠ 123) : valueAt fuel s p c = scalarAt s p c := by
  cases fuel with
  | zero => omega
  | succ f => rw [valueAt, if_neg h1, if_neg h2, if_neg h3]

theorem ok_number {t : Bytes} {real : Bool} (h : Number t real) : ValueOk t (if real then .real t else .integer t) := by
  intro s p post fuel c r hs hf hfu ht
  obtain ⟨_, ⟨c', r', h1, h2⟩, _⟩ := number_chars h
  have hcc : c' = c := by rw [ht] at h1; cases h1; rfl
  subst hcc
  have hne : c' ≠ 34 ∧ c' ≠ 91 ∧ c' ≠ 123 ∧ (c' = 45 ∨ c' = 48 ∨ isDigit19 c' = true) := by
    rcases h2 with rfl | h2
    · decide
    · obtain ⟨_, _, _, _, _, _, _, i, _, b, _, e, f, _⟩ := dig_facts c' h2
      exact ⟨e, b, f, Or.inr i⟩
  rw [Yields, scalar_value (by rw [ht] at hfu; simp at hfu; omega) hne.1 hne.2.1 hne.2.2.1, scalarAt, if_pos hne.2.2.2, hs, numLoop_ok h p hf]
  exact ⟨_, rfl, by cases real <;> rfl⟩

theorem ok_word {lit : Bytes} {e : Elem} {d : Doc} (hw : ∀ (s : Bytes) (p : Nat) (post : Bytes), s.drop p = lit ++ post → Follow post → wordAt s p = some (.ok (e, p + lit.length - 1)))
    (hd : doc e = d) (h1 : ∀ c r, lit = c :: r → c ≠ 34 ∧ c ≠ 91 ∧ c ≠ 123 ∧ c ≠ 45 ∧ c ≠ 48 ∧ isDigit19 c = false) : ValueOk lit d := by
  intro s p post fuel c r hs hf hfu ht
  obtain ⟨a, b, c', e', f, g⟩ := h1 c r ht
  rw [Yields, scalar_value (by rw [ht] at hfu; simp at hfu; omega) a b c', scalarAt, if_neg (by simp [e', f, g]), hw s p post hs hf]
  exact ⟨e, rfl, hd⟩

theorem ok_true : ValueOk [116, 114, 117, 101] (.bool true) := by
  refine ok_word (e := boolCreate true) ?_ (by simp [doc, boolCreate, litTrue]) (by intro c r h; cases h; decide)
  intro s p post hs hf
  rw [wordAt, literalAt_yes (lit := litTrue) hs (by decide) hf]; rfl
theorem ok_false : ValueOk [102, 97, 108, 115, 101] (.bool false) := by
  refine ok_word (e := boolCreate false) ?_ (by simp [doc, boolCreate, litFalse]) (by intro c r h; cases h; decide)
  intro s p post hs hf
  rw [wordAt, literalAt_no (lit := litTrue) (by have := drop_len hs (by simp); omega) hs (by simp [litTrue]), Option.bind_some, if_neg (by simp),
    literalAt_yes (lit := litFalse) hs (by decide) hf]; rfl
theorem ok_null : ValueOk [110, 117, 108, 108] .null := by
  refine ok_word (e := nullCreate) ?_ (by simp [doc, nullCreate]) (by intro c r h; cases h; decide)
  intro s p post hs hf
  rw [wordAt, literalAt_no (lit := litTrue) (by have := drop_len hs (by simp); omega) hs (by simp [litTrue]), Option.bind_some, if_neg (by simp),
    literalAt_no (lit := litFalse) (by have := drop_len hs (by simp); omega) hs (by simp [litFalse]), Option.bind_some, if_neg (by simp),
    literalAt_yes (lit := litNull) hs (by decide) hf]; rfl

theorem ok_string {t v : Bytes} (h : Chars t v) (hv : NoEscapes v) : ValueOk ([34] ++ t ++ [34]) (.string v) := by
  intro s p post fuel c r hs hf hfu ht
  have hc : c = 34 := by simp at ht; exact ht.1.symm
  subst hc
  cases fuel with
  | zero => simp at hfu
  | succ f =>
    rw [Yields, valueAt, if_pos rfl, stringValueAt, stringAt_ok h hs, andThen, decode_id v hv]
    refine ⟨stringCreate v, ?_, rfl⟩
    simp; omega

theorem ok_emptyArray {w : Bytes} (hb : Blank w) : ValueOk ([91] ++ w ++ [93]) (.array []) := by
  intro s p post fuel c r hs hf hfu ht
  have hc : c = 91 := by simp at ht; exact ht.1.symm
  subst hc
  simp only [List.length_append, List.length_cons, List.length_nil] at hfu
  obtain ⟨f, rfl⟩ : ∃ f, fuel = (w.length + (f + 1)) + 1 := ⟨fuel - w.length - 2, by omega⟩
  have hs1 : s.drop (p + 1) = w ++ 93 :: post := by rw [← List.drop_drop, hs]; simp
  rw [Yields, valueAt, if_neg (by decide), if_pos rfl, arr_blank w (f + 1) 91 [] hb hs1, arrLoop, rd_head (drop_more hs1)]
  refine ⟨.cont none .array [], ?_, rfl⟩
  simp [isWs]; omega

theorem ok_array {t : Bytes} {ds : List Doc} (h : ItemsOk t ds) : ValueOk ([91] ++ t ++ [93]) (.array ds) := by
  intro s p post fuel c r hs hf hfu ht
  have hc : c = 91 := by simp at ht; exact ht.1.symm
  subst hc
  simp only [List.length_append, List.length_cons, List.length_nil] at hfu
  obtain ⟨f, rfl⟩ : ∃ f, fuel = f + 1 := ⟨fuel - 1, by omega⟩
  have hs1 : s.drop (p + 1) = t ++ 93 :: post := by rw [← List.drop_drop, hs]; simp
  rw [Yields, valueAt, if_neg (by decide), if_pos rfl]
  obtain ⟨es, e1, e2⟩ := h s (p + 1) post f 91 [] hs1 (by omega) (Or.inl rfl)
  refine ⟨.cont none .array es, ?_, by rw [doc, e2]⟩
  rw [e1]; simp; omega

theorem ok_emptyObject {w : Bytes} (hb : Blank w) : ValueOk ([123] ++ w ++ [125]) (.object fun _ => none) := by
  intro s p post fuel c r hs hf hfu ht
  have hc : c = 123 := by simp at ht; exact ht.1.symm
  subst hc
  simp only [List.length_append, List.length_cons, List.length_nil] at hfu
  obtain ⟨f, rfl⟩ : ∃ f, fuel = (w.length + (f + 1)) + 1 := ⟨fuel - w.length - 2, by omega⟩
  have hs1 : s.drop (p + 1) = w ++ 125 :: post := by rw [← List.drop_drop, hs]; simp
  rw [Yields, valueAt, if_neg (by decide), if_neg (by decide), if_pos rfl, obj_blank w (f + 1) 123 none [] hb hs1, objLoop, rd_head (drop_more hs1)]
  refine ⟨.cont none .object [], ?_, rfl⟩
  simp [isWs]; omega

theorem ok_object {t : Bytes} {ms : List (Bytes × Doc)} (h : MembersOk t ms) :
    ValueOk ([123] ++ t ++ [125]) (.object fun k => (ms.reverse.find? fun x => x.1 = k).map Prod.snd) := by
  intro s p post fuel c r hs hf hfu ht
  have hc : c = 123 := by simp at ht; exact ht.1.symm
  subst hc
  simp only [List.length_append, List.length_cons, List.length_nil] at hfu
  obtain ⟨f, rfl⟩ : ∃ f, fuel = f + 1 := ⟨fuel - 1, by omega⟩
  have hs1 : s.drop (p + 1) = t ++ 125 :: post := by rw [← List.drop_drop, hs]; simp
  rw [Yields, valueAt, if_neg (by decide), if_neg (by decide), if_pos rfl]
  obtain ⟨es, e1, e2⟩ := h s (p + 1) post f 123 [] hs1 (by omega) List.nodup_nil
  refine ⟨.cont none .object es, ?_, ?_⟩
  · rw [e1]; simp; omega
  · rw [doc]; congr 1; funext k; rw [e2]; simp [members]

/-- One value inside an array, followed by blanks. -/
theorem arr_value {a t b : Bytes} {d : Doc} (ha : Blank a) (hv : ValueOk t d) (he : Ends t) (hb : Blank b) {s : Bytes} {p : Nat} {post : Bytes} {fuel : Nat}
    {prev : UInt8} (kids : List Elem) (hs : s.drop p = a ++ t ++ b ++ post) (hf : Follow post) (hfu : 2 * (a ++ t ++ b).length + 1 ≤ fuel) (hp : prev = 91 ∨ prev = 44) :
    ∃ e f c, arrLoop fuel s p prev kids = arrLoop f s (p + (a ++ t ++ b).length) c (kids ++ [e]) ∧ doc e = d ∧ fuel ≤ f + (a ++ t ++ b).length ∧ c ≠ 44 ∧ c ≠ 91 := by
  obtain ⟨c, r, ht, c1, c2, c3, c4, c5, c6⟩ := he.first
  obtain ⟨r', c', ht', d1, d2, d3⟩ := he.last
  simp only [List.length_append] at hfu
  have hlen : 0 < t.length := by rw [ht]; simp
  obtain ⟨f, rfl⟩ : ∃ f, fuel = a.length + ((b.length + f) + 1) := ⟨fuel - a.length - b.length - 1, by omega⟩
  have hs' : s.drop p = a ++ (t ++ (b ++ post)) := by rw [hs]; simp
  have hs1 : s.drop (p + a.length) = t ++ (b ++ post) := drop_more hs'
  have hs2 : s.drop (p + a.length + t.length) = b ++ post := drop_more hs1
  obtain ⟨e, e1, e2⟩ := hv s (p + a.length) (b ++ post) (b.length + f) c r hs1 (follow_blank hb hf) (by omega) ht
  have hrd : rd s (p + a.length + t.length - 1) = some c' := by
    have := rd_at hs1 (i := t.length - 1) (by omega)
    rw [show p + a.length + (t.length - 1) = p + a.length + t.length - 1 by omega] at this
    rw [this, ht']; simp
  refine ⟨e, f, c', ?_, e2, by simp only [List.length_append]; omega, d1, d2⟩
  rw [arr_blank a _ prev kids ha hs', arrLoop, rd_head (by rw [hs1, ht]; rfl)]
  simp only [if_neg c1, c2, Bool.false_eq_true, if_false, if_neg c3, if_neg c4]
  rw [if_neg (by rcases hp with rfl | rfl <;> simp), e1, andThen, hrd, Option.bind_some,
    show p + a.length + t.length - 1 + 1 = p + a.length + t.length by omega, arr_blank b f c' _ hb hs2]
  simp only [List.length_append]
  congr 1; omega

theorem ok_one {a t b : Bytes} {d : Doc} (ha : Blank a) (hv : ValueOk t d) (he : Ends t) (hb : Blank b) : ItemsOk (a ++ t ++ b) [d] := by
  intro s p post fuel prev kids hs hfu hp
  obtain ⟨e, f, c, e1, e2, e3, _⟩ := arr_value ha hv he hb kids hs (follow_cons rfl) hfu hp
  obtain ⟨f, rfl⟩ : ∃ g, f = g + 1 := ⟨f - 1, by simp only [List.length_append] at *; omega⟩
  refine ⟨[e], ?_, by rw [docs, docs, e2]⟩
  rw [e1, arrLoop, rd_head (drop_more hs)]
  simp [isWs]

theorem ok_more {a t b r : Bytes} {d : Doc} {ds : List Doc} (ha : Blank a) (hv : ValueOk t d) (he : Ends t) (hb : Blank b) (hr : ItemsOk r ds) :
    ItemsOk (a ++ t ++ b ++ [44] ++ r) (d :: ds) := by
  intro s p post fuel prev kids hs hfu hp
  have hs0 : s.drop p = a ++ t ++ b ++ (44 :: (r ++ 93 :: post)) := by rw [hs]; simp
  have hl : (a ++ t ++ b ++ [44] ++ r).length = (a ++ t ++ b).length + 1 + r.length := by simp; omega
  obtain ⟨e, f, c, e1, e2, e3, c1, c2⟩ := arr_value (fuel := fuel) ha hv he hb kids hs0 (follow_cons rfl) (by rw [hl] at hfu; omega) hp
  have hne : 0 < t.length := by obtain ⟨c, r, ht, _⟩ := he.first; rw [ht]; simp
  have : 0 < (a ++ t ++ b).length := by simp; omega
  obtain ⟨f, rfl⟩ : ∃ g, f = g + 1 := ⟨f - 1, by omega⟩
  have hs1 := drop_more hs0
  have hs2 : s.drop (p + (a ++ t ++ b).length + 1) = r ++ 93 :: post := by rw [← List.drop_drop, hs1]; simp
  obtain ⟨es, g1, g2⟩ := hr s _ post f 44 (kids ++ [e]) hs2 (by omega) (Or.inr rfl)
  refine ⟨e :: es, ?_, by rw [docs, e2, g2]⟩
  rw [e1, arrLoop, rd_head hs1]
  simp only [show (44 : UInt8) ≠ 0 by decide, if_false, show isWs 44 = false by rfl, Bool.false_eq_true, if_true]
  rw [if_neg (by simp [c1, c2]), g1, hl]
  simp; omega

/-- One member, followed by blanks. -/
theorem obj_member {a kt k b c t e : Bytes} {d : Doc} (ha : Blank a) (hk : Chars kt k) (hb : Blank b) (hc : Blank c) (hv : ValueOk t d) (he : Ends t) (hee : Blank e)
    {s : Bytes} {p : Nat} {post : Bytes} {fuel : Nat} {prev : UInt8} (kids : List Elem) (w : Bytes) (hw : w = a ++ ([34] ++ kt ++ [34]) ++ b ++ [58] ++ c ++ t ++ e)
    (hs : s.drop p = w ++ post) (hf : Follow post) (hfu : 2 * w.length + 1 ≤ fuel) :
    ∃ x f l, objLoop fuel s p prev none kids = objLoop f s (p + w.length) l none (appendElement kids k x) ∧ doc x = d ∧ fuel ≤ f + w.length ∧ l ≠ 58 ∧ l ≠ 44 := by
  obtain ⟨c0, r, ht, c1, c2, c3, c4, c5, c6⟩ := he.first
  obtain ⟨r', c', ht', d1, d2, d3⟩ := he.last
  have hlen : 0 < t.length := by rw [ht]; simp
  have hwl : w.length = a.length + (kt.length + 2) + b.length + 1 + c.length + t.length + e.length := by rw [hw]; simp; omega
  obtain ⟨f, rfl⟩ : ∃ f, fuel = a.length + ((b.length + ((c.length + ((e.length + f) + 1)) + 1)) + 1) :=
    ⟨fuel - a.length - b.length - c.length - e.length - 3, by omega⟩
  have hs0 : s.drop p = a ++ (([34] ++ kt ++ [34]) ++ (b ++ ([58] ++ (c ++ (t ++ (e ++ post)))))) := by rw [hs, hw]; simp
  have hs1 := drop_more hs0
  have hs2 := drop_more hs1
  have hs3 := drop_more hs2
  have hs4 := drop_more hs3
  have hs5 := drop_more hs4
  have hs6 := drop_more hs5
  have hql : ([34] ++ kt ++ [34] : Bytes).length = kt.length + 2 := by simp
  rw [hql] at hs2 hs3 hs4 hs5 hs6
  simp only [List.length_cons, List.length_nil] at hs4 hs5 hs6
  obtain ⟨x, e1, e2⟩ := hv s _ (e ++ post) (e.length + f) c0 r hs5 (follow_blank hee hf) (by omega) ht
  have hrd : rd s (p + a.length + (kt.length + 2) + b.length + (0 + 1) + c.length + t.length - 1) = some c' := by
    have := rd_at hs5 (i := t.length - 1) (by omega)
    rw [show p + a.length + (kt.length + 2) + b.length + (0 + 1) + c.length + (t.length - 1) = p + a.length + (kt.length + 2) + b.length + (0 + 1) + c.length + t.length - 1 by omega] at this
    rw [this, ht']; simp
  have hstr := stringAt_ok hk hs1
  have hrq : rd s (p + a.length + kt.length + 1) = some 34 := by
    have := rd_at hs1 (i := kt.length + 1) (by simp)
    rw [show p + a.length + (kt.length + 1) = p + a.length + kt.length + 1 by omega] at this
    rw [this]
    rw [show ([34] ++ kt ++ [34] : Bytes) = (34 :: kt) ++ [34] by simp, List.getElem?_append_right (by simp)]; simp
  refine ⟨x, f, c', ?_, e2, by omega, d3, d1⟩
  rw [obj_blank a _ prev none kids ha hs0, objLoop, rd_head (by rw [hs1]; rfl)]
  simp only [show (34 : UInt8) ≠ 0 by decide, if_false, show isWs 34 = false by rfl, Bool.false_eq_true, if_true, show (34 : UInt8) ≠ 58 by decide,
    show (34 : UInt8) ≠ 44 by decide, show (34 : UInt8) ≠ 125 by decide]
  rw [hstr, andThen, hrq, Option.bind_some, show p + a.length + kt.length + 1 + 1 = p + a.length + (kt.length + 2) by omega,
    obj_blank b _ 34 (some k) kids hb hs2, objLoop, rd_head (by rw [hs3]; rfl)]
  simp only [show (58 : UInt8) ≠ 0 by decide, if_false, show isWs 58 = false by rfl, Bool.false_eq_true, if_true]
  rw [if_neg (by simp), show p + a.length + (kt.length + 2) + b.length + 1 = p + a.length + (kt.length + 2) + b.length + (0 + 1) by omega,
    obj_blank c _ 58 (some k) kids hc hs4, objLoop, rd_head (by rw [hs5, ht]; rfl)]
  simp only [if_neg c1, c2, Bool.false_eq_true, if_false, if_neg c5, if_neg c3, if_neg c6]
  rw [e1, andThen, hrd, Option.bind_some,
    show p + a.length + (kt.length + 2) + b.length + (0 + 1) + c.length + t.length - 1 + 1 = p + a.length + (kt.length + 2) + b.length + (0 + 1) + c.length + t.length by omega,
    obj_blank e f c' none _ hee hs6]
  congr 1; omega

theorem ok_oneMember {a kt k b c t e : Bytes} {d : Doc} (ha : Blank a) (hk : Chars kt k) (hb : Blank b) (hc : Blank c) (hv : ValueOk t d) (he : Ends t) (hee : Blank e) :
    MembersOk (a ++ ([34] ++ kt ++ [34]) ++ b ++ [58] ++ c ++ t ++ e) [(k, d)] := by
  intro s p post fuel prev kids hs hfu hn
  obtain ⟨x, f, l, e1, e2, e3, _⟩ := obj_member ha hk hb hc hv he hee kids (prev := prev) _ rfl hs (follow_cons rfl) hfu
  obtain ⟨f, rfl⟩ : ∃ g, f = g + 1 := ⟨f - 1, by omega⟩
  refine ⟨appendElement kids k x, ?_, ?_⟩
  · rw [e1, objLoop, rd_head (drop_more hs)]
    simp [isWs]
  · intro k'
    rw [members_append k x hn, e2]
    by_cases h : k' = k
    · subst h; simp
    · rw [if_neg h]; simp [Ne.symm h]

theorem ok_moreMembers {a kt k b c t e r : Bytes} {d : Doc} {ms : List (Bytes × Doc)} (ha : Blank a) (hk : Chars kt k) (hb : Blank b) (hc : Blank c) (hv : ValueOk t d)
    (he : Ends t) (hee : Blank e) (hr : MembersOk r ms) : MembersOk (a ++ ([34] ++ kt ++ [34]) ++ b ++ [58] ++ c ++ t ++ e ++ [44] ++ r) ((k, d) :: ms) := by
  intro s p post fuel prev kids hs hfu hn
  generalize hw : a ++ ([34] ++ kt ++ [34]) ++ b ++ [58] ++ c ++ t ++ e = w at hs hfu ⊢
  have hs0 : s.drop p = w ++ (44 :: (r ++ 125 :: post)) := by rw [hs]; simp
  have hl : (w ++ [44] ++ r).length = w.length + 1 + r.length := by simp; omega
  obtain ⟨x, f, l, e1, e2, e3, l1, l2⟩ := obj_member (fuel := fuel) ha hk hb hc hv he hee kids (prev := prev) w hw.symm hs0 (follow_cons rfl) (by rw [hl] at hfu; omega)
  obtain ⟨f, rfl⟩ : ∃ g, f = g + 1 := ⟨f - 1, by omega⟩
  have hs1 := drop_more hs0
  have hs2 : s.drop (p + w.length + 1) = r ++ 125 :: post := by rw [← List.drop_drop, hs1]; simp
  have hwl : 0 < w.length := by rw [← hw]; simp; omega
  obtain ⟨kids', g1, g2⟩ := hr s _ post f 44 (appendElement kids k x) hs2 (by omega) (nodup_append k x hn)
  refine ⟨kids', ?_, ?_⟩
  · rw [e1, objLoop, rd_head hs1]
    simp only [show (44 : UInt8) ≠ 0 by decide, if_false, show isWs 44 = false by rfl, Bool.false_eq_true, if_true, show (44 : UInt8) ≠ 58 by decide]
    rw [if_neg (by simp [l1, l2]), g1, hl]
    simp; omega
  · intro k'
    rw [g2, members_append k x hn, e2, List.reverse_cons, List.find?_append]
    cases hf : ms.reverse.find? fun x => x.1 = k' with
    | some y => simp
    | none =>
      by_cases h : k' = k
      · subst h; simp
      · simp [h, Ne.symm h]

theorem value_ok {ok : Bytes → Prop} (hok : ∀ v, ok v → NoEscapes v) {t : Bytes} {d : Doc} (h : Value ok t d) : ValueOk t d :=
  Value.rec (motive_1 := fun t d _ => ValueOk t d) (motive_2 := fun t ds _ => ItemsOk t ds) (motive_3 := fun t ms _ => MembersOk t ms)
    ok_null ok_true ok_false (fun h => ok_number h) (fun h => ok_number h) (fun h hv => ok_string h (hok _ hv)) (fun h => ok_emptyArray h) (fun _ h => ok_array h)
    (fun h => ok_emptyObject h) (fun _ h => ok_object h)
    (fun ha hv hb ih => ok_one ha ih (value_ends hv) hb) (fun ha hv hb _ ih ihr => ok_more ha ih (value_ends hv) hb ihr)
    (fun ha hk hb hc hv he ih => ok_oneMember ha hk hb hc ih (value_ends hv) he)
    (fun ha hk hb hc hv he _ ih ihr => ok_moreMembers ha hk hb hc ih (value_ends hv) he ihr) h

theorem parse_blank : ∀ (w : Bytes) {s post : Bytes} {p : Nat}, Blank w → parseLoop s (w ++ post) p = parseLoop s post (p + w.length) := by
  intro w
  induction w with
  | nil => intros; rfl
  | cons c w ih =>
    intro s post p hb
    have hw := isWs_of (hb c (by simp))
    have h1 : ¬ (c = 123 ∨ c = 91) := by rintro (rfl | rfl) <;> simp [isWs] at hw
    rw [List.cons_append, parseLoop, if_neg h1, if_pos hw, ih (fun x hx => hb x (List.mem_cons_of_mem _ hx))]
    simp only [List.length_cons]; congr 1; omega

theorem parse_text {ok : Bytes → Prop} (hok : ∀ v, ok v → NoEscapes v) {t : Bytes} {d : Doc} (h : Text ok t d) : ∃ e q, parse t = some (.ok (e, q)) ∧ doc e = d := by
  obtain ⟨a, v, b, rfl, ha, hv, hb⟩ := h
  obtain ⟨c, r, hc, c1, c2, _⟩ := (value_ends hv).first
  have hs : (a ++ v ++ b).drop (0 + a.length) = v ++ b := drop_more (by simp)
  obtain ⟨e, e1, e2⟩ := value_ok hok hv (a ++ v ++ b) (0 + a.length) b (2 * (a ++ v ++ b).length + 1) c r hs (by simpa using follow_blank hb (post := []) (by intro c r h; cases h))
    (by simp; omega) hc
  refine ⟨e, 0 + a.length + v.length - 1, ?_, e2⟩
  rw [parse]
  conv => lhs; arg 2; rw [List.append_assoc]
  rw [parse_blank a ha]
  rw [hc] at *
  rw [List.cons_append, parseLoop]
  split
  · exact e1
  · rw [if_neg (by simp [c2]), e1]
end Json

/-- C72, partial: every JSON text of RFC 8259 (with blanks anywhere the grammar allows, duplicate keys, all number forms, all escapes but `\u`) is accepted and
gives an element for the document it denotes, provided no string value contains a backslash followed by one of `" \ b f n r t`. Missing: other string values
(next theorem) and `\u`. -/
theorem C72_rfc_text_accepted_partial (t : Bytes) (d : Doc) (h : Text NoEscapes t d) : ∃ e q, Json.parse t = some (.ok (e, q)) ∧ doc e = d :=
  Json.parse_text (fun _ h => h) h

/-- C72 fails for other strings: the text `"\\n"` denotes the two characters `\n`; the parser unescapes twice and gives a newline. -/
theorem C72_strings_unescaped_twice :
    Text (fun _ => True) [34, 92, 92, 110, 34] (.string [92, 110]) ∧ Json.parse [34, 92, 92, 110, 34] = some (.ok (stringCreate [10], 4)) := by
  refine ⟨⟨[], [34, 92, 92, 110, 34], [], rfl, by simp [Blank], ?_, by simp [Blank]⟩, rfl⟩
  exact .string (t := [92, 92, 110]) (.escape (c := 92) (by decide) (.plain (by decide) (by decide) (by decide) .nil)) trivial

/-- The parser also accepts texts outside the grammar: `[1 2]`, `[1,]`, `{"a" 1}`, `-01`, `1e5.3`, `1 x` (trailing data are ignored). -/
theorem C72_malformed_accepted :
    (∃ e q, Json.parse [91, 49, 32, 50, 93] = some (.ok (e, q)) ∧ doc e = .array [.integer [49], .integer [50]]) ∧
    (∃ e q, Json.parse [91, 49, 44, 93] = some (.ok (e, q)) ∧ doc e = .array [.integer [49]]) ∧
    (∃ e q, Json.parse [123, 34, 97, 34, 32, 49, 125] = some (.ok (e, q))) ∧
    (∃ e q, Json.parse [45, 48, 49] = some (.ok (e, q)) ∧ doc e = .integer [45, 48, 49]) ∧
    (∃ e q, Json.parse [49, 101, 53, 46, 51] = some (.ok (e, q)) ∧ doc e = .real [49, 101, 53, 46, 51]) ∧
    (∃ e q, Json.parse [49, 32, 120] = some (.ok (e, q)) ∧ doc e = .integer [49]) :=
  ⟨⟨_, _, rfl, rfl⟩, ⟨_, _, rfl, rfl⟩, ⟨_, _, rfl⟩, ⟨_, _, rfl, rfl⟩, ⟨_, _, rfl, rfl⟩, ⟨_, _, rfl, rfl⟩⟩

example : Text NoEscapes [32, 91, 49, 44, 32, 34, 92, 110, 34, 93] (.array [.integer [49], .string [10]]) := by
  refine ⟨[32], [91, 49, 44, 32, 34, 92, 110, 34, 93], [], rfl, by simp [Blank], ?_, by simp [Blank]⟩
  refine .array (t := [49, 44, 32, 34, 92, 110, 34]) (.more (a := []) (t := [49]) (b := []) (r := [32, 34, 92, 110, 34]) (by simp [Blank]) (.integer ?_) (by simp [Blank])
    (.one (a := [32]) (t := [34, 92, 110, 34]) (b := []) (by simp [Blank]) (.string (t := [92, 110]) (.escape (by decide) .nil) ?_) (by simp [Blank])))
  · exact ⟨[49], [], rfl, ⟨[], [49], [], rfl, Or.inl rfl, Or.inr ⟨49, [], rfl, by decide, by decide, by simp⟩, rfl⟩, Or.inl rfl⟩
  · intro a d b h
    have := congrArg List.length h
    simp at this; omega
