import Verif.Model.StrEdit
import Verif.Props.StrCopy
/-! # C41 (tokens and string arrays) -/
open StrSpec CMem TokenSpec

namespace Str

theorem pieces_ne (sep : UInt8 → Bool) (s : List UInt8) : pieces sep s ≠ [] := by
  cases s with
  | nil => simp [pieces]
  | cons c s => simp only [pieces]; split; simp; split <;> simp

theorem pieces_append (sep : UInt8 → Bool) (a b : List UInt8) (ha : ∀ c ∈ a, sep c = false) (hb : b = [] ∨ ∃ c b', b = c :: b' ∧ sep c = true) :
    pieces sep (a ++ b) = a :: (match b with | [] => [] | _ :: b' => pieces sep b') := by
  induction a with
  | nil =>
    rcases hb with rfl | ⟨c, b', rfl, hc⟩
    · simp [pieces]
    · simp [pieces, hc]
  | cons c a ih =>
    have hc := ha c (by simp)
    simp only [List.cons_append, pieces, hc, Bool.false_eq_true, if_false]
    rw [ih (fun x hx => ha x (by simp [hx]))]

theorem tokens_sep (sep : UInt8 → Bool) (c : UInt8) (s : List UInt8) (hc : sep c = true) : tokens sep (c :: s) = tokens sep s := by
  simp [tokens, pieces, hc]

theorem tokens_seps (sep : UInt8 → Bool) (a s : List UInt8) (ha : ∀ c ∈ a, sep c = true) : tokens sep (a ++ s) = tokens sep s := by
  induction a with
  | nil => rfl
  | cons c a ih => rw [List.cons_append, tokens_sep sep c _ (ha c (by simp)), ih (fun x hx => ha x (by simp [hx]))]

theorem tokens_nil (sep : UInt8 → Bool) : tokens sep [] = [] := by simp [tokens, pieces]

theorem tokens_token (sep : UInt8 → Bool) (a b : List UInt8) (hne : a ≠ []) (ha : ∀ c ∈ a, sep c = false)
    (hb : b = [] ∨ ∃ c b', b = c :: b' ∧ sep c = true) : tokens sep (a ++ b) = a :: tokens sep b := by
  rw [tokens, pieces_append sep a b ha hb]
  rcases hb with rfl | ⟨c, b', rfl, hc⟩
  · simp [hne, tokens_nil]
  · rw [tokens_sep sep c b' hc]; simp [hne, tokens]

/-- Every text is separators, then nothing, or a token followed by nothing or a separator. -/
theorem shape (sep : UInt8 → Bool) (s : List UInt8) : ∃ pre tok post, s = pre ++ tok ++ post ∧ (∀ c ∈ pre, sep c = true) ∧ (∀ c ∈ tok, sep c = false) ∧
    (post = [] ∨ ∃ c p, post = c :: p ∧ sep c = true) ∧ (tok = [] → post = []) := by
  induction s with
  | nil => exact ⟨[], [], [], rfl, by simp, by simp, Or.inl rfl, fun _ => rfl⟩
  | cons c s ih =>
    obtain ⟨pre, tok, post, rfl, h1, h2, h3, h4⟩ := ih
    by_cases hc : sep c = true
    · exact ⟨c :: pre, tok, post, by simp, by simp [hc]; exact h1, h2, h3, h4⟩
    · simp only [Bool.not_eq_true] at hc
      cases pre with
      | nil =>
        exact ⟨[], c :: tok, post, by simp, by simp, by simp [hc]; exact h2, h3, by simp⟩
      | cons d pre =>
        exact ⟨[], [c], d :: pre ++ tok ++ post, by simp, by simp, by simp [hc], Or.inr ⟨d, pre ++ tok ++ post, by simp, h1 d (by simp)⟩, by simp⟩

theorem nextLoop_pre (seps : List UInt8) : ∀ (pre s : List UInt8) (i : Nat), (∀ c ∈ pre, isSep seps c = true) →
    nextLoop seps (pre ++ s) i none = nextLoop seps s (i + pre.length) none := by
  intro pre
  induction pre with
  | nil => intro s i _; rfl
  | cons c pre ih =>
    intro s i h
    simp only [List.cons_append, nextLoop, h c (by simp), if_true]
    rw [ih s (i + 1) (fun x hx => h x (by simp [hx]))]
    simp only [List.length_cons]; congr 1; omega

theorem nextLoop_tok (seps : List UInt8) : ∀ (tok post : List UInt8) (i st : Nat), (∀ c ∈ tok, isSep seps c = false) →
    (post = [] ∨ ∃ c p, post = c :: p ∧ isSep seps c = true) → nextLoop seps (tok ++ post) i (some st) = some (st, i + tok.length - st) := by
  intro tok
  induction tok with
  | nil =>
    intro post i st _ hp
    rcases hp with rfl | ⟨c, p, rfl, hc⟩
    · simp [nextLoop]
    · simp [nextLoop, hc]
  | cons c tok ih =>
    intro post i st h hp
    simp only [List.cons_append, nextLoop, h c (by simp), Bool.false_eq_true, if_false]
    rw [ih post (i + 1) st (fun x hx => h x (by simp [hx])) hp]
    simp only [List.length_cons]; congr 2; omega

theorem nextToken_ok (seps pre tok post : List UInt8) (h1 : ∀ c ∈ pre, isSep seps c = true) (h2 : ∀ c ∈ tok, isSep seps c = false)
    (h3 : post = [] ∨ ∃ c p, post = c :: p ∧ isSep seps c = true) (h4 : tok = [] → post = []) :
    nextToken (pre ++ tok ++ post) seps = if tok = [] then none else some (pre.length, tok.length) := by
  unfold nextToken
  rw [List.append_assoc, nextLoop_pre seps pre _ 0 h1]
  cases tok with
  | nil => rw [h4 rfl]; simp [nextLoop]
  | cons c tok =>
    simp only [List.cons_append, nextLoop, h2 c (by simp), Bool.false_eq_true, if_false]
    rw [nextLoop_tok seps tok post _ _ (fun x hx => h2 x (by simp [hx])) h3]
    simp; omega

theorem getTokenLoop_ok (seps : List UInt8) : ∀ (index : Nat) (str : List UInt8) (off : Nat),
    match getTokenLoop seps str off (nextToken str seps) index with
    | none => (tokens (isSep seps) str).length ≤ index
    | some (d, l) => off ≤ d ∧ (d - off) + l ≤ str.length ∧ (tokens (isSep seps) str)[index]? = some ((str.drop (d - off)).take l) := by
  intro index
  induction index with
  | zero =>
    intro str off
    obtain ⟨pre, tok, post, hs, h1, h2, h3, h4⟩ := shape (isSep seps) str
    rw [hs, nextToken_ok seps pre tok post h1 h2 h3 h4]
    have htok : tokens (isSep seps) (pre ++ tok ++ post) = if tok = [] then [] else tok :: tokens (isSep seps) post := by
      rw [List.append_assoc, tokens_seps _ _ _ h1]
      split
      · rename_i h; rw [h, h4 h]; exact tokens_nil _
      · rename_i h; exact tokens_token _ _ _ h h2 h3
    by_cases ht : tok = []
    · simp only [if_pos ht, getTokenLoop, Option.map_none]
      rw [htok, if_pos ht]; simp
    · simp only [if_neg ht, getTokenLoop, Option.map_some]
      rw [htok, if_neg ht]
      simp only [Nat.add_sub_cancel_left]
      refine ⟨by omega, by simp, ?_⟩
      simp
  | succ index ih =>
    intro str off
    obtain ⟨pre, tok, post, hs, h1, h2, h3, h4⟩ := shape (isSep seps) str
    have hnt := nextToken_ok seps pre tok post h1 h2 h3 h4
    rw [← hs] at hnt
    have htok : tokens (isSep seps) str = if tok = [] then [] else tok :: tokens (isSep seps) post := by
      rw [hs, List.append_assoc, tokens_seps _ _ _ h1]
      split
      · rename_i h; rw [h, h4 h]; exact tokens_nil _
      · rename_i h; exact tokens_token _ _ _ h h2 h3
    rw [hnt]
    by_cases ht : tok = []
    · simp [getTokenLoop, ht, htok]
    · simp only [if_neg ht, getTokenLoop]
      have hd : str.drop (pre.length + tok.length) = post := by
        rw [hs, List.drop_left' (by simp)]
      rw [hd, htok, if_neg ht]
      have := ih post (off + pre.length + tok.length)
      cases hg : getTokenLoop seps post (off + pre.length + tok.length) (nextToken post seps) index with
      | none => rw [hg] at this; simp only [List.length_cons] at this ⊢; omega
      | some x =>
        obtain ⟨d, l⟩ := x
        rw [hg] at this
        obtain ⟨a1, a2, a3⟩ := this
        have hl : str.length = pre.length + tok.length + post.length := by rw [hs]; simp; omega
        refine ⟨by omega, by omega, ?_⟩
        rw [List.getElem?_cons_succ, a3]
        congr 2
        rw [← hd, List.drop_drop]; congr 1; omega

/-- Does the text start inside a token? -/
def startsTok (seps : List UInt8) : List UInt8 → Bool
  | [] => false
  | c :: _ => !isSep seps c

theorem tokens_cons (seps : List UInt8) (c : UInt8) (s : List UInt8) (hc : isSep seps c = false) :
    (tokens (isSep seps) (c :: s)).length = (tokens (isSep seps) s).length + (if startsTok seps s then 0 else 1) ∧
      (startsTok seps s = true → 0 < (tokens (isSep seps) s).length) := by
  obtain ⟨pre, tok, post, hs, h1, h2, h3, h4⟩ := shape (isSep seps) s
  cases pre with
  | nil =>
    have hh : tokens (isSep seps) (c :: s) = (c :: tok) :: tokens (isSep seps) post := by
      rw [hs]
      have := tokens_token (isSep seps) (c :: tok) post (by simp) (by simp [hc]; exact h2) h3
      simpa using this
    cases tok with
    | nil =>
      have : s = [] := by rw [hs, h4 rfl]; rfl
      subst this
      rw [hh, h4 rfl]; simp [tokens_nil, startsTok]
    | cons d tok =>
      have h5 := tokens_token (isSep seps) (d :: tok) post (by simp) h2 h3
      have h6 : startsTok seps s = true := by rw [hs]; simp [startsTok, h2 d (by simp)]
      rw [hh, h6, hs]
      simp only [List.nil_append]
      rw [h5]
      exact ⟨by simp, fun _ => by simp⟩
  | cons d pre =>
    have h6 : startsTok seps s = false := by rw [hs]; simp [startsTok, h1 d (by simp)]
    have hh := tokens_token (isSep seps) [c] s (by simp) (by simp [hc]) (Or.inr ⟨d, pre ++ tok ++ post, by rw [hs]; simp, h1 d (by simp)⟩)
    simp only [List.singleton_append] at hh
    rw [hh, h6]
    exact ⟨by simp, fun h => by cases h⟩

theorem countLoop_ok (seps : List UInt8) : ∀ (s : List UInt8) (n : Nat) (b : Bool),
    countLoop seps s n b = n + (tokens (isSep seps) s).length - (if b && startsTok seps s then 1 else 0) := by
  intro s
  induction s with
  | nil => intro n b; simp [countLoop, tokens_nil, startsTok]
  | cons c s ih =>
    intro n b
    simp only [countLoop]
    by_cases hc : isSep seps c = true
    · rw [if_pos hc, ih, tokens_sep _ _ _ hc]
      simp [hc, startsTok]
    · simp only [Bool.not_eq_true] at hc
      simp only [hc, Bool.false_eq_true, if_false]
      rw [ih]
      have key := tokens_cons seps c s hc
      rw [key.1]
      have hst : startsTok seps (c :: s) = true := by simp [startsTok, hc]
      rw [hst]
      cases hs : startsTok seps s with
      | true =>
        have := key.2 hs
        cases b <;> simp <;> omega
      | false => cases b <;> simp <;> omega

end Str

/-- C41. `StringCountTokens` counts the tokens (NUL bytes count as separators). -/
theorem C41_countTokens (str seps : List UInt8) : Str.countTokens str seps = (tokens (fun c => c == 0 || seps.contains c) str).length := by
  have := Str.countLoop_ok seps str 0 false
  simp only [Bool.false_and, Bool.false_eq_true, if_false, Nat.zero_add, Nat.sub_zero] at this
  exact this

/-- C41. `StringGetToken(str, len, i, seps)` for `i` below the token count is a reference into the string to exactly the `i`-th token. -/
theorem C41_getToken (str seps : List UInt8) (i : Nat) (h : i < Str.countTokens str seps) :
    ∃ off len, Str.getToken str i seps = some (off, len) ∧ off + len ≤ str.length ∧
      (tokens (fun c => c == 0 || seps.contains c) str)[i]? = some ((str.drop off).take len) := by
  rw [C41_countTokens] at h
  have := Str.getTokenLoop_ok seps i str 0
  cases hg : Str.getTokenLoop seps str 0 (Str.nextToken str seps) i with
  | none => rw [hg] at this; exact absurd this (Nat.not_le.2 h)
  | some x =>
    obtain ⟨d, l⟩ := x
    rw [hg] at this
    exact ⟨d, l, hg, by simpa using this.2.1, this.2.2⟩

/-- C41. From the token count on it is the NULL reference. -/
theorem C41_getToken_null (str seps : List UInt8) (i : Nat) (h : Str.countTokens str seps ≤ i) : Str.getToken str i seps = none := by
  rw [C41_countTokens] at h
  have := Str.getTokenLoop_ok seps i str 0
  cases hg : Str.getTokenLoop seps str 0 (Str.nextToken str seps) i with
  | none => exact hg
  | some x =>
    obtain ⟨d, l⟩ := x
    rw [hg] at this
    have h2 := this.2.2
    have h3 := List.getElem?_eq_some_iff.1 h2
    obtain ⟨h4, _⟩ := h3
    exact absurd h4 (Nat.not_lt.2 h)

example : Str.countTokens [32, 97, 98, 32, 32, 99] [32] = 2 ∧ Str.getToken [32, 97, 98, 32, 32, 99] 1 [32] = some (5, 1) ∧
    tokens (fun c => c == 0 || [(32 : UInt8)].contains c) [32, 97, 98, 32, 32, 99] = [[97, 98], [99]] := by decide

namespace Str

theorem pieces_length (sep : UInt8) (s : List UInt8) : (pieces (· == sep) s).length = (s.filter (· == sep)).length + 1 := by
  induction s with
  | nil => rfl
  | cons c s ih =>
    simp only [pieces]
    by_cases hc : (c == sep) = true
    · simp [hc, ih]
    · simp only [Bool.not_eq_true] at hc
      simp only [hc, Bool.false_eq_true, if_false, List.filter_cons]
      cases hp : pieces (· == sep) s with
      | nil => exact absurd hp (pieces_ne _ _)
      | cons p ps => rw [hp] at ih; simpa using ih

theorem arrayLoop_ok (sep : UInt8) : ∀ (fuel : Nat) (sp : List UInt8) (done : List (Option (List (Option UInt8)))) (k : Nat),
    sp.length < fuel → (pieces (· == sep) sp).length ≤ k →
    arrayLoop sep (done ++ List.replicate k none) done.length sp fuel
      = some (done ++ (pieces (· == sep) sp).map (fun p => some ((p ++ [0]).map some)) ++ List.replicate (k - (pieces (· == sep) sp).length) none) := by
  intro fuel
  induction fuel with
  | zero => intro sp done k h; omega
  | succ fuel ih =>
    intro sp done k hf hk
    have hblk : ∀ len, len ≤ sp.length → store (List.replicate (len + 1) (some (0 : UInt8))) 0 (sp.take len) = some ((sp.take len ++ [0]).map some) := by
      intro len hl
      rw [store_eq (by simp; omega)]
      simp only [List.take_zero, List.nil_append, List.drop_replicate, List.map_append]
      congr 2
      rw [show len + 1 - (0 + (sp.take len).length) = 1 by simp; omega]; rfl
    obtain ⟨k, rfl⟩ : ∃ k', k = k' + 1 := ⟨k - 1, by have := List.length_pos_iff.2 (pieces_ne (· == sep) sp); omega⟩
    have hset : ∀ v, (done ++ List.replicate (k + 1) none).set done.length v = (done ++ [v]) ++ List.replicate k none := by
      intro v
      rw [List.set_append_right _ _ (by omega)]
      simp [List.replicate_succ]
    have hlt : done.length < (done ++ List.replicate (k + 1) (none : Option (List (Option UInt8)))).length := by simp
    simp only [arrayLoop]
    cases hsc : strchr sp sep with
    | none =>
      have hn := List.findIdx?_eq_none_iff.1 hsc
      have hp : pieces (· == sep) sp = [sp] := by
        have := pieces_append (· == sep) sp [] (fun c hc => by simpa using hn c hc) (Or.inl rfl)
        simpa using this
      rw [hp] at hk ⊢
      simp only [hblk sp.length (Nat.le_refl _), Option.bind_some]
      rw [if_pos hlt, hset]
      simp
    | some e =>
      obtain ⟨he, hce, hpre⟩ := List.findIdx?_eq_some_iff_getElem.1 hsc
      have hsplit : sp = sp.take e ++ sp[e] :: sp.drop (e + 1) := by
        rw [← List.drop_eq_getElem_cons he, List.take_append_drop]
      have hp : pieces (· == sep) sp = sp.take e :: pieces (· == sep) (sp.drop (e + 1)) := by
        have := pieces_append (· == sep) (sp.take e) (sp[e] :: sp.drop (e + 1)) (by
          intro c hc
          obtain ⟨j, hj, rfl⟩ := List.getElem_of_mem hc
          have := hpre j (by simp at hj; omega)
          rw [List.getElem_take]; simpa using this) (Or.inr ⟨_, _, rfl, hce⟩)
        rw [← hsplit] at this
        exact this
      rw [hp] at hk ⊢
      simp only [List.length_cons] at hk
      simp only [hblk e (by omega), Option.bind_some]
      rw [if_pos hlt, hset]
      have := ih (sp.drop (e + 1)) (done ++ [some ((sp.take e ++ [0]).map some)]) k (by simp; omega) (by omega)
      rw [show (done ++ [some ((sp.take e ++ [(0 : UInt8)]).map some)]).length = done.length + 1 by simp] at this
      rw [this]
      simp

end Str

/-- C41. `String2StringArray(str, sep)`: a NULL-terminated array of exactly the pieces of the text cut at each separator, each its own block. -/
theorem C41_string2StringArray (str : List UInt8) (sep : UInt8) (hs : sep ≠ 0) (h0 : 0 ∉ str) :
    Str.string2StringArray str sep = some ((pieces (· == sep) str).map (fun p => some (p.map some ++ [some 0])) ++ [none]) := by
  have hl := Str.pieces_length sep str
  have := Str.arrayLoop_ok sep (str.length + 2) str [] ((str.filter (· == sep)).length + 2) (by omega) (by omega)
  rw [hl, show (str.filter (· == sep)).length + 2 - ((str.filter (· == sep)).length + 1) = 1 by omega] at this
  simpa [Str.string2StringArray] using this

example : Str.string2StringArray [97, 44, 44, 98] 44 = some [some [some 97, some 0], some [some 0], some [some 98, some 0], none] := by decide

namespace Str
theorem freeArrayLoop_ok {α : Type} (bs : List α) : ∀ (done : List (Option α)) (rest : List (Option α)) (fuel : Nat), bs.length < fuel →
    freeArrayLoop (done ++ bs.map some ++ none :: rest) done.length fuel = some bs := by
  induction bs with
  | nil =>
    intro done rest fuel hf
    obtain ⟨k, rfl⟩ : ∃ k, fuel = k + 1 := ⟨fuel - 1, by omega⟩
    simp [freeArrayLoop, CMem.read]
  | cons b bs ih =>
    intro done rest fuel hf
    obtain ⟨k, rfl⟩ : ∃ k, fuel = k + 1 := ⟨fuel - 1, by omega⟩
    have h1 : CMem.read (done ++ (b :: bs).map some ++ none :: rest) done.length = some (some b) := by simp [CMem.read]
    have h2 : CMem.write (done ++ (b :: bs).map some ++ none :: rest) done.length none = some ((done ++ [none]) ++ bs.map some ++ none :: rest) := by
      rw [CMem.write_eq (by simp)]
      simp
    have := ih (done ++ [none]) rest k (by simp at hf; omega)
    rw [List.length_append, List.length_singleton] at this
    rw [freeArrayLoop, h1, Option.bind_some]
    simp only
    rw [h2, Option.bind_some, this]
    rfl
end Str

/-- C41. `FreeStringArray` of any NULL-terminated array frees each of its strings exactly once, in order, and reads nothing behind the NULL; NULL is accepted. -/
theorem C41_freeStringArray {α : Type} (bs : List α) (rest : List (Option α)) : Str.freeStringArray (some (bs.map some ++ none :: rest)) = some bs ∧ Str.freeStringArray (α := α) none = some [] := by
  refine ⟨?_, rfl⟩
  have := Str.freeArrayLoop_ok bs [] rest ((bs.map some ++ none :: rest).length + 1) (by simp; omega)
  simpa [Str.freeStringArray] using this

/-- C41. So nothing is left of what `String2StringArray` allocated. -/
theorem C41_array_freed (str : List UInt8) (sep : UInt8) (hs : sep ≠ 0) (h0 : 0 ∉ str) :
    ∃ arr blocks, Str.string2StringArray str sep = some arr ∧ Str.freeStringArray (some arr) = some blocks ∧ arr = blocks.map some ++ [none] := by
  refine ⟨_, (pieces (· == sep) str).map (fun p => p.map some ++ [some 0]), C41_string2StringArray str sep hs h0, ?_, ?_⟩
  · have := (C41_freeStringArray ((pieces (· == sep) str).map (fun p => p.map some ++ [some (0 : UInt8)])) []).1
    simpa [List.map_map, Function.comp_def] using this
  · simp

/-- An array without NULL is read outside. -/
example : Str.freeStringArray (some [some 1, some 2]) = none ∧ Str.freeStringArray (some [some 1, some 2, none, some 3]) = some [1, 2] := by decide
