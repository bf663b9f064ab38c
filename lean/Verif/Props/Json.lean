import Verif.Spec.Json
import Verif.Props.StrNum
import Verif.Props.StrCompare
/-! # JSON: strings, objects, comparison, copy and merge -/
open JsonSpec Json

namespace Json

/-! ## Strings -/

theorem decode_plain {c : UInt8} (h : c ≠ 92) (s : Bytes) : decode (c :: s) = c :: decode s := by
  cases s with
  | nil => simp [decode]
  | cons d s => rw [decode.eq_3, if_neg h]
theorem decode_escape {d x : UInt8} (h : decodeEscape d = some x) (s : Bytes) : decode (92 :: d :: s) = x :: decode s := by
  rw [decode.eq_3, if_pos rfl, h]
theorem encodeChar_cases (c : UInt8) : (encodeChar c = [c] ∧ c ≠ 92 ∧ c ≠ 34) ∨ ∃ d, encodeChar c = [92, d] ∧ decodeEscape d = some c ∧ (d, c) ∈ escapeOf ∧ d ≠ 0 := by
  have := Str.byte_all (P := fun c => (encodeChar c = [c] ∧ c ≠ 92 ∧ c ≠ 34) ∨ ∃ k : Fin 256, encodeChar c = [92, UInt8.ofNat k.val] ∧
    decodeEscape (UInt8.ofNat k.val) = some c ∧ (UInt8.ofNat k.val, c) ∈ escapeOf ∧ UInt8.ofNat k.val ≠ 0) (by
      intro k
      by_cases h : encodeChar (UInt8.ofNat k.val) = [UInt8.ofNat k.val] ∧ UInt8.ofNat k.val ≠ 92 ∧ UInt8.ofNat k.val ≠ 34
      · exact Or.inl h
      · refine Or.inr ?_
        rw [encodeChar] at h
        revert h
        generalize UInt8.ofNat k.val = c
        intro h
        split at h
        · rename_i h1; rcases h1 with rfl | rfl
          · exact ⟨34, by decide⟩
          · exact ⟨92, by decide⟩
        split at h
        · rename_i h1; subst h1; exact ⟨98, by decide⟩
        split at h
        · rename_i h1; subst h1; exact ⟨102, by decide⟩
        split at h
        · rename_i h1; subst h1; exact ⟨110, by decide⟩
        split at h
        · rename_i h1; subst h1; exact ⟨114, by decide⟩
        split at h
        · rename_i h1; subst h1; exact ⟨116, by decide⟩
        rename_i h1 _ _ _ _ _
        exact absurd ⟨rfl, fun h => h1 (Or.inr h), fun h => h1 (Or.inl h)⟩ h) c
  rcases this with h | ⟨k, h⟩
  · exact Or.inl h
  · exact Or.inr ⟨_, h⟩
end Json

namespace JsonSpec
theorem escapeOf_fun {d c c' : UInt8} (h : (d, c) ∈ escapeOf) (h' : (d, c') ∈ escapeOf) : c = c' := by
  simp only [escapeOf, List.mem_cons, Prod.mk.injEq, List.not_mem_nil, or_false] at h h'
  rcases h with ⟨rfl, rfl⟩ | ⟨rfl, rfl⟩ | ⟨rfl, rfl⟩ | ⟨rfl, rfl⟩ | ⟨rfl, rfl⟩ | ⟨rfl, rfl⟩ | ⟨rfl, rfl⟩ | ⟨rfl, rfl⟩ <;>
    (simp at h'; exact h'.symm)
/-- A text between quotes denotes one string. -/
theorem Chars.unique {t s s' : Bytes} (h : Chars t s) (h' : Chars t s') : s = s' := by
  induction h generalizing s' with
  | nil => cases h'; rfl
  | plain h0 h1 h2 _ ih => cases h' with
    | plain _ _ _ h => rw [ih h]
    | escape => exact absurd rfl h2
  | escape hd _ ih => cases h' with
    | plain _ _ h2 => exact absurd rfl h2
    | escape hd' h => rw [escapeOf_fun hd hd', ih h]
end JsonSpec

/-- C23. For every C string: decoding the encoded string gives the string back; the encoded string, put between quotes, is a JSON string that
denotes the string and nothing else; and it is a C string. -/
theorem C23_round_trip (s : Bytes) (h0 : 0 ∉ s) :
    Json.decode (Json.encode s) = s ∧ Chars (Json.encode s) s ∧ (∀ s', Chars (Json.encode s) s' → s' = s) ∧ 0 ∉ Json.encode s := by
  have key : Json.decode (Json.encode s) = s ∧ Chars (Json.encode s) s ∧ 0 ∉ Json.encode s := by
    induction s with
    | nil => exact ⟨rfl, .nil, by simp [encode]⟩
    | cons c s ih =>
      obtain ⟨i1, i2, i3⟩ := ih (fun h => h0 (List.mem_cons_of_mem _ h))
      have hc : c ≠ 0 := fun h => h0 (by simp [h])
      rw [encode]
      rcases encodeChar_cases c with ⟨e, h1, h2⟩ | ⟨d, e, h1, h2, h3⟩
      · rw [e]
        exact ⟨by rw [List.singleton_append, decode_plain h1, i1], .plain hc h2 h1 i2, by simp [i3, hc.symm]⟩
      · rw [e]
        exact ⟨by rw [show [92, d] ++ encode s = 92 :: d :: encode s from rfl, decode_escape h1, i1], .escape h2 i2, by simp [i3, h3.symm]⟩
  exact ⟨key.1, key.2.1, fun s' h => h.unique key.2.1, key.2.2⟩

example : Json.encode [97, 10, 34, 92, 110] = [97, 92, 110, 92, 34, 92, 92, 110] ∧ Json.decode [97, 92, 120, 92] = [97, 92, 120, 92] := by decide

/-! ## JSON5 -/
namespace JsonSpec
theorem Chars5.unique {st : Bool} {t s s' : Bytes} (h : Chars5 st t s) (h' : Chars5 st t s') : s = s' := by
  induction h generalizing s' with
  | nil => cases h'; rfl
  | plain _ _ h1 h2 _ ih => cases h' with
    | plain _ _ _ _ h => rw [ih h]
    | escape => exact absurd rfl h2
    | zero => exact absurd rfl h2
    | hex => exact absurd rfl h2
  | escape hd _ ih => cases h' with
    | plain _ _ _ h2 => exact absurd rfl h2
    | escape hd' h =>
      rw [ih h]
      congr 1
      have sub : ∀ x ∈ [((34 : UInt8), (34 : UInt8)), (92, 92), (98, 8), (102, 12), (110, 10), (114, 13), (116, 9)], x ∈ escapeOf := by decide
      exact escapeOf_fun (sub _ hd) (sub _ hd')
    | zero => exact absurd hd (by simp)
    | hex => exact absurd hd (by simp)
  | zero _ _ ih => cases h' with
    | plain _ _ _ h2 => exact absurd rfl h2
    | escape hd' h => exact absurd hd' (by simp)
    | zero _ h => rw [ih h]
  | hex ha hb _ ih => cases h' with
    | plain _ _ _ h2 => exact absurd rfl h2
    | escape hd' h => exact absurd hd' (by simp)
    | hex ha' hb' h =>
      rw [ha] at ha'; rw [hb] at hb'
      cases ha'; cases hb'
      rw [ih h]
end JsonSpec

namespace Json
theorem json5Char_cases (c : UInt8) :
    (json5Char c = [c] ∧ 32 ≤ c.toNat ∧ c.toNat ≤ 126 ∧ c ≠ 92 ∧ c ≠ 34) ∨
    (∃ d, json5Char c = [92, d] ∧ (d, c) ∈ [((34 : UInt8), (34 : UInt8)), (92, 92), (98, 8), (102, 12), (110, 10), (114, 13), (116, 9)] ∧ 32 ≤ d.toNat ∧ d.toNat ≤ 126) ∨
    (c = 0 ∧ json5Char c = [92, 48]) ∨
    (∃ h l a b, json5Char c = [92, 120, h, l] ∧ hexValue h = some a ∧ hexValue l = some b ∧ c = UInt8.ofNat (16 * a + b) ∧ 32 ≤ h.toNat ∧ h.toNat ≤ 126 ∧ 32 ≤ l.toNat ∧ l.toNat ≤ 126) := by
  have hx : hexValue (upperHex (c.toNat / 16)) = some (c.toNat / 16) ∧ hexValue (upperHex (c.toNat % 16)) = some (c.toNat % 16) ∧
      32 ≤ (upperHex (c.toNat / 16)).toNat ∧ (upperHex (c.toNat / 16)).toNat ≤ 126 ∧ 32 ≤ (upperHex (c.toNat % 16)).toNat ∧ (upperHex (c.toNat % 16)).toNat ≤ 126 :=
    Str.byte_all (P := fun c => hexValue (upperHex (c.toNat / 16)) = some (c.toNat / 16) ∧ hexValue (upperHex (c.toNat % 16)) = some (c.toNat % 16) ∧
      32 ≤ (upperHex (c.toNat / 16)).toNat ∧ (upperHex (c.toNat / 16)).toNat ≤ 126 ∧ 32 ≤ (upperHex (c.toNat % 16)).toNat ∧ (upperHex (c.toNat % 16)).toNat ≤ 126)
      (by decide +kernel) c
  rw [json5Char]
  split
  · rename_i h; exact Or.inr (Or.inr (Or.inl ⟨h, rfl⟩))
  split
  · rename_i h; rcases h with rfl | rfl <;> exact Or.inr (Or.inl ⟨_, rfl, by decide⟩)
  split
  · rename_i h; subst h; exact Or.inr (Or.inl ⟨_, rfl, by decide⟩)
  split
  · rename_i h; subst h; exact Or.inr (Or.inl ⟨_, rfl, by decide⟩)
  split
  · rename_i h; subst h; exact Or.inr (Or.inl ⟨_, rfl, by decide⟩)
  split
  · rename_i h; subst h; exact Or.inr (Or.inl ⟨_, rfl, by decide⟩)
  split
  · rename_i h; subst h; exact Or.inr (Or.inl ⟨_, rfl, by decide⟩)
  split
  · rename_i h1 _ _ _ _ _ h
    rw [UInt8.le_iff_toNat_le, UInt8.le_iff_toNat_le] at h
    exact Or.inl ⟨rfl, h.1, h.2, fun h => h1 (Or.inr h), fun h => h1 (Or.inl h)⟩
  · refine Or.inr (Or.inr (Or.inr ⟨_, _, _, _, rfl, hx.1, hx.2.1, ?_, hx.2.2⟩))
    rw [Nat.div_add_mod]; simp

theorem json5_chars (st : Bool) (s : Bytes) (h : st = true → ∀ a c b, s = a ++ [0, c] ++ b → ¬ (48 ≤ c.toNat ∧ c.toNat ≤ 57)) : Chars5 st (json5 s) s := by
  induction s with
  | nil => exact .nil
  | cons c s ih =>
    have ih := ih (fun hs a d b e => h hs (c :: a) d b (by rw [e]; rfl))
    rw [json5]
    rcases json5Char_cases c with ⟨e, h1, h2, h3, h4⟩ | ⟨d, e, h1, _⟩ | ⟨hc, e⟩ | ⟨x, l, a, b, e, h1, h2, h3, _⟩
    · rw [e]; exact .plain h1 h2 h4 h3 ih
    · rw [e]; exact .escape h1 ih
    · rw [e, hc]
      refine .zero ?_ ih
      intro hs d t' ht hd
      cases s with
      | nil => simp [json5] at ht
      | cons x s =>
        have hx := h hs [] x s (by rw [hc]; rfl)
        rw [json5] at ht
        rcases json5Char_cases x with ⟨e, h1, h2, h3, h4⟩ | ⟨d, e, h1, _⟩ | ⟨hc, e⟩ | ⟨x, l, a, b, e, h1, h2, h3, _⟩
        · rw [e] at ht; cases ht; exact hx hd
        all_goals (rw [e] at ht; cases ht; simp at hd)
    · rw [e, h3]; exact .hex h1 h2 ih
end Json

/-- C71. For every data, NUL bytes included: `Json5EscapeData` gives printable ASCII without raw quotes, and different data give different texts. When
no NUL byte is directly followed by a decimal digit, the text between quotes is a JSON5 string that denotes the data, and nothing else. -/
theorem C71_json5_escape_partial (data : Bytes) :
    (∀ c ∈ Json.json5 data, 32 ≤ c.toNat ∧ c.toNat ≤ 126) ∧
    (∀ data', Json.json5 data' = Json.json5 data → data' = data) ∧
    ((∀ a c b, data = a ++ [0, c] ++ b → ¬ (48 ≤ c.toNat ∧ c.toNat ≤ 57)) →
      Chars5 true (Json.json5 data) data ∧ ∀ s, Chars5 true (Json.json5 data) s → s = data) := by
  refine ⟨?_, ?_, ?_⟩
  · induction data with
    | nil => simp [json5]
    | cons c s ih =>
      rw [json5]
      intro x hx
      rcases List.mem_append.1 hx with hx | hx
      · rcases json5Char_cases c with ⟨e, h1, h2, h3, h4⟩ | ⟨d, e, h1, h2, h3⟩ | ⟨hc, e⟩ | ⟨y, l, a, b, e, h1, h2, h3, h4⟩ <;> rw [e] at hx
        · simp at hx; subst hx; exact ⟨h1, h2⟩
        · simp at hx; rcases hx with rfl | rfl
          · decide
          · exact ⟨h2, h3⟩
        · simp at hx; rcases hx with rfl | rfl <;> decide
        · simp at hx; rcases hx with rfl | rfl | rfl | rfl
          · decide
          · decide
          · exact ⟨h4.1, h4.2.1⟩
          · exact ⟨h4.2.2.1, h4.2.2.2⟩
      · exact ih x hx
  · intro data' h
    have h1 := json5_chars false data (by simp)
    have h2 := json5_chars false data' (by simp)
    rw [h] at h2
    exact h2.unique h1
  · intro h
    have h1 := json5_chars true data (fun _ => h)
    exact ⟨h1, fun s hs => hs.unique h1⟩

/-- C71, the excluded case: a NUL byte followed by the digit 1 gives `\01`, which denotes nothing in JSON5. -/
theorem C71_nul_before_digit (s : Bytes) : ¬ Chars5 true (Json.json5 [0, 49]) s := by
  intro h
  cases h with
  | plain _ _ _ h2 => exact absurd rfl h2
  | escape hd => exact absurd hd (by simp)
  | zero hz _ => exact hz rfl 49 [] rfl (by decide)

example : Json.json5 [0, 255, 34, 65, 10] = [92, 48, 92, 120, 70, 70, 92, 34, 65, 92, 110] := by decide

/-! ## Objects -/
namespace Json

theorem lookup_get {k : Bytes} {kids : List Elem} (h : ∀ n ∈ keys kids, n ≠ none) : lookup k kids = some (kids.find? fun e => e.name == some k) := by
  induction kids with
  | nil => rfl
  | cons e es ih =>
    rw [lookup]
    have h1 := h e.name (by simp [keys])
    cases hn : e.name with
    | none => exact absurd hn h1
    | some n =>
      simp only [List.find?_cons, hn]
      have hz := Str.cmpSign_zero id k n
      simp only [List.map_id] at hz
      by_cases hk : k = n
      · rw [if_pos (hz.2 hk)]; simp [hk]
      · rw [if_neg (fun h => hk (hz.1 h)), show (some n == some k) = false by simpa using fun h => hk h.symm]
        exact ih (fun n hn => h n (by rw [keys, List.map_cons]; exact List.mem_cons_of_mem _ hn))

theorem name_setName (e : Elem) (n : Option Bytes) : (e.setName n).name = n := by cases e <;> rfl
theorem doc_setName (e : Elem) (n : Option Bytes) : doc (e.setName n) = doc e := by
  cases e with
  | prim _ t v => cases t <;> rfl
  | cont _ t v => cases t <;> rfl

/-- The map an object stands for. -/
def toMap (kids : List Elem) : Map := fun k => kids.find? fun e => e.name == some k

theorem removeKey_eq (kids : List Elem) (k : Bytes) : removeKey kids k = (kids.eraseP fun e => e.name == some k, (kids.find? fun e => e.name == some k).isSome) := by
  induction kids with
  | nil => rfl
  | cons e es ih =>
    rw [removeKey, indexOf, List.findIdx?_cons]
    by_cases h : e.name == some k
    · simp [h]
    · simp only [h, List.find?_cons, Bool.false_eq_true, if_false]
      rw [removeKey, indexOf] at ih
      rw [List.eraseP_cons_of_neg (by simpa using h)]
      cases hf : es.findIdx? fun e => e.name == some k with
      | none => simp only [hf, Option.map_none, Prod.mk.injEq] at ih ⊢; exact ⟨by rw [← ih.1], ih.2⟩
      | some i => simp only [hf, Option.map_some, Prod.mk.injEq, List.eraseIdx_cons_succ] at ih ⊢; exact ⟨by rw [← ih.1], ih.2⟩

theorem keys_eraseP (kids : List Elem) (k : Bytes) : keys (kids.eraseP fun e => e.name == some k) = (keys kids).erase (some k) := by
  induction kids with
  | nil => rfl
  | cons e es ih =>
    by_cases h : e.name == some k
    · rw [List.eraseP_cons_of_pos (by simpa using h)]
      simp only [keys, List.map_cons]
      rw [show e.name = some k by simpa using h, List.erase_cons_head]
    · rw [List.eraseP_cons_of_neg (by simpa using h)]
      simp only [keys, List.map_cons] at ih ⊢
      rw [ih, List.erase_cons_tail (by simpa using h)]

theorem find_none_of_not_key {kids : List Elem} {k : Bytes} (h : some k ∉ keys kids) : (kids.find? fun e => e.name == some k) = none := by
  rw [List.find?_eq_none]
  intro e he hk
  exact h (by rw [keys, List.mem_map]; exact ⟨e, he, by simpa using hk⟩)

theorem toMap_eraseP (kids : List Elem) (k : Bytes) (h : (keys kids).Nodup) :
    toMap (kids.eraseP fun e => e.name == some k) = (toMap kids).set k none := by
  induction kids with
  | nil => funext k'; simp [toMap, Map.set]
  | cons e es ih =>
    simp only [keys, List.map_cons, List.nodup_cons] at h
    funext k'
    by_cases hk : e.name == some k
    · rw [List.eraseP_cons_of_pos (by simpa using hk)]
      have hk' : e.name = some k := by simpa using hk
      rw [hk'] at h
      simp only [toMap, Map.set, List.find?_cons, hk']
      by_cases hkk : k' = k
      · subst hkk; rw [if_pos rfl]; exact find_none_of_not_key h.1
      · rw [if_neg hkk, show (some k == some k') = false by simpa using fun h => hkk h.symm]
    · rw [List.eraseP_cons_of_neg (by simpa using hk)]
      have ih := congrFun (ih h.2) k'
      simp only [toMap, Map.set, List.find?_cons] at ih ⊢
      rw [ih]
      by_cases hkk : k' = k
      · subst hkk; simp [hk]
      · rw [if_neg hkk, if_neg hkk]

theorem keys_append (kids : List Elem) (k : Bytes) (e : Elem) : keys (appendElement kids k e) = (keys kids).erase (some k) ++ [some k] := by
  rw [appendElement, removeKey_eq, ← keys_eraseP]
  simp [keys, name_setName]

theorem nodup_append {kids : List Elem} (k : Bytes) (e : Elem) (h : (keys kids).Nodup) : (keys (appendElement kids k e)).Nodup := by
  rw [keys_append]
  have h1 : some k ∉ (keys kids).erase (some k) := by rw [h.mem_erase_iff]; simp
  rw [List.nodup_append]
  refine ⟨h.erase _, by simp, ?_⟩
  intro a ha b hb hab
  simp at hb
  subst hb; subst hab
  exact h1 ha

theorem toMap_append {kids : List Elem} (k : Bytes) (e : Elem) (h : (keys kids).Nodup) :
    toMap (appendElement kids k e) = (toMap kids).set k (some (e.setName (some k))) := by
  rw [appendElement, removeKey_eq]
  have h2 := toMap_eraseP kids k h
  funext k'
  have h2 := congrFun h2 k'
  simp only [toMap, Map.set, List.find?_append] at h2 ⊢
  rw [h2]
  by_cases hkk : k' = k
  · subst hkk; simp [name_setName]
  · rw [if_neg hkk, if_neg hkk]
    have : ([e.setName (some k)].find? fun e => e.name == some k') = none := by
      simp [name_setName]; exact fun h => hkk h.symm
    rw [this]; simp

theorem appendElement_fresh {kids : List Elem} {k : Bytes} {e : Elem} (h : some k ∉ keys kids) : appendElement kids k e = kids ++ [e.setName (some k)] := by
  rw [appendElement, removeKey_eq]
  rw [List.eraseP_of_forall_not]
  intro x hx hk
  exact h (by rw [keys, List.mem_map]; exact ⟨x, hx, by simpa using hk⟩)

theorem Op.step (kids : List Elem) (o : Op) (hn : (keys kids).Nodup) (h0 : none ∉ keys kids) :
    ∃ kids', o.onObject kids = some (kids', (o.onMap (toMap kids)).2) ∧ toMap kids' = (o.onMap (toMap kids)).1 ∧ (keys kids').Nodup ∧ none ∉ keys kids' := by
  have hlk : ∀ k, lookup k kids = some (toMap kids k) := fun k => lookup_get fun n hn e => h0 (e ▸ hn)
  have herase : ∀ k, (keys (kids.eraseP fun e => e.name == some k)).Nodup ∧ none ∉ keys (kids.eraseP fun e => e.name == some k) := by
    intro k; rw [keys_eraseP]; exact ⟨hn.erase _, fun h => h0 (List.mem_of_mem_erase h)⟩
  cases o with
  | append k e =>
    refine ⟨_, rfl, toMap_append k e hn, nodup_append k e hn, ?_⟩
    rw [keys_append]
    intro h
    rcases List.mem_append.1 h with h | h
    · exact h0 (List.mem_of_mem_erase h)
    · simp at h
  | remove k =>
    refine ⟨kids.eraseP fun e => e.name == some k, ?_, toMap_eraseP kids k hn, herase k⟩
    rw [Op.onObject, removeKey_eq]; rfl
  | detach k =>
    refine ⟨kids.eraseP fun e => e.name == some k, ?_, toMap_eraseP kids k hn, herase k⟩
    have hr := removeKey_eq kids k
    rw [removeKey] at hr
    rw [Op.onObject, detachKey]
    cases hi : indexOf kids k with
    | none =>
      simp only [hi, Prod.mk.injEq] at hr
      simp only [Option.map_some, Op.onMap]
      rw [← hr.1]
      have : toMap kids k = none := by
        have := hr.2
        rw [toMap]
        cases hf : kids.find? fun e => e.name == some k with
        | none => rfl
        | some x => rw [hf] at this; simp at this
      rw [this]
    | some i =>
      simp only [hi, Prod.mk.injEq] at hr
      simp only [hlk, Option.map_some, Op.onMap]
      rw [← hr.1]
  | get k => exact ⟨kids, by rw [Op.onObject, Json.get, hlk]; rfl, rfl, hn, h0⟩

theorem hist_step (os : List Op) : ∀ (kids : List Elem), (keys kids).Nodup → none ∉ keys kids →
    ∃ kids', histOnObject kids os = some (kids', (histOnMap (toMap kids) os).2) ∧ toMap kids' = (histOnMap (toMap kids) os).1 ∧
      (keys kids').Nodup ∧ none ∉ keys kids' := by
  induction os with
  | nil => intro kids h1 h2; exact ⟨kids, rfl, rfl, h1, h2⟩
  | cons o os ih =>
    intro kids h1 h2
    obtain ⟨k1, e1, e2, e3, e4⟩ := Op.step kids o h1 h2
    obtain ⟨k2, f1, f2, f3, f4⟩ := ih k1 e3 e4
    refine ⟨k2, ?_, ?_, f3, f4⟩
    · rw [histOnObject, e1, Option.bind_some, f1, Option.map_some, histOnMap, e2]
    · rw [f2, histOnMap, e2]
end Json

/-- C26. For every history of calls on a new object (appends of any elements under any keys, removals, detachments, lookups): the calls return what they
return on a map (in particular a lookup gives the element last appended under the key, if it was not removed since), nothing is undefined, the keys of
the object are pairwise different, and afterwards every lookup gives what the map gives. -/
theorem C26_object_is_map (ops : List Op) :
    ∃ kids, histOnObject [] ops = some (kids, (histOnMap (fun _ => none) ops).2) ∧ (keys kids).Nodup ∧
      ∀ k, Json.get kids k = some ((histOnMap (fun _ => none) ops).1 k) := by
  obtain ⟨kids, h1, h2, h3, h4⟩ := hist_step ops [] List.nodup_nil (by simp [keys])
  refine ⟨kids, h1, h3, fun k => ?_⟩
  rw [Json.get, lookup_get (fun n hn e => h4 (e ▸ hn))]
  exact congrArg some (congrFun h2 k)

example : ∃ kids, histOnObject [] [.append [97] (integerCreate 1), .append [98] nullCreate, .append [97] (integerCreate 2), .detach [98], .get [97]] =
    some (kids, [.done, .done, .done, .element (some (.prim (some [98]) .null litNull)), .element (some (.prim (some [97]) .integer [50]))]) := ⟨_, rfl⟩
