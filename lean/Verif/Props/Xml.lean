import Verif.Model.Xml
import Verif.Spec.Xml
import Verif.Lemmas.Writer
/-! # C22 (XML escaping), C62 (HTML escaping in mustache templates) -/
open Writer (WRep)

namespace XmlText

/-- The escaped form of one byte. -/
def esc1 (c : UInt8) : List UInt8 :=
  if c = 38 then [38, 97, 109, 112, 59]
  else if c = 62 then [38, 103, 116, 59]
  else if c = 34 then [38, 113, 117, 111, 116, 59]
  else if c = 39 then [38, 97, 112, 111, 115, 59]
  else if c = 60 then [38, 108, 116, 59]
  else [c]

def hesc1 (c : UInt8) : List UInt8 := if c = 39 then [39] else esc1 c

theorem writeEscaped_ok : ∀ (s : List UInt8) {w : Writer.W} {xs : List UInt8}, WRep w xs →
    ∃ w', Xml.writeEscaped w s = some w' ∧ WRep w' (xs ++ s.flatMap esc1) := by
  intro s
  induction s with
  | nil => intro w xs h; exact ⟨w, rfl, by simpa using h⟩
  | cons c s ih =>
    intro w xs h
    have key : ∃ w1, Xml.writeEscapedChar w c = some w1 ∧ WRep w1 (xs ++ esc1 c) := by
      have wr : ∀ t : List UInt8, 0 ∉ t → t.length ≤ 2147483647 → ∃ w1, Xml.write w t = some w1 ∧ WRep w1 (xs ++ t) := by
        intro t h0 hl
        obtain ⟨w1, a1, a2⟩ := Writer.write_ok h t h0 hl
        exact ⟨w1, by simp [Xml.write, a1], a2⟩
      unfold esc1 Xml.writeEscapedChar
      by_cases h1 : c = 38
      · rw [if_pos h1, if_pos h1]; exact wr _ (by decide) (by decide)
      · rw [if_neg h1, if_neg h1]
        by_cases h2 : c = 62
        · rw [if_pos h2, if_pos h2]; exact wr _ (by decide) (by decide)
        · rw [if_neg h2, if_neg h2]
          by_cases h3 : c = 34
          · rw [if_pos h3, if_pos h3]; exact wr _ (by decide) (by decide)
          · rw [if_neg h3, if_neg h3]
            by_cases h4 : c = 39
            · rw [if_pos h4, if_pos h4]; exact wr _ (by decide) (by decide)
            · rw [if_neg h4, if_neg h4]
              by_cases h5 : c = 60
              · rw [if_pos h5, if_pos h5]; exact wr _ (by decide) (by decide)
              · rw [if_neg h5, if_neg h5]
                obtain ⟨w1, a1, a2⟩ := Writer.writeChar_ok h c
                exact ⟨w1, by simp [a1], a2⟩
    obtain ⟨w1, a1, a2⟩ := key
    obtain ⟨w2, b1, b2⟩ := ih a2
    refine ⟨w2, ?_, by simpa using b2⟩
    simp [Xml.writeEscaped, a1, b1]

theorem unescape_esc (special : UInt8 → Bool) (hs : ∀ c, special c = true → c = 60 ∨ c = 62 ∨ c = 34 ∨ c = 39) :
    ∀ (s : List UInt8) (n : Nat), s.length < n → XmlSpec.unescape special n (s.flatMap esc1) = some s := by
  intro s
  induction s with
  | nil => intro n hn; match n, hn with | n + 1, _ => rfl
  | cons c s ih =>
    intro n hn
    match n, hn with
    | n + 1, hn =>
      have := ih n (by simpa using hn)
      simp only [List.flatMap_cons]
      generalize s.flatMap _ = t at this ⊢
      unfold esc1
      by_cases h1 : c = 38
      · simp [h1, XmlSpec.unescape, XmlSpec.entity, this]
      · by_cases h2 : c = 62
        · simp [h2, XmlSpec.unescape, XmlSpec.entity, this]
        · by_cases h3 : c = 34
          · simp [h3, XmlSpec.unescape, XmlSpec.entity, this]
          · by_cases h4 : c = 39
            · simp [h4, XmlSpec.unescape, XmlSpec.entity, this]
            · by_cases h5 : c = 60
              · simp [h5, XmlSpec.unescape, XmlSpec.entity, this]
              · have : special c = false := by
                  cases hh : special c with
                  | false => rfl
                  | true => rcases hs c hh with h | h | h | h <;> contradiction
                simp [h1, h2, h3, h4, h5, XmlSpec.unescape, this, *]

theorem unescape_hesc : ∀ (s : List UInt8) (n : Nat), s.length < n →
    XmlSpec.unescape (fun c => c == 60 || c == 62 || c == 34) n (s.flatMap hesc1) = some s := by
  intro s
  induction s with
  | nil => intro n hn; match n, hn with | n + 1, _ => rfl
  | cons c s ih =>
    intro n hn
    match n, hn with
    | n + 1, hn =>
      have := ih n (by simpa using hn)
      simp only [List.flatMap_cons]
      generalize s.flatMap _ = t at this ⊢
      unfold hesc1 esc1
      by_cases h1 : c = 38
      · simp [h1, XmlSpec.unescape, XmlSpec.entity, this]
      · by_cases h2 : c = 62
        · simp [h2, XmlSpec.unescape, XmlSpec.entity, this]
        · by_cases h3 : c = 34
          · simp [h3, XmlSpec.unescape, XmlSpec.entity, this]
          · by_cases h4 : c = 39
            · simp [h4, XmlSpec.unescape, this]
            · by_cases h5 : c = 60
              · simp [h5, XmlSpec.unescape, XmlSpec.entity, this]
              · simp [h1, h2, h3, h4, h5, XmlSpec.unescape, this]

theorem length_esc (f : UInt8 → List UInt8) (hf : ∀ c, 1 ≤ (f c).length) (s : List UInt8) : s.length ≤ (s.flatMap f).length := by
  induction s with
  | nil => simp
  | cons c s ih => have := hf c; simp only [List.flatMap_cons, List.length_append, List.length_cons]; omega

theorem esc1_pos (c : UInt8) : 1 ≤ (esc1 c).length := by unfold esc1; repeat' split <;> try simp
theorem hesc1_pos (c : UInt8) : 1 ≤ (hesc1 c).length := by unfold hesc1; split; simp; exact esc1_pos c

theorem xmlText_esc (s : List UInt8) : XmlSpec.xmlText (s.flatMap esc1) = some s := by
  apply unescape_esc
  · intro c hc; simp at hc; rcases hc with ((h | h) | h) | h <;> simp [h]
  · have := length_esc esc1 esc1_pos s; omega

theorem htmlText_esc (s : List UInt8) : XmlSpec.htmlText (s.flatMap hesc1) = some s := by
  apply unescape_hesc
  have := length_esc hesc1 hesc1_pos s; omega

theorem write_ok {w : Writer.W} {xs : List UInt8} (h : WRep w xs) (t : List UInt8) (h0 : 0 ∉ t) (hl : t.length ≤ 2147483647) :
    ∃ w1, Xml.write w t = some w1 ∧ WRep w1 (xs ++ t) := by
  obtain ⟨w1, a1, a2⟩ := Writer.write_ok h t h0 hl
  exact ⟨w1, by simp [Xml.write, a1], a2⟩

theorem writeF_ok {w : Writer.W} {xs : List UInt8} (h : WRep w xs) (t : List UInt8) (h0 : 0 ∉ t) (hl : t.length ≤ 2147483647) :
    ∃ w1, Xml.writeF w t = some w1 ∧ WRep w1 (xs ++ t) := by
  obtain ⟨w1, a1, a2⟩ := Writer.exec_ok h (.writeF t) ⟨h0, hl⟩
  simp only [Writer.exec] at a1
  exact ⟨w1, by simp [Xml.writeF, a1], a2⟩

end XmlText
open XmlText

/-- Client: what a string writer holds (with terminator) after the call. -/
def xmlOutput (call : Writer.W → Option Writer.W) : Option (List UInt8) := do
  let w ← call Writer.stringWriter
  Writer.dataZ w

/-- C22. `XmlContent` writes text that an XML processor reads back as exactly the original (so raw `<`, `>`, `"`, `'` and stray `&`
never appear, and two different values never give the same text). -/
theorem C22_xml_content_reads_back (value : List UInt8) :
    ∃ text, xmlOutput (Xml.content · value) = some (text ++ [0]) ∧ XmlSpec.xmlText text = some value := by
  obtain ⟨w, a1, a2⟩ := writeEscaped_ok value Writer.init_ok
  exact ⟨value.flatMap esc1, by simp [xmlOutput, Xml.content, a1, Writer.dataZ_ok a2], xmlText_esc value⟩

/-- `a<&"b` -/
example : XmlSpec.xmlText [97, 38, 108, 116, 59, 38, 97, 109, 112, 59, 38, 113, 117, 111, 116, 59, 98] = some [97, 60, 38, 34, 98] ∧
    XmlSpec.xmlText [97, 60] = none ∧ XmlSpec.xmlText [38, 108] = none := by decide

/-- C22. `XmlTag` without attributes writes `<name>`, the escaped value, `</name>` and a newline. -/
theorem C22_xml_tag_reads_back (name value : List UInt8) (h0 : 0 ∉ name) (hl : name.length + 4 ≤ 2147483647) :
    ∃ text, xmlOutput (Xml.tag · name (some value) []) = some ([60] ++ name ++ [62] ++ text ++ [60, 47] ++ name ++ [62, 10] ++ [0]) ∧
      XmlSpec.xmlText text = some value := by
  obtain ⟨w1, a1, a2⟩ := writeF_ok Writer.init_ok (60 :: name) (by simp [h0]) (by simp; omega)
  obtain ⟨w2, b1, b2⟩ := write_ok a2 [62] (by decide) (by decide)
  obtain ⟨w3, c1, c2⟩ := writeEscaped_ok value b2
  obtain ⟨w4, d1, d2⟩ := writeF_ok c2 ([60, 47] ++ name ++ [62, 10]) (by simp [h0]) (by simp; omega)
  refine ⟨value.flatMap esc1, ?_, xmlText_esc value⟩
  simp only [xmlOutput, Xml.tag, Xml.emitStartTag, a1, Option.bind_eq_bind, Option.bind_some, Xml.attrs, List.length_nil, gt_iff_lt,
    Nat.lt_irrefl, if_false, b1, c1, Xml.endTag, d1, Writer.dataZ_ok d2]
  simp

example : (0 : UInt8) ∉ ([102, 111, 111] : List UInt8) ∧ ([102, 111, 111] : List UInt8).length + 4 ≤ 2147483647 := by decide

/-- Attribute values are not escaped: the single attribute `a` with value `" b="` gives exactly the text `<t a="" b="" >` of a tag
with the two attributes `a=""` and `b=""`, so attributes do not read back. -/
theorem C22_attribute_values_are_not_escaped :
    xmlOutput (Xml.startTag · [116] [([97], [34, 32, 98, 61, 34])]) = xmlOutput (Xml.startTag · [116] [([97], []), ([98], [])]) := by
  decide

namespace XmlText
/-- What the attribute loop writes. -/
def attrText (as : List (List UInt8 × List UInt8)) : List UInt8 := as.flatMap fun a => a.1 ++ [61, 34] ++ a.2 ++ [34, 32]
/-- What is written for a start tag. -/
def tagText (name : List UInt8) (as : List (List UInt8 × List UInt8)) : List UInt8 := 60 :: name ++ (if as.length > 0 then [32] else []) ++ attrText as ++ [62]

theorem attrs_ok (as : List (List UInt8 × List UInt8)) (h : ∀ a ∈ as, XmlSpec.isName a.1 ∧ XmlSpec.isValue a.2 ∧ a.1.length + a.2.length + 4 ≤ 2147483647) :
    ∀ {w : Writer.W} {xs : List UInt8}, WRep w xs → ∃ w1, Xml.attrs w as = some w1 ∧ WRep w1 (xs ++ attrText as) := by
  induction as with
  | nil => intro w xs hw; exact ⟨w, rfl, by simpa [attrText] using hw⟩
  | cons a as ih =>
    intro w xs hw
    obtain ⟨n, v⟩ := a
    obtain ⟨h1, h2, h3⟩ := h (n, v) (by simp)
    have h0 : 0 ∉ n ++ [61, 34] ++ v ++ [34, 32] := by
      intro h
      simp only [List.mem_append, List.mem_cons, List.not_mem_nil, or_false] at h
      rcases h with ((h | h | h) | h) | h | h
      · exact (h1.2 0 h).2 rfl
      · cases h
      · cases h
      · exact (h2 0 h).1 rfl
      · cases h
      · cases h
    obtain ⟨w1, a1, a2⟩ := writeF_ok hw (n ++ [61, 34] ++ v ++ [34, 32]) h0 (by simp at h3 ⊢; omega)
    obtain ⟨w2, b1, b2⟩ := ih (fun a ha => h a (by simp [ha])) a2
    exact ⟨w2, by simp only [Xml.attrs, a1, Option.bind_eq_bind, Option.bind_some, b1], by simpa [attrText] using b2⟩

theorem emitStartTag_ok {w : Writer.W} {xs : List UInt8} (hw : WRep w xs) (name : List UInt8) (as : List (List UInt8 × List UInt8)) (hn : 0 ∉ name) (hl : name.length + 4 ≤ 2147483647)
    (h : ∀ a ∈ as, XmlSpec.isName a.1 ∧ XmlSpec.isValue a.2 ∧ a.1.length + a.2.length + 4 ≤ 2147483647) :
    ∃ w1, Xml.emitStartTag w name as = some w1 ∧ WRep w1 (xs ++ tagText name as) := by
  obtain ⟨w1, a1, a2⟩ := writeF_ok hw (60 :: name) (by simp [hn]) (by simp; omega)
  obtain ⟨w2, b1, b2⟩ : ∃ w2, (if as.length > 0 then Xml.write w1 [32] else some w1) = some w2 ∧ WRep w2 (xs ++ 60 :: name ++ (if as.length > 0 then [32] else [])) := by
    split
    · exact write_ok a2 [32] (by decide) (by decide)
    · exact ⟨w1, rfl, by simpa using a2⟩
  obtain ⟨w3, c1, c2⟩ := attrs_ok as h b2
  obtain ⟨w4, d1, d2⟩ := write_ok c2 [62] (by decide) (by decide)
  refine ⟨w4, ?_, by simpa [tagText] using d2⟩
  simp only [Xml.emitStartTag, a1, Option.bind_eq_bind, Option.bind_some]
  split
  · rename_i h; rw [if_pos h] at b1; rw [b1, Option.bind_some, c1, Option.bind_some, d1]
  · rename_i h; rw [if_neg h] at b1; cases b1; rw [c1, Option.bind_some, d1]

theorem takeWhile_stop {p : UInt8 → Bool} (n r : List UInt8) (c : UInt8) (hn : ∀ x ∈ n, p x = true) (hc : p c = false) :
    (n ++ c :: r).takeWhile p = n ∧ (n ++ c :: r).dropWhile p = c :: r := by
  induction n with
  | nil => simp [hc]
  | cons a n ih =>
    have := hn a (by simp)
    obtain ⟨i1, i2⟩ := ih fun x hx => hn x (by simp [hx])
    simp [this, i1, i2]

theorem readAttrs_text (as : List (List UInt8 × List UInt8)) (h : ∀ a ∈ as, XmlSpec.isName a.1 ∧ XmlSpec.isValue a.2) (rest : List UInt8) :
    ∀ n, as.length < n → XmlSpec.readAttrs n (32 :: (attrText as ++ 62 :: rest)) = some (as, rest) := by
  induction as with
  | nil =>
    intro n hn
    obtain ⟨n, rfl⟩ : ∃ m, n = m + 1 := ⟨n - 1, by simp at hn; omega⟩
    simp [XmlSpec.readAttrs, attrText, XmlSpec.space]
  | cons a as ih =>
    intro n hn
    obtain ⟨n, rfl⟩ : ∃ m, n = m + 1 := ⟨n - 1, by simp at hn; omega⟩
    obtain ⟨nm, v⟩ := a
    obtain ⟨h1, h2⟩ := h (nm, v) (by simp)
    have e : attrText ((nm, v) :: as) ++ 62 :: rest = nm ++ 61 :: (34 :: (v ++ 34 :: (32 :: (attrText as ++ 62 :: rest)))) := by simp [attrText]
    rw [e]
    obtain ⟨c, nm', hnm⟩ : ∃ c nm', nm = c :: nm' := List.exists_cons_of_ne_nil h1.1
    have hc : XmlSpec.nameChar c = true := (h1.2 c (by simp [hnm])).1
    have hsp : XmlSpec.space c = false := by simp only [XmlSpec.nameChar, Bool.and_eq_true, Bool.not_eq_true'] at hc; exact hc.1
    have hgt : c ≠ 62 := by rintro rfl; simp [XmlSpec.nameChar] at hc
    obtain ⟨t1, t2⟩ := takeWhile_stop (p := XmlSpec.nameChar) nm (34 :: (v ++ 34 :: (32 :: (attrText as ++ 62 :: rest)))) 61 (fun x hx => (h1.2 x hx).1) (by decide)
    obtain ⟨u1, u2⟩ := takeWhile_stop (p := fun x => decide (x ≠ 34)) v (32 :: (attrText as ++ 62 :: rest)) 34 (fun x hx => by simpa using (h2 x hx).2.1) (by decide)
    have hd : (32 :: (nm ++ 61 :: (34 :: (v ++ 34 :: (32 :: (attrText as ++ 62 :: rest)))))).dropWhile XmlSpec.space = nm ++ 61 :: (34 :: (v ++ 34 :: (32 :: (attrText as ++ 62 :: rest)))) := by
      rw [List.dropWhile_cons_of_pos (by decide), hnm, List.cons_append, List.dropWhile_cons_of_neg (by simp [hsp])]
    rw [XmlSpec.readAttrs]
    simp only [hd]
    rw [if_neg (by simp [hnm, hgt]), if_neg (by simp), t1, if_neg h1.1, t2]
    simp only
    rw [u1, if_neg (fun hx => hx.elim (fun hx => (h2 _ hx).2.2.2 rfl) (fun hx => (h2 _ hx).2.2.1 rfl)), u2]
    simp only
    rw [ih (fun a ha => h a (by simp [ha])) n (by simp at hn; omega)]
    rfl

theorem readStartTag_text (name : List UInt8) (as : List (List UInt8 × List UInt8)) (hn : XmlSpec.isName name) (h : ∀ a ∈ as, XmlSpec.isName a.1 ∧ XmlSpec.isValue a.2) (rest : List UInt8) :
    XmlSpec.readStartTag (tagText name as ++ rest) = some (name, as, rest) := by
  have e : tagText name as ++ rest = 60 :: (name ++ ((if as.length > 0 then [32] else []) ++ (attrText as ++ 62 :: rest))) := by simp [tagText]
  rw [e, XmlSpec.readStartTag]
  cases as with
  | nil =>
    obtain ⟨t1, t2⟩ := takeWhile_stop (p := XmlSpec.nameChar) name rest 62 (fun x hx => (hn.2 x hx).1) (by decide)
    have e2 : name ++ ((if ([] : List (List UInt8 × List UInt8)).length > 0 then [32] else []) ++ (attrText [] ++ 62 :: rest)) = name ++ 62 :: rest := by simp [attrText]
    rw [e2, t1, t2, if_neg hn.1]
    simp [XmlSpec.readAttrs, XmlSpec.space]
  | cons a as =>
    have e2 : name ++ ((if (a :: as).length > 0 then [32] else []) ++ (attrText (a :: as) ++ 62 :: rest)) = name ++ 32 :: (attrText (a :: as) ++ 62 :: rest) := by simp
    obtain ⟨t1, t2⟩ := takeWhile_stop (p := XmlSpec.nameChar) name (attrText (a :: as) ++ 62 :: rest) 32 (fun x hx => (hn.2 x hx).1) (by decide)
    rw [e2, t1, t2, if_neg hn.1, readAttrs_text (a :: as) h rest]
    · rfl
    · have hlen : ∀ as : List (List UInt8 × List UInt8), as.length ≤ (attrText as).length := by
        intro as
        induction as with
        | nil => simp
        | cons a as ih => simp [attrText] at ih ⊢; omega
      have := hlen (a :: as)
      simp only [List.length_append, List.length_cons] at this ⊢; omega

theorem name_no_zero {n : List UInt8} (h : XmlSpec.isName n) : 0 ∉ n := fun h0 => (h.2 0 h0).2 rfl
end XmlText

/-- C22. A start tag reads back as its name and its attributes, each with its value, in order, for values that need no escaping. -/
theorem C22_xml_start_tag_reads_back (name : List UInt8) (as : List (List UInt8 × List UInt8)) (hn : XmlSpec.isName name) (hl : name.length + 4 ≤ 2147483647)
    (h : ∀ a ∈ as, XmlSpec.isName a.1 ∧ XmlSpec.isValue a.2 ∧ a.1.length + a.2.length + 4 ≤ 2147483647) :
    ∃ text, xmlOutput (Xml.startTag · name as) = some (text ++ [10, 0]) ∧ XmlSpec.readStartTag text = some (name, as, []) := by
  obtain ⟨w1, a1, a2⟩ := emitStartTag_ok Writer.init_ok name as (name_no_zero hn) hl h
  obtain ⟨w2, b1, b2⟩ := write_ok a2 [10] (by decide) (by decide)
  refine ⟨tagText name as, ?_, by simpa using readStartTag_text name as hn (fun a ha => ⟨(h a ha).1, (h a ha).2.1⟩) []⟩
  simp only [xmlOutput, Xml.startTag, a1, b1, Option.bind_eq_bind, Option.bind_some, Writer.dataZ_ok b2]
  simp

/-- C22. An element with attributes reads back: the start tag, the value (nothing for NULL), the end tag of the same name. -/
theorem C22_xml_element_reads_back (name : List UInt8) (value : Option (List UInt8)) (as : List (List UInt8 × List UInt8)) (hn : XmlSpec.isName name) (hl : name.length + 4 ≤ 2147483647)
    (h : ∀ a ∈ as, XmlSpec.isName a.1 ∧ XmlSpec.isValue a.2 ∧ a.1.length + a.2.length + 4 ≤ 2147483647) :
    ∃ start text, xmlOutput (Xml.tag · name value as) = some (start ++ text ++ [60, 47] ++ name ++ [62, 10] ++ [0]) ∧
      XmlSpec.readStartTag start = some (name, as, []) ∧ XmlSpec.xmlText text = some (value.getD []) := by
  obtain ⟨w1, a1, a2⟩ := emitStartTag_ok Writer.init_ok name as (name_no_zero hn) hl h
  have hv : ∃ w2, (match value with | some v => Xml.writeEscaped w1 v | none => some w1) = some w2 ∧ WRep w2 ([] ++ tagText name as ++ (value.getD []).flatMap esc1) := by
    cases value with
    | none => exact ⟨w1, rfl, by simpa using a2⟩
    | some v => exact writeEscaped_ok v a2
  obtain ⟨w2, b1, b2⟩ := hv
  obtain ⟨w3, c1, c2⟩ := writeF_ok b2 ([60, 47] ++ name ++ [62, 10]) (by simp [name_no_zero hn]) (by simp; omega)
  refine ⟨tagText name as, (value.getD []).flatMap esc1, ?_, by simpa using readStartTag_text name as hn (fun a ha => ⟨(h a ha).1, (h a ha).2.1⟩) [], xmlText_esc _⟩
  have e : Xml.tag Writer.stringWriter name value as = some w3 := by
    simp only [Xml.tag, a1, Option.bind_eq_bind, Option.bind_some]
    cases value with
    | none => cases b1; exact c1
    | some v => simp only at b1 ⊢; rw [b1, Option.bind_some]; exact c1
  simp only [xmlOutput, e, Option.bind_eq_bind, Option.bind_some, Writer.dataZ_ok c2]
  simp

/-- `<t a="1" b="" >`. -/
example : xmlOutput (Xml.startTag · [116] [([97], [49]), ([98], [])]) = some ([60, 116, 32, 97, 61, 34, 49, 34, 32, 98, 61, 34, 34, 32, 62] ++ [10, 0]) ∧
    XmlSpec.readStartTag [60, 116, 32, 97, 61, 34, 49, 34, 32, 98, 61, 34, 34, 32, 62] = some ([116], [([97], [49]), ([98], [])], []) ∧
    XmlSpec.readStartTag [60, 116, 33, 97, 61, 34, 49, 34, 62] = none := by decide

/-- A comment's text reads back, and cannot end the comment early: it contains no `>`. -/
theorem C22_xml_comment_reads_back (value : List UInt8) :
    ∃ text, xmlOutput (Xml.comment · value) = some ([60, 33, 45, 45, 32] ++ text ++ [32, 45, 45, 62, 10] ++ [0]) ∧ XmlSpec.xmlText text = some value ∧ 62 ∉ text := by
  obtain ⟨w1, a1, a2⟩ := write_ok Writer.init_ok [60, 33, 45, 45, 32] (by decide) (by decide)
  obtain ⟨w2, b1, b2⟩ := writeEscaped_ok value a2
  obtain ⟨w3, c1, c2⟩ := write_ok b2 [32, 45, 45, 62, 10] (by decide) (by decide)
  refine ⟨value.flatMap esc1, ?_, xmlText_esc value, ?_⟩
  · simp only [xmlOutput, Xml.comment, a1, b1, c1, Option.bind_eq_bind, Option.bind_some, Writer.dataZ_ok c2]
    simp
  · intro h
    obtain ⟨c, _, hc⟩ := List.mem_flatMap.mp h
    revert hc
    unfold esc1
    split
    · simp
    split
    · simp
    split
    · simp
    split
    · simp
    split
    · simp
    · rename_i h1 _ _ _
      simp only [List.mem_singleton]
      exact fun e => h1 e.symm

/-- A comment text with `--` is copied into the comment, where XML forbids it. -/
theorem C22_comment_may_contain_double_hyphen :
    xmlOutput (Xml.comment · [45, 45]) = some ([60, 33, 45, 45, 32] ++ [45, 45] ++ [32, 45, 45, 62, 10, 0]) := by decide

/-- C62. Rendering a value into HTML appends text that reads back as the value; the buffer grows by exactly that text and stays
in bounds. Sizes below 2^32 bytes. -/
theorem C62_html_rendering_reads_back (input : List UInt8) (h0 : 0 ∉ input) (b : Buffer.Buf) (s : BufferSpec.B) (hb : Buffer.Rep b s)
    (hsz : s.content.length + 6 * input.length + 8 ≤ 2 ^ 32) :
    ∃ b' text, Mustache.renderHTML b input = some b' ∧ Buffer.Rep b' { s with content := s.content ++ text } ∧
      Buffer.data b' = some (s.content ++ text) ∧ XmlSpec.htmlText text = some input := by
  have key : ∀ (input : List UInt8), 0 ∉ input → ∀ (b : Buffer.Buf) (s : BufferSpec.B), Buffer.Rep b s →
      s.content.length + 6 * input.length + 8 ≤ 2 ^ 32 →
      ∃ b', Mustache.renderHTML b input = some b' ∧ Buffer.Rep b' { s with content := s.content ++ input.flatMap hesc1 } := by
    intro input
    induction input with
    | nil => intro _ b s h _; exact ⟨b, rfl, by simpa using h⟩
    | cons c input ih =>
      intro h0 b s h hsz
      simp only [List.mem_cons, not_or] at h0
      simp only [List.length_cons] at hsz
      have key1 : ∃ b1, Mustache.renderHTML b (c :: input) = Mustache.renderHTML b1 input ∧
          Buffer.Rep b1 { s with content := s.content ++ hesc1 c } ∧ (hesc1 c).length ≤ 6 := by
        have st : ∀ t : List UInt8, t.length ≤ 6 → ∃ b1, Buffer.appendString b t = some b1 ∧ Buffer.Rep b1 { s with content := s.content ++ t } := by
          intro t ht
          obtain ⟨b1, a1, a2, _⟩ := Buffer.appendString_ok h t (by omega)
          exact ⟨b1, a1, a2⟩
        unfold hesc1 esc1
        by_cases h1 : c = 38
        · obtain ⟨b1, a1, a2⟩ := st [38, 97, 109, 112, 59] (by decide)
          exact ⟨b1, by simp [Mustache.renderHTML, h1, a1], by simpa [h1] using a2, by simp [h1]⟩
        · by_cases h2 : c = 34
          · obtain ⟨b1, a1, a2⟩ := st [38, 113, 117, 111, 116, 59] (by decide)
            exact ⟨b1, by simp [Mustache.renderHTML, h2, a1], by simpa [h2] using a2, by simp [h2]⟩
          · by_cases h3 : c = 60
            · obtain ⟨b1, a1, a2⟩ := st [38, 108, 116, 59] (by decide)
              exact ⟨b1, by simp [Mustache.renderHTML, h3, a1], by simpa [h3] using a2, by simp [h3]⟩
            · by_cases h4 : c = 62
              · obtain ⟨b1, a1, a2⟩ := st [38, 103, 116, 59] (by decide)
                exact ⟨b1, by simp [Mustache.renderHTML, h4, a1], by simpa [h4] using a2, by simp [h4]⟩
              · obtain ⟨b1, a1, a2, _⟩ := Buffer.appendChar_ok h c (Or.inr (fun e => h0.1 e.symm)) (by omega)
                refine ⟨b1, by simp [Mustache.renderHTML, h1, h2, h3, h4, a1], ?_, ?_⟩
                · by_cases h5 : c = 39
                  · simpa [h5] using a2
                  · simpa [h1, h2, h3, h4, h5] using a2
                · by_cases h5 : c = 39 <;> simp [h1, h2, h3, h4, h5]
      obtain ⟨b1, a1, a2, a3⟩ := key1
      obtain ⟨b2, c1, c2⟩ := ih h0.2 b1 _ a2 (by simp only [List.length_append]; omega)
      exact ⟨b2, by rw [a1, c1], by simpa [List.append_assoc] using c2⟩
  obtain ⟨b', e1, e2⟩ := key input h0 b s hb hsz
  exact ⟨b', _, e1, e2, Buffer.data_ok e2, htmlText_esc input⟩

example : ∃ b, Buffer.newWithCapacity 4096 = some b ∧ Buffer.Rep b ⟨.cstring, []⟩ := by
  obtain ⟨b, h, r, _⟩ := Buffer.new_ok 4096 (by decide)
  exact ⟨b, h, r⟩
