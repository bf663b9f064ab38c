import Verif.Spec.JsonRfc
import Verif.Props.JsonText
import Verif.Props.JsonLoose
/-! # C72: every text of RFC 8259 is accepted -/
open JsonSpec
open Json (Bytes)
namespace Json

theorem hex_ne {a : UInt8} (h : IsHex a) : a ≠ 34 ∧ a ≠ 92 ∧ a ≠ 0 := by
  refine ⟨?_, ?_, ?_⟩ <;> rintro rfl <;> simp [IsHex] at h <;> exact absurd h (by decide)

theorem rfcChars_loose {t : Bytes} (h : RfcChars t) : ∃ u, LooseChars t u := by
  induction h with
  | nil => exact ⟨_, .nil⟩
  | plain h1 h2 h3 _ ih => obtain ⟨u, hu⟩ := ih; exact ⟨_, .plain h2 h3 hu⟩
  | escape hd _ ih =>
    obtain ⟨u, hu⟩ := ih
    rename_i d t _
    have : ∃ c, (d, c) ∈ escapeOf := by
      simp only [List.mem_cons, List.not_mem_nil, or_false] at hd
      rcases hd with rfl | rfl | rfl | rfl | rfl | rfl | rfl | rfl <;> exact ⟨_, by simp [escapeOf]; rfl⟩
    obtain ⟨c, hc⟩ := this
    exact ⟨_, .escape hc hu⟩
  | unicode ha hb hc hd _ ih =>
    obtain ⟨u, hu⟩ := ih
    exact ⟨_, .other (by intro c; simp [escapeOf]) (.plain (hex_ne ha).1 (hex_ne ha).2.1 (.plain (hex_ne hb).1 (hex_ne hb).2.1 (.plain (hex_ne hc).1 (hex_ne hc).2.1 (.plain (hex_ne hd).1 (hex_ne hd).2.1 hu))))⟩

theorem secondPass_total : ∀ u : Bytes, ∃ v, SecondPass u v
  | [] => ⟨_, .nil⟩
  | [c] => ⟨_, .keep (by intro d x t' _ h; cases h) .nil⟩
  | c :: d :: t => by
    by_cases h : c = 92 ∧ d ≠ 47 ∧ ∃ x, (d, x) ∈ escapeOf
    · obtain ⟨rfl, hd, x, hx⟩ := h
      obtain ⟨v, hv⟩ := secondPass_total t
      exact ⟨_, .escape hx hd hv⟩
    · obtain ⟨v, hv⟩ := secondPass_total (d :: t)
      refine ⟨_, .keep ?_ hv⟩
      intro d' x t' hc ht hx
      cases ht
      by_cases h47 : d = 47
      · exact h47
      · exact absurd ⟨hc, h47, x, hx⟩ h

theorem number_text {t : Bytes} {real : Bool} (h : Number t real) : NumberText t ∧ (46 ∈ t ↔ real = true) := by
  have h0 : 0 ∉ t := fun h' => absurd ((number_chars h).1 0 h') (by simp [NumChar, Dig])
  have hv : Value NoEscapes t (if real then .real t else .integer t) := by
    cases real
    · exact .integer h
    · exact .real h
  obtain ⟨e, q, h1, h2⟩ := C72_rfc_text_accepted_partial t _ ⟨[], t, [], by simp, by simp [Blank], hv, by simp [Blank]⟩
  have hq : q < t.length := by
    rcases C25_parse_total_partial t h0 (by
        obtain ⟨_, _, r, c, h3, h4⟩ := number_chars h
        rw [h3]; simp; rintro rfl; simp [Dig] at h4) with ⟨_, h'⟩ | ⟨_, _, h3, h4, _⟩
    · rw [h1] at h'; cases h'
    · rw [h1] at h3; cases h3; exact h4
  obtain ⟨a, v, g1, g2, g3⟩ := (C88_accepts_exactly t h0 _ _).1 ⟨e, q, h1, h2, hq, rfl⟩
  cases real
  · generalize hd : (if false = true then Doc.real t else .integer t) = d at g3
    cases g3 <;> simp at hd
    subst hd
    exact ⟨‹_›, by simpa using ‹46 ∉ t›⟩
  · generalize hd : (if true = true then Doc.real t else .integer t) = d at g3
    cases g3 <;> simp at hd
    subst hd
    exact ⟨‹_›, by simpa using ‹46 ∈ t›⟩

theorem blank_isBlank {w : Bytes} (h : Blank w) : ∀ c ∈ w, IsBlank c := h

theorem sep_blank {b r : Bytes} (h : Blank b) (hr : AtSeparator r) : AtSeparator (b ++ r) := by
  intro c r' he
  cases b with
  | nil => exact hr c r' he
  | cons x b => cases he; exact Or.inl (h _ (by simp))
theorem sep_cons {c : UInt8} {r : Bytes} (h : c = 44 ∨ c = 93 ∨ c = 125) : AtSeparator (c :: r) := by
  intro x r' he; cases he; exact Or.inr h

theorem items_blank {p : Place} {i r : Bytes} {ds : List Doc} : ∀ {a : Bytes}, Blank a → ReadsItems p i r ds → ReadsItems p (a ++ i) r ds
  | [], _, h => h
  | c :: a, ha, h => .blank (ha c (by simp)) (items_blank (fun x hx => ha x (by simp [hx])) h)
theorem members_blank {p : Bool} {i r : Bytes} {ms : List (Bytes × Doc)} : ∀ {a : Bytes}, Blank a → ReadsMembers p i r ms → ReadsMembers p (a ++ i) r ms
  | [], _, h => h
  | c :: a, ha, h => .blank (ha c (by simp)) (members_blank (fun x hx => ha x (by simp [hx])) h)
theorem member_blank {k : Bytes} {p : Bool} {i r : Bytes} {ms : List (Bytes × Doc)} : ∀ {a : Bytes}, Blank a → ReadsMember k p i r ms → ReadsMember k p (a ++ i) r ms
  | [], _, h => h
  | c :: a, ha, h => .blank (ha c (by simp)) (member_blank (fun x hx => ha x (by simp [hx])) h)

mutual
theorem rfc_reads : ∀ {t : Bytes} {d : Doc}, RfcValue LibString LooseChars t d → ∀ r, AtSeparator r → Reads (t ++ r) r d
  | _, _, .null, r, hr => .null hr
  | _, _, .true, r, hr => .true hr
  | _, _, .false, r, hr => .false hr
  | _, _, .integer h, r, hr => .integer (number_text h).1 (by rw [(number_text h).2]; simp) hr
  | _, _, .real h, r, hr => .real (number_text h).1 (by rw [(number_text h).2]) hr
  | _, _, .string _ hs, r, hr => by
    obtain ⟨u, h1, h2⟩ := hs
    have := Reads.string (r := r) h1 h2
    simpa using this
  | _, _, .emptyArray hw, r, hr => by
    have := Reads.array (items_blank hw (.close (p := .start) (r := r)))
    simpa using this
  | _, _, .array hi, r, hr => by
    have := Reads.array (rfc_items hi .start (by simp) r)
    simpa using this
  | _, _, .emptyObject hw, r, hr => by
    have := Reads.object (members_blank hw (.close (b := false) (r := r)))
    simpa using this
  | _, _, .object hm, r, hr => by
    have := Reads.object (rfc_members hm false r)
    simpa using this
theorem rfc_items : ∀ {t : Bytes} {ds : List Doc}, RfcItems LibString LooseChars t ds → ∀ p, p ≠ Place.value → ∀ r, ReadsItems p (t ++ 93 :: r) r ds
  | _, _, .one ha hv hb, p, hp, r => by
    have := items_blank ha (.item (p := p) (rfc_reads hv _ (sep_blank hb (sep_cons (r := r) (Or.inr (Or.inl rfl))))) (fun h => absurd h hp) (items_blank hb .close))
    simpa using this
  | _, _, .more ha hv hb hi, p, hp, r => by
    have := items_blank ha (.item (p := p) (rfc_reads hv _ (sep_blank hb (sep_cons (Or.inl rfl)))) (fun h => absurd h hp)
      (items_blank hb (.comma (rfc_items hi .comma (by simp) r))))
    simpa using this
theorem rfc_members : ∀ {t : Bytes} {ms : List (Bytes × Doc)}, RfcMembers LibString LooseChars t ms → ∀ b r, ReadsMembers b (t ++ 125 :: r) r ms
  | _, _, .one ha _ hk hb hc hv he, p, r => by
    have := members_blank ha (.quoted (b := p) hk (member_blank hb (.colon (member_blank hc (.value (rfc_reads hv _ (sep_blank he (sep_cons (r := r) (Or.inr (Or.inr rfl)))))
      (members_blank he .close))))))
    simpa using this
  | _, _, .more ha _ hk hb hc hv he hm, p, r => by
    have := members_blank ha (.quoted (b := p) hk (member_blank hb (.colon (member_blank hc (.value (rfc_reads hv _ (sep_blank he (sep_cons (Or.inl rfl))))
      (members_blank he (.comma (rfc_members hm true r))))))))
    simpa using this
end

theorem libString_total {t : Bytes} (h : RfcChars t) : ∃ v, LibString t v := by
  obtain ⟨u, hu⟩ := rfcChars_loose h
  obtain ⟨v, hv⟩ := secondPass_total u
  exact ⟨v, u, hu, hv⟩

section
variable {str key str' key' : Bytes → Bytes → Prop} (hs : ∀ t, RfcChars t → ∃ v, str' t v) (hk : ∀ t, RfcChars t → ∃ v, key' t v)
include hs hk
mutual
theorem rfc_other : ∀ {t : Bytes} {d : Doc}, RfcValue str key t d → ∃ d', RfcValue str' key' t d'
  | _, _, .null => ⟨_, .null⟩
  | _, _, .true => ⟨_, .true⟩
  | _, _, .false => ⟨_, .false⟩
  | _, _, .integer h => ⟨_, .integer h⟩
  | _, _, .real h => ⟨_, .real h⟩
  | _, _, .string h _ => ⟨_, .string h (hs _ h).choose_spec⟩
  | _, _, .emptyArray hw => ⟨_, .emptyArray hw⟩
  | _, _, .array hi => ⟨_, .array (rfc_otherItems hi).choose_spec⟩
  | _, _, .emptyObject hw => ⟨_, .emptyObject hw⟩
  | _, _, .object hm => ⟨_, .object (rfc_otherMembers hm).choose_spec⟩
theorem rfc_otherItems : ∀ {t : Bytes} {d : List Doc}, RfcItems str key t d → ∃ d', RfcItems str' key' t d'
  | _, _, .one ha hv hb => ⟨_, .one ha (rfc_other hv).choose_spec hb⟩
  | _, _, .more ha hv hb hi => ⟨_, .more ha (rfc_other hv).choose_spec hb (rfc_otherItems hi).choose_spec⟩
theorem rfc_otherMembers : ∀ {t : Bytes} {d : List (Bytes × Doc)}, RfcMembers str key t d → ∃ d', RfcMembers str' key' t d'
  | _, _, .one ha h _ hb hc hv he => ⟨_, .one ha h (hk _ h).choose_spec hb hc (rfc_other hv).choose_spec he⟩
  | _, _, .more ha h _ hb hc hv he hm => ⟨_, .more ha h (hk _ h).choose_spec hb hc (rfc_other hv).choose_spec he (rfc_otherMembers hm).choose_spec⟩
end
end

theorem blank_ne0 {w : Bytes} (h : Blank w) : 0 ∉ w := fun h' => by have := h 0 h'; simp at this
theorem rfcChars_ne0 {t : Bytes} (h : RfcChars t) : 0 ∉ t := by
  induction h with
  | nil => simp
  | plain h1 _ _ _ ih =>
    simp only [List.mem_cons, not_or]
    exact ⟨by rintro rfl; simp at h1, ih⟩
  | escape hd _ ih =>
    simp only [List.mem_cons, not_or]
    exact ⟨by decide, by rintro rfl; simp at hd, ih⟩
  | unicode ha hb hc hd _ ih =>
    simp only [List.mem_cons, not_or]
    exact ⟨by decide, by decide, Ne.symm (hex_ne ha).2.2, Ne.symm (hex_ne hb).2.2, Ne.symm (hex_ne hc).2.2, Ne.symm (hex_ne hd).2.2, ih⟩

mutual
theorem rfc_ne0 {str key : Bytes → Bytes → Prop} : ∀ {t : Bytes} {d : Doc}, RfcValue str key t d → 0 ∉ t
  | _, _, .null => by decide
  | _, _, .true => by decide
  | _, _, .false => by decide
  | _, _, .integer h => fun h' => absurd ((number_chars h).1 0 h') (by simp [NumChar, Dig])
  | _, _, .real h => fun h' => absurd ((number_chars h).1 0 h') (by simp [NumChar, Dig])
  | _, _, .string h _ => by simp [rfcChars_ne0 h]
  | _, _, .emptyArray hw => by simp [blank_ne0 hw]
  | _, _, .array hi => by simp [rfc_ne0Items hi]
  | _, _, .emptyObject hw => by simp [blank_ne0 hw]
  | _, _, .object hm => by simp [rfc_ne0Members hm]
theorem rfc_ne0Items {str key : Bytes → Bytes → Prop} : ∀ {t : Bytes} {d : List Doc}, RfcItems str key t d → 0 ∉ t
  | _, _, .one ha hv hb => by simp [blank_ne0 ha, blank_ne0 hb, rfc_ne0 hv]
  | _, _, .more ha hv hb hi => by simp [blank_ne0 ha, blank_ne0 hb, rfc_ne0 hv, rfc_ne0Items hi]
theorem rfc_ne0Members {str key : Bytes → Bytes → Prop} : ∀ {t : Bytes} {d : List (Bytes × Doc)}, RfcMembers str key t d → 0 ∉ t
  | _, _, .one ha h _ hb hc hv he => by simp [blank_ne0 ha, blank_ne0 hb, blank_ne0 hc, blank_ne0 he, rfc_ne0 hv, rfcChars_ne0 h]
  | _, _, .more ha h _ hb hc hv he hm => by simp [blank_ne0 ha, blank_ne0 hb, blank_ne0 hc, blank_ne0 he, rfc_ne0 hv, rfcChars_ne0 h, rfc_ne0Members hm]
end
end Json

/-- C72: every JSON text of RFC 8259, with all its escapes and without any restriction on its strings, is accepted; the document it gives is the one the text denotes, except that string values
are what `LibString` says (escapes replaced twice, `\u` kept as it is written) and in keys `\u` is kept as it is written. Only blanks are left unread. -/
theorem C72_every_text_is_read (t : Bytes) (d : Doc) (h : RfcText LibString LooseChars t d) :
    ∃ e q, Json.parse t = some (.ok (e, q)) ∧ doc e = d ∧ q < t.length ∧ Blank (t.drop (q + 1)) := by
  obtain ⟨a, v, b, rfl, ha, hv, hb⟩ := h
  have h0 : 0 ∉ a ++ (v ++ b) := by simp [Json.blank_ne0 ha, Json.blank_ne0 hb, Json.rfc_ne0 hv]
  have hsep : AtSeparator b := by simpa using Json.sep_blank (r := []) hb (by intro c r' h; cases h)
  obtain ⟨e, q, h1, h2, h3, h4⟩ := (C88_accepts_exactly _ h0 d b).2 ⟨a, v ++ b, rfl, ha, Json.rfc_reads hv b hsep⟩
  exact ⟨e, q, h1, h2, h3, by rw [h4]; exact hb⟩

/-- C72 (half of it, in full): every JSON text of RFC 8259 is accepted. -/
theorem C72_every_text_accepted (t : Bytes) (h : IsRfcText t) : ∃ e q, Json.parse t = some (.ok (e, q)) ∧ Blank (t.drop (q + 1)) := by
  obtain ⟨d, a, v, b, rfl, ha, hv, hb⟩ := h
  obtain ⟨d', hv'⟩ := Json.rfc_other (str' := LibString) (key' := LooseChars) (fun _ => Json.libString_total) (fun _ => Json.rfcChars_loose) hv
  obtain ⟨e, q, h1, _, _, h2⟩ := C72_every_text_is_read _ d' ⟨a, v, b, rfl, ha, hv', hb⟩
  exact ⟨e, q, h1, h2⟩

/-- C72 (negation of "returns the document the text denotes"): `\u` escapes, which denote a character, are kept as they are written, in values and in keys: for all hexadecimal digits. -/
theorem C72_unicode_escapes_kept_negated (a b c d : UInt8) (ha : IsHex a) (hb : IsHex b) (hc : IsHex c) (hd : IsHex d) :
    (∃ e q, Json.parse [34, 92, 117, a, b, c, d, 34] = some (.ok (e, q)) ∧ doc e = .string [92, 117, a, b, c, d]) ∧
    ∃ e q f, Json.parse [123, 34, 92, 117, a, b, c, d, 34, 58, 49, 125] = some (.ok (e, q)) ∧ doc e = .object f ∧ f [92, 117, a, b, c, d] = some (.integer [49]) := by
  have hn := fun {x : UInt8} (h : IsHex x) => Json.hex_ne h
  have hl : LooseChars [92, 117, a, b, c, d] [92, 117, a, b, c, d] :=
    .other (by intro c; simp [escapeOf]) (.plain (hn ha).1 (hn ha).2.1 (.plain (hn hb).1 (hn hb).2.1 (.plain (hn hc).1 (hn hc).2.1 (.plain (hn hd).1 (hn hd).2.1 .nil))))
  have hr : RfcChars [92, 117, a, b, c, d] := .unicode ha hb hc hd .nil
  have hs : SecondPass [92, 117, a, b, c, d] [92, 117, a, b, c, d] := by
    have k : ∀ {x : UInt8} {t s : Bytes}, x ≠ 92 → SecondPass t s → SecondPass (x :: t) (x :: s) := fun hx h => .keep (fun d y t' h' => absurd h' hx) h
    refine .keep ?_ (k (by decide) (k (hn ha).2.1 (k (hn hb).2.1 (k (hn hc).2.1 (k (hn hd).2.1 .nil)))))
    intro d y t' _ ht hy
    cases ht
    simp [escapeOf] at hy
  constructor
  · obtain ⟨e, q, h1, h2, _⟩ := C72_every_text_is_read [34, 92, 117, a, b, c, d, 34] (.string [92, 117, a, b, c, d])
      ⟨[], _, [], by simp, by simp [Blank], RfcValue.string hr ⟨_, hl, hs⟩, by simp [Blank]⟩
    exact ⟨e, q, h1, h2⟩
  · have hnum : Number [49] false := ⟨[49], [], rfl, ⟨[], [49], [], rfl, Or.inl rfl, Or.inr ⟨49, [], rfl, by decide, by decide, by simp⟩, rfl⟩, Or.inl rfl⟩
    obtain ⟨e, q, h1, h2, _⟩ := C72_every_text_is_read [123, 34, 92, 117, a, b, c, d, 34, 58, 49, 125] _
      ⟨[], _, [], by simp, by simp [Blank], RfcValue.object (RfcMembers.one (a := []) (b := []) (c := []) (t := [49]) (e := []) (by simp [Blank]) hr hl (by simp [Blank]) (by simp [Blank])
        (.integer hnum) (by simp [Blank])), by simp [Blank]⟩
    exact ⟨e, q, _, h1, h2, by simp⟩

/-- `"\u0041"` is a JSON text; it denotes "A", the library reads it as six characters. -/
example : IsRfcText [34, 92, 117, 48, 48, 52, 49, 34] :=
  ⟨.string [], [], _, [], by simp, by simp [Blank], RfcValue.string (t := [92, 117, 48, 48, 52, 49]) (.unicode (by decide) (by decide) (by decide) (by decide) .nil) trivial, by simp [Blank]⟩
