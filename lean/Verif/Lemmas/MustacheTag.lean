import Verif.Lemmas.MustacheData
import Verif.Props.Replace
import Verif.Props.Tokens
import Verif.Props.Trim
import Verif.Props.Path
/-! # Tags and lines of a template -/
namespace Mustache
open Json (Bytes Elem)

theorem rd_some {t : Bytes} {p : Nat} (h : p ≤ t.length) : ∃ c, rd t p = some c := by
  have : p < (t ++ [0]).length := by simp; omega
  exact ⟨_, List.getElem?_eq_getElem this⟩

theorem rd_eq {t : Bytes} {p : Nat} (h : p < t.length) : rd t p = some t[p] := by
  unfold rd
  rw [List.getElem?_append_left h, List.getElem?_eq_getElem h]

theorem rd_end (t : Bytes) : rd t t.length = some 0 := by simp [rd]

/-! ## The standalone test -/

theorem lineBegin_ok (t : Bytes) : ∀ b, b ≤ t.length → ∃ r, lineBegin t b = some r ∧
    (∀ lb, r = some lb → lb ≤ b ∧ (∀ i, lb ≤ i → i < b → ∃ c, t[i]? = some c ∧ isSpace c = true) ∧ (lb = 0 ∨ ∃ j, lb = j + 1 ∧ t[j]? = some 10)) ∧
    (r = none → ∃ i c, i < b ∧ t[i]? = some c ∧ isSpace c = false ∧ c ≠ 10 ∧ ∀ k, i < k → k < b → ∃ c, t[k]? = some c ∧ isSpace c = true) := by
  intro b
  induction b with
  | zero => intro _; exact ⟨some 0, rfl, by intro lb h; cases h; exact ⟨by omega, by intro i _ h; omega, Or.inl rfl⟩, by simp⟩
  | succ cur ih =>
    intro h
    have hlt : cur < t.length := by omega
    rw [lineBegin]
    simp only [rd_eq hlt, Option.bind_eq_bind, Option.bind_some]
    by_cases hs : isSpace t[cur] = true
    · rw [if_pos hs]
      by_cases h0 : cur = 0
      · subst h0
        rw [if_pos rfl]
        refine ⟨some 0, rfl, ?_, by simp⟩
        intro lb hb; cases hb
        refine ⟨by omega, ?_, Or.inl rfl⟩
        intro i _ hi
        have : i = 0 := by omega
        subst this
        exact ⟨_, List.getElem?_eq_getElem hlt, hs⟩
      · rw [if_neg h0]
        obtain ⟨r, e, h1, h2⟩ := ih (by omega)
        refine ⟨r, e, ?_, ?_⟩
        · intro lb hb
          obtain ⟨a1, a2, a3⟩ := h1 lb hb
          refine ⟨by omega, ?_, a3⟩
          intro i hi hi2
          by_cases hc : i = cur
          · subst hc; exact ⟨_, List.getElem?_eq_getElem hlt, hs⟩
          · exact a2 i hi (by omega)
        · intro hn
          obtain ⟨i, c, b1, b2, b3, b4, b5⟩ := h2 hn
          refine ⟨i, c, by omega, b2, b3, b4, ?_⟩
          intro k hk hk2
          by_cases hc : k = cur
          · subst hc; exact ⟨_, List.getElem?_eq_getElem hlt, hs⟩
          · exact b5 k hk (by omega)
    · rw [if_neg hs]
      by_cases hn : t[cur] = 10
      · rw [if_pos hn]
        refine ⟨some (cur + 1), rfl, ?_, by simp⟩
        intro lb hb; cases hb
        exact ⟨by omega, by intro i h1 h2; omega, Or.inr ⟨cur, rfl, by rw [List.getElem?_eq_getElem hlt, hn]⟩⟩
      · rw [if_neg hn]
        refine ⟨none, rfl, by simp, fun _ => ⟨cur, t[cur], by omega, List.getElem?_eq_getElem hlt, by simpa using hs, hn, by intro k h1 h2; omega⟩⟩

theorem lineEnd_ok (t : Bytes) (h0 : (0 : UInt8) ∉ t) : ∀ n e, e + n = t.length → ∃ r, lineEnd ((t ++ [0]).drop e) e = some r ∧
    (∀ le, r = some le → e ≤ le ∧ le ≤ t.length ∧ (le = t.length ∨ ∃ j, le = j + 1 ∧ e ≤ j ∧ t[j]? = some 10)) := by
  intro n
  induction n with
  | zero =>
    intro e he
    have : e = t.length := by omega
    subst this
    refine ⟨some t.length, by simp [lineEnd, isSpace], ?_⟩
    intro le h; cases h; exact ⟨Nat.le_refl _, Nat.le_refl _, Or.inl rfl⟩
  | succ n ih =>
    intro e he
    have hlt : e < t.length := by omega
    have hd : (t ++ [0]).drop e = t[e] :: (t ++ [0]).drop (e + 1) := by
      rw [List.drop_eq_getElem_cons (by simp; omega), List.getElem_append_left hlt]
    have hgo : ∃ r, lineEnd ((t ++ [0]).drop (e + 1)) (e + 1) = some r ∧
        (∀ le, r = some le → e ≤ le ∧ le ≤ t.length ∧ (le = t.length ∨ ∃ j, le = j + 1 ∧ e ≤ j ∧ t[j]? = some 10)) := by
      obtain ⟨r, e1, e2⟩ := ih (e + 1) (by omega)
      refine ⟨r, e1, ?_⟩
      intro le hle
      obtain ⟨a, b, c⟩ := e2 le hle
      refine ⟨by omega, b, c.imp id ?_⟩
      rintro ⟨j, h1, h2, h3⟩
      exact ⟨j, h1, by omega, h3⟩
    rw [hd, lineEnd.eq_def]
    simp only
    by_cases hs : isSpace t[e] = true
    · rw [if_pos hs]; exact hgo
    · rw [if_neg hs]
      by_cases hn : t[e] = 10
      · rw [if_pos hn]
        refine ⟨_, rfl, ?_⟩
        intro le h; cases h
        exact ⟨by omega, by omega, Or.inr ⟨e, rfl, Nat.le_refl _, by rw [List.getElem?_eq_getElem hlt, hn]⟩⟩
      · rw [if_neg hn]
        by_cases hr : t[e] = 13
        · rw [if_pos hr]
          have hd2 : ∃ d rest, (t ++ [0]).drop (e + 1) = d :: rest ∧ (d = 10 → e + 1 < t.length ∧ t[e + 1]? = some 10) := by
            by_cases hl : e + 1 < t.length
            · refine ⟨t[e + 1], (t ++ [0]).drop (e + 2), ?_, fun h => ⟨hl, by rw [List.getElem?_eq_getElem hl, h]⟩⟩
              rw [List.drop_eq_getElem_cons (by simp; omega), List.getElem_append_left hl]
            · have : e + 1 = t.length := by omega
              exact ⟨0, [], by rw [this]; simp, by simp⟩
          obtain ⟨d, rest, hd2, hd3⟩ := hd2
          rw [hd2] at hgo ⊢
          simp only
          by_cases hdn : d = 10
          · rw [if_pos hdn]
            refine ⟨_, rfl, ?_⟩
            intro le h; cases h
            have := hd3 hdn
            exact ⟨by omega, by omega, Or.inr ⟨e + 1, rfl, by omega, this.2⟩⟩
          · rw [if_neg hdn]; exact hgo
        · rw [if_neg hr]
          by_cases hz : t[e] = 0
          · exact absurd (hz ▸ List.getElem_mem hlt) h0
          · rw [if_neg hz]; exact ⟨none, rfl, by simp⟩

/-- The position of an input pointer: the beginning, the end, or after a byte that is not blank. -/
def InputOK (t : Bytes) (input : Nat) : Prop := input ≤ t.length ∧ (input = t.length ∨ input = 0 ∨ ∃ j c, input = j + 1 ∧ t[j]? = some c ∧ isSpace c = false)

/-- A delimiter. -/
def DelimOK (d : Bytes) : Prop := d ≠ [] ∧ d.length < maxDelim ∧ ∀ c ∈ d, isSpace c = false

theorem trimLead_ok (rest : Bytes) : ∀ content len, (∃ c, rest[len]? = some c ∧ isSpace c = false) → ∃ j, j ≤ len ∧ trimLead rest content len = some (content + j, len - j) := by
  induction rest with
  | nil => rintro content len ⟨c, h, _⟩; simp at h
  | cons a rest ih =>
    rintro content len ⟨c, h, hc⟩
    rw [trimLead]
    by_cases hs : isSpace a = true
    · rw [if_pos hs]
      cases len with
      | zero => simp at h; subst h; rw [hs] at hc; cases hc
      | succ len =>
        obtain ⟨j, h1, h2⟩ := ih (content + 1) len ⟨c, by simpa using h, hc⟩
        exact ⟨j + 1, by omega, by simp [h2]; omega⟩
    · rw [if_neg hs]; exact ⟨0, by omega, by simp⟩

theorem trimTrail_ok (t : Bytes) (content : Nat) : ∀ len, content + len ≤ t.length → ∃ l, l ≤ len ∧ trimTrail t content len = some l := by
  intro len
  induction len with
  | zero => intro _; exact ⟨0, Nat.le_refl _, rfl⟩
  | succ len ih =>
    intro h
    rw [trimTrail]
    simp only [rd_eq (show content + len < t.length by omega), Option.bind_eq_bind, Option.bind_some]
    by_cases hs : isSpace t[content + len] = true
    · rw [if_pos hs]
      obtain ⟨l, h1, h2⟩ := ih (by omega)
      exact ⟨l, by omega, h2⟩
    · rw [if_neg hs]; exact ⟨_, Nat.le_refl _, rfl⟩

theorem strstr_bounds {s pat : Bytes} {i : Nat} (h : Str.strstr s pat = some i) : i + pat.length ≤ s.length ∧ pat <+: s.drop i := by
  obtain ⟨h1, h2, _⟩ := Str.strstr_some h
  refine ⟨h2, ?_⟩
  have : s.drop i = pat ++ s.drop (i + pat.length) := by
    conv => lhs; rw [h1]
    rw [List.append_assoc, List.drop_append_of_le_length (by simp; omega), List.drop_of_length_le (by simp; omega), List.nil_append]
  rw [this]; exact List.prefix_append _ _

theorem prefix_last {pat s : Bytes} (h : pat <+: s) (hne : pat ≠ []) : ∃ c, s[pat.length - 1]? = some c ∧ c ∈ pat := by
  obtain ⟨r, rfl⟩ := h
  have : pat.length - 1 < pat.length := by have := List.length_pos_iff.mpr hne; omega
  exact ⟨pat[pat.length - 1], by rw [List.getElem?_append_left this, List.getElem?_eq_getElem this], List.getElem_mem _⟩

theorem prefix_first {pat s : Bytes} (h : pat <+: s) (hne : pat ≠ []) : ∃ c, s[0]? = some c ∧ c ∈ pat := by
  obtain ⟨r, rfl⟩ := h
  cases pat with
  | nil => exact absurd rfl hne
  | cons a l => exact ⟨a, by simp, by simp⟩

theorem tagKind_le (c : UInt8) : (tagKind c).2.1 ≤ 1 ∧ ((tagKind c).2.1 = 1 → c ≠ 0) ∧ ((tagKind c).1 ≠ .none ∧ (tagKind c).1 ≠ .err) ∧
    (∀ x, (tagKind c).2.2 = some x → x = 61 ∨ x = 125) := by
  revert c
  intro c
  exact Str.byte_all (P := fun c => (tagKind c).2.1 ≤ 1 ∧ ((tagKind c).2.1 = 1 → c ≠ 0) ∧ ((tagKind c).1 ≠ .none ∧ (tagKind c).1 ≠ .err) ∧
    (∀ x, (tagKind c).2.2 = some x → x = 61 ∨ x = 125)) (by
      intro k
      have h : ∀ k : Fin 256, (tagKind (UInt8.ofNat k.val)).2.1 ≤ 1 ∧ ((tagKind (UInt8.ofNat k.val)).2.1 = 1 → UInt8.ofNat k.val ≠ 0) ∧
        ((tagKind (UInt8.ofNat k.val)).1 ≠ .none ∧ (tagKind (UInt8.ofNat k.val)).1 ≠ .err) ∧
        ((tagKind (UInt8.ofNat k.val)).2.2 = none ∨ (tagKind (UInt8.ofNat k.val)).2.2 = some 61 ∨ (tagKind (UInt8.ofNat k.val)).2.2 = some 125) := by decide +kernel
      obtain ⟨a, b, c, d⟩ := h k
      refine ⟨a, b, c, ?_⟩
      intro x hx
      rcases d with d | d | d <;> rw [d] at hx <;> cases hx <;> simp) c

/-- The end of a tag: inside the template, after a byte of the delimiter; the byte after the content is not blank. -/
theorem tagEnd_ok {t de : Bytes} {content : Nat} {x : Option UInt8} {len fin : Nat} (hde : DelimOK de) (hx : ∀ y, x = some y → isSpace y = false) (hc : content ≤ t.length)
    (h : tagEnd t de content x = some (len, fin)) : content + len < fin ∧ fin ≤ t.length ∧ (∃ j c, fin = j + 1 ∧ t[j]? = some c ∧ isSpace c = false) ∧
      (∃ c, t[content + len]? = some c ∧ isSpace c = false) := by
  obtain ⟨hne, _, hsp⟩ := hde
  have hpos : 0 < de.length := List.length_pos_iff.mpr hne
  cases x with
  | none =>
    simp only [tagEnd] at h
    cases hs : Str.strstr (t.drop content) de with
    | none => rw [hs] at h; cases h
    | some k =>
      rw [hs] at h
      simp only [Option.some.injEq, Prod.mk.injEq] at h
      obtain ⟨rfl, rfl⟩ := h
      obtain ⟨b1, b2⟩ := strstr_bounds hs
      simp at b1
      obtain ⟨c, l1, l2⟩ := prefix_last b2 hne
      obtain ⟨d, f1, f2⟩ := prefix_first b2 hne
      rw [List.getElem?_drop, List.getElem?_drop] at l1 f1
      exact ⟨by omega, by omega, ⟨content + k + (de.length - 1), c, by omega, by rw [← l1]; congr 1; omega, hsp c l2⟩, ⟨d, by rw [← f1]; congr 1, hsp d f2⟩⟩
  | some y =>
    simp only [tagEnd] at h
    cases hs : Str.strstr (t.drop content) [y] with
    | none => rw [hs] at h; cases h
    | some k =>
      rw [hs] at h
      simp only at h
      split at h
      · rename_i hp
        simp only [Option.some.injEq, Prod.mk.injEq] at h
        obtain ⟨rfl, rfl⟩ := h
        obtain ⟨b1, b2⟩ := strstr_bounds hs
        simp at b1
        have hp' := List.isPrefixOf_iff_prefix.mp hp
        have hpl := hp'.length_le
        simp at hpl
        obtain ⟨c, l1, l2⟩ := prefix_last hp' hne
        obtain ⟨d, f1, f2⟩ := prefix_first b2 (by simp)
        rw [List.getElem?_drop] at l1
        rw [List.getElem?_drop, List.getElem?_drop] at f1
        simp at f2
        subst f2
        exact ⟨by omega, by omega, ⟨content + k + 1 + (de.length - 1), c, by omega, l1, hsp c l2⟩, ⟨d, by rw [← f1]; congr 1, hx d rfl⟩⟩
      · cases h

/-- What is known of any tag found. -/
structure TagOK (t : Bytes) (input : Nat) (tag : Tag) : Prop where
  cases : (tag.type = .none ∧ tag.begin = none ∧ tag.fin = none) ∨ (tag.type = .err ∧ tag.fin = none ∧ ∃ b, tag.begin = some b ∧ input ≤ b) ∨
    (tag.type ≠ .none ∧ tag.type ≠ .err ∧ ∃ b e, tag.begin = some b ∧ tag.fin = some e ∧ input ≤ b ∧ b < e ∧ e ≤ t.length ∧ tag.content + tag.len < e ∧
      ∃ j c, e = j + 1 ∧ t[j]? = some c ∧ isSpace c = false)

theorem nextTag_ok {t : Bytes} (h0 : (0 : UInt8) ∉ t) {input : Nat} {ds de : Bytes} (hds : DelimOK ds) (hde : DelimOK de) (hi : input ≤ t.length) :
    ∃ tag, nextTag t input ds de = some tag ∧ TagOK t input tag := by
  unfold nextTag
  cases hs : Str.strstr (t.drop input) ds with
  | none => exact ⟨_, rfl, ⟨Or.inl ⟨rfl, rfl, rfl⟩⟩⟩
  | some k =>
    obtain ⟨b1, b2⟩ := strstr_bounds hs
    simp at b1
    have hpos : 0 < ds.length := List.length_pos_iff.mpr hds.1
    obtain ⟨c, hc⟩ := rd_some (t := t) (p := input + k + ds.length) (by omega)
    obtain ⟨k1, k2, ⟨k3, k4⟩, k5⟩ := tagKind_le c
    simp only [hc, Option.bind_eq_bind, Option.bind_some]
    have hcontent : input + k + ds.length + (tagKind c).2.1 ≤ t.length := by
      by_cases h1 : (tagKind c).2.1 = 1
      · have hcz := k2 h1
        have : input + k + ds.length ≠ t.length := by
          intro he; rw [he, rd_end] at hc; cases hc; exact hcz rfl
        omega
      · omega
    cases he : tagEnd t de (input + k + ds.length + (tagKind c).2.1) (tagKind c).2.2 with
    | none => exact ⟨_, rfl, ⟨Or.inr (Or.inl ⟨rfl, rfl, _, rfl, by omega⟩)⟩⟩
    | some lf =>
      obtain ⟨len, fin⟩ := lf
      obtain ⟨f1, f2, f3, f4, f5, f6⟩ := tagEnd_ok hde (fun y hy => by rcases k5 y hy with rfl | rfl <;> decide) hcontent he
      simp only
      obtain ⟨j, j1, j2⟩ := trimLead_ok ((t ++ [0]).drop (input + k + ds.length + (tagKind c).2.1)) (input + k + ds.length + (tagKind c).2.1) len
        ⟨f4, by
          rw [List.getElem?_drop, List.getElem?_append_left]
          · exact f5
          · exact (List.getElem?_eq_some_iff.mp f5).1, f6⟩
      obtain ⟨l, l1, l2⟩ := trimTrail_ok t (input + k + ds.length + (tagKind c).2.1 + j) (len - j) (by omega)
      simp only [j2, Option.bind_some, l2]
      exact ⟨_, rfl, ⟨Or.inr (Or.inr ⟨k3, k4, _, _, rfl, rfl, by omega, by omega, f2, by simp only; omega, f3⟩)⟩⟩

theorem bounds_ok {t : Bytes} (h0 : (0 : UInt8) ∉ t) {input : Nat} {tag : Tag} (hi : InputOK t input) (h : TagOK t input tag) :
    ∃ b1 b2, bounds t tag = some (b1, b2) ∧ (∀ e, b1 = some e → input ≤ e) ∧ (tag.fin = none → b2 = none) ∧
      (∀ f, tag.fin = some f → ∃ e, b2 = some e ∧ input < e ∧ InputOK t e) := by
  rcases h.cases with ⟨h1, h2, h3⟩ | ⟨h1, h2, b, h3, h4⟩ | ⟨h1, h2, b, e, h3, h4, h5, h6, h7, h8, h9⟩
  · exact ⟨none, none, by simp [bounds, h1, h2, h3, isTagTypeRenderable], by simp, by simp, by simp [h3]⟩
  · exact ⟨some b, none, by simp [bounds, h1, h2, h3, isTagTypeRenderable], by simpa using h4, by simp, by simp [h2]⟩
  · have hin : InputOK t e := by
      obtain ⟨j, c, a1, a2, a3⟩ := h9
      exact ⟨h7, Or.inr (Or.inr ⟨j, c, a1, a2, a3⟩)⟩
    by_cases hr : isTagTypeRenderable tag.type = true
    · refine ⟨some b, some e, by simp [bounds, hr, h3, h4], by simpa using h5, by simp [h4], ?_⟩
      intro f hf
      exact ⟨e, rfl, by omega, hin⟩
    · have hr' : isTagTypeRenderable tag.type = false := by simpa using hr
      obtain ⟨r, l1, l2, _⟩ := lineBegin_ok t b (by omega)
      obtain ⟨r', m1, m2⟩ := lineEnd_ok t h0 (t.length - e) e (by omega)
      have key : bounds t tag = (isTagStandalone t b e).bind fun s => match s with
          | some (lb, le) => some (some lb, some le)
          | none => some (some b, some e) := by simp only [bounds, hr', h3, h4]; rfl
      rw [key]
      unfold isTagStandalone
      simp only [l1, m1, Option.bind_eq_bind, Option.bind_some]
      cases r with
      | none => exact ⟨some b, some e, rfl, by simpa using h5, by simp [h4], fun f _ => ⟨e, rfl, by omega, hin⟩⟩
      | some lb =>
        cases r' with
        | none => exact ⟨some b, some e, rfl, by simpa using h5, by simp [h4], fun f _ => ⟨e, rfl, by omega, hin⟩⟩
        | some le =>
          obtain ⟨p1, p2, p3⟩ := l2 lb rfl
          obtain ⟨q1, q2, q3⟩ := m2 le rfl
          refine ⟨some lb, some le, rfl, ?_, by simp [h4], fun f _ => ⟨le, rfl, by omega, q2, ?_⟩⟩
          · intro x hx; cases hx
            by_cases hlt : input ≤ lb
            · exact hlt
            · rcases hi.2 with g | g | ⟨j, c, g1, g2, g3⟩
              · omega
              · omega
              · obtain ⟨c', w1, w2⟩ := p2 j (by omega) (by omega)
                rw [g2] at w1; cases w1; rw [g3] at w2; cases w2
          · rcases q3 with q | ⟨j, q4, q5, q6⟩
            · exact Or.inl q
            · exact Or.inr (Or.inr ⟨j, 10, q4, q6, by decide⟩)

/-! ## Delimiters -/

/-- A blank-free word of ten bytes occurs in the template. -/
def TenWord (t : Bytes) : Prop := ∃ w : Bytes, w.length = maxDelim ∧ (∀ c ∈ w, isSpace c = false) ∧ w <:+: t

theorem pieces_free {sep : UInt8 → Bool} {s p : Bytes} (h : p ∈ TokenSpec.pieces sep s) : ∀ c ∈ p, sep c = false := by
  induction s generalizing p with
  | nil => simp [TokenSpec.pieces] at h; subst h; simp
  | cons a s ih =>
    simp only [TokenSpec.pieces] at h
    split at h
    · rcases List.mem_cons.mp h with rfl | h
      · simp
      · exact ih h
    · rename_i ha
      split at h
      · simp at h; subst h; simpa using ha
      · rename_i q qs hq
        rcases List.mem_cons.mp h with rfl | h
        · intro c hc
          rcases List.mem_cons.mp hc with rfl | hc
          · simpa using ha
          · exact ih (by rw [hq]; simp) c hc
        · exact ih (by rw [hq]; simp [h])

theorem tokens_free {sep : UInt8 → Bool} {s p : Bytes} (h : p ∈ TokenSpec.tokens sep s) : ∀ c ∈ p, sep c = false :=
  pieces_free (List.mem_filter.mp h).1

theorem tok_ok {content : Bytes} {i : Nat} (h : i < Str.countTokens content [32, 9]) : tok content i ≠ [] ∧ (∀ c ∈ tok content i, isSpace c = false) ∧ tok content i <:+: content := by
  obtain ⟨off, len, h1, h2, h3⟩ := C41_getToken content [32, 9] i h
  have e : tok content i = (content.drop off).take len := by simp [tok, h1]
  rw [e]
  have hm := List.mem_of_getElem? h3
  refine ⟨?_, ?_, ?_⟩
  · have := (List.mem_filter.mp hm).2
    simpa using this
  · intro c hc
    have := tokens_free hm c hc
    simp only [Bool.or_eq_false_iff] at this
    have h2 := this.2
    simp [isSpace] at h2 ⊢
    exact ⟨h2.2, h2.1⟩
  · exact ⟨content.take off, (content.drop off).drop len, by rw [List.append_assoc, List.take_append_drop, List.take_append_drop]⟩

theorem setDelimiters_ok (content : Bytes) : (∀ ds de, setDelimiters content = .ok ds de → DelimOK ds ∧ DelimOK de) ∧
    (setDelimiters content = .overflow → ∃ w : Bytes, w.length = maxDelim ∧ (∀ c ∈ w, isSpace c = false) ∧ w <:+: content) := by
  unfold setDelimiters
  split
  · simp
  · rename_i h
    simp only [ne_eq, Decidable.not_not] at h
    obtain ⟨a1, a2, a3⟩ := tok_ok (content := content) (i := 0) (by omega)
    obtain ⟨b1, b2, b3⟩ := tok_ok (content := content) (i := 1) (by omega)
    simp only
    split
    · simp
    · split
      · exact ⟨by simp, fun _ => ⟨_, by assumption, a2, a3⟩⟩
      · split
        · simp
        · split
          · exact ⟨by simp, fun _ => ⟨_, by assumption, b2, b3⟩⟩
          · refine ⟨?_, by simp⟩
            rintro ds de e
            cases e
            exact ⟨⟨a1, by omega, a2⟩, ⟨b1, by omega, b2⟩⟩

theorem startsAt_eq (t : Bytes) (p : Nat) (pre : Bytes) : startsAt t p pre = some (pre.isPrefixOf (t.drop p)) := by
  unfold startsAt
  rw [C65_startsWith]
  congr 1
  rw [Bool.eq_iff_iff, decide_eq_true_iff, List.isPrefixOf_iff_prefix]

theorem isKeyExtensionVar_ok {t : Bytes} {type : TagType} {b : Nat} {ds de : Bytes} (hb : b + ds.length ≤ t.length) : ∃ r, isKeyExtensionVar t type b ds de = some r := by
  obtain ⟨c, hc⟩ := rd_some hb
  unfold isKeyExtensionVar
  simp only [startsAt_eq, hc, Option.bind_eq_bind, Option.bind_some]
  repeat' split
  all_goals exact ⟨_, rfl⟩

end Mustache
