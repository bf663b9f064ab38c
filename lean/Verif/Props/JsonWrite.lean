import Verif.Props.JsonText
import Verif.Lemmas.SeqSort
/-! # JSON: what is written is a text of RFC 8259 and is parsed back -/
open JsonSpec Json SeqSpec

namespace Json

theorem blank_nil : Blank [] := by simp [Blank]
theorem blank_append {a b : Bytes} (h : Blank a) (h' : Blank b) : Blank (a ++ b) := by
  intro c hc
  rcases List.mem_append.1 hc with hc | hc
  · exact h c hc
  · exact h' c hc
theorem blank_indent (n : Nat) : Blank (indent n) := by
  intro c hc; exact Or.inl (List.eq_of_mem_replicate hc)
theorem blank_nl : Blank [10] := by simp [Blank]
theorem blank_sp : Blank [32] := by simp [Blank]

/-! ## Strings and numbers -/

theorem chars_encode : ∀ (v : Bytes), (0 : UInt8) ∉ v → Chars (encode v) v := by
  intro v
  induction v with
  | nil => intro _; exact .nil
  | cons c v ih =>
    intro h
    simp only [List.mem_cons, not_or] at h
    rw [encode]
    rcases encodeChar_cases c with ⟨h1, h2, h3⟩ | ⟨d, h1, _, h3, _⟩
    · rw [h1]; exact .plain (Ne.symm h.1) h3 h2 (ih h.2)
    · rw [h1]; exact .escape h3 (ih h.2)

/-- A key that needs no escaping. -/
def Plain (k : Bytes) : Prop := ∀ c ∈ k, c ≠ 0 ∧ c ≠ 34 ∧ c ≠ 92

theorem chars_plain : ∀ (k : Bytes), Plain k → Chars k k := by
  intro k
  induction k with
  | nil => intro _; exact .nil
  | cons c k ih =>
    intro h
    exact .plain (h c (by simp)).1 (h c (by simp)).2.1 (h c (by simp)).2.2 (ih fun x hx => h x (List.mem_cons_of_mem _ hx))

/-! ## Sorting the children -/

theorem nameCompare_order : TotalPreorder nameCompare := by
  have zero : ∀ {s t : Bytes}, Str.cmpSign id s t = 0 → s = t := fun h => by
    rcases Str.cmpSign_spec id _ _ with ⟨a, _⟩ | ⟨_, a⟩ | ⟨a, _⟩
    · rw [h] at a; cases a
    · simpa using a
    · rw [h] at a; cases a
  have irr : ∀ {s : Bytes}, ¬ OrderSpec.Less id s s := fun h => Str.less_irrefl h rfl
  refine ⟨?_, ?_, ?_⟩
  · intro a
    rw [nameCompare]
    rcases Str.cmpSign_spec id a.1 a.1 with ⟨_, h⟩ | ⟨h, _⟩ | ⟨_, h⟩
    · exact absurd h irr
    · exact h
    · exact absurd h irr
  · intro a b
    rw [nameCompare, nameCompare]
    rcases Str.cmpSign_spec id a.1 b.1 with ⟨h1, h⟩ | ⟨h1, h⟩ | ⟨h1, h⟩ <;> rcases Str.cmpSign_spec id b.1 a.1 with ⟨g1, g⟩ | ⟨g1, g⟩ | ⟨g1, g⟩
    · exact absurd (Str.less_trans h g) irr
    · exact absurd (g.symm) (Str.less_irrefl h)
    · rw [h1, g1]; decide
    · exact absurd (h.symm) (Str.less_irrefl g)
    · rw [h1, g1]
    · exact absurd h (Str.less_irrefl g)
    · rw [h1, g1]; decide
    · exact absurd g (Str.less_irrefl h)
    · exact absurd (Str.less_trans h g) irr
  · intro a b c
    rw [nameCompare, nameCompare, nameCompare]
    rcases Str.cmpSign_spec id a.1 b.1 with ⟨h1, h⟩ | ⟨h1, h⟩ | ⟨h1, h⟩ <;> rcases Str.cmpSign_spec id b.1 c.1 with ⟨g1, g⟩ | ⟨g1, g⟩ | ⟨g1, g⟩ <;>
      rw [h1, g1] <;> intro i j <;> first | omega | skip
    · rcases Str.cmpSign_spec id a.1 c.1 with ⟨k1, k⟩ | ⟨k1, k⟩ | ⟨k1, k⟩ <;> first | omega | skip
      exact absurd (Str.less_trans (Str.less_trans h g) k) irr
    · have : b.1 = c.1 := by simpa using g
      rw [← this, h1]; decide
    · have : a.1 = b.1 := by simpa using h
      rw [this, g1]; decide
    · have : a.1 = b.1 := by simpa using h
      rw [this, g1]; decide

theorem sortKids_spec (l : List (Bytes × Bytes × Elem)) : ∃ l', sortKids l = some l' ∧ l'.Perm l ∧ Sorted nameCompare l' := by
  have h : Seqn.Has { hasDestroy := true, data := l.map some ++ [none], length := l.length, capacity := l.length + 1 } l :=
    Seqn.Rep.has (rest := [none]) ⟨rfl, rfl, by simp, by simp, rfl⟩
  obtain ⟨s', l', e, hs, hp, ho, _⟩ := Seqn.sort_spec nameCompare_order h
  refine ⟨l', ?_, hp, ho⟩
  have hl : s'.length = l'.length := hs.2.1
  rw [sortKids, e, Option.bind_some, hl, Seqn.getRange_mid hs 0 l'.length (by omega)]
  simp

/-! ## Members as a map -/

theorem find_iff {ms : List (Bytes × Doc)} (h : (ms.map Prod.fst).Nodup) (k : Bytes) (d : Doc) :
    (ms.find? fun x => x.1 = k).map Prod.snd = some d ↔ (k, d) ∈ ms := by
  induction ms with
  | nil => simp
  | cons x ms ih =>
    rw [List.map_cons, List.nodup_cons] at h
    by_cases hx : x.1 = k
    · rw [List.find?_cons_of_pos (by simp [hx])]
      constructor
      · intro e
        simp at e
        rw [← hx, ← e]; simp
      · intro e
        rcases List.mem_cons.1 e with e | e
        · rw [← e]; rfl
        · exact absurd (List.mem_map.2 ⟨(k, d), e, by simp [hx]⟩) h.1
    · rw [List.find?_cons_of_neg (by simp [hx]), ih h.2]
      constructor
      · exact List.mem_cons_of_mem _
      · intro e
        rcases List.mem_cons.1 e with e | e
        · rw [← e] at hx; exact absurd rfl hx
        · exact e

theorem find_perm {ms ms' : List (Bytes × Doc)} (h : (ms.map Prod.fst).Nodup) (hp : ms'.Perm ms) (k : Bytes) :
    (ms'.find? fun x => x.1 = k).map Prod.snd = (ms.find? fun x => x.1 = k).map Prod.snd := by
  have h' : (ms'.map Prod.fst).Nodup := ((hp.map Prod.fst).nodup_iff).2 h
  apply Option.ext
  intro d
  show _ = some d ↔ _ = some d
  rw [find_iff h, find_iff h', hp.mem_iff]

/-- The children of an object with their names and documents. -/
theorem members_find : ∀ (es : List Elem) (ms : List (Bytes × Doc)), es.map (fun e => (e.name, doc e)) = ms.map (fun x => (some x.1, x.2)) →
    members es = fun k => (ms.find? fun x => x.1 = k).map Prod.snd := by
  intro es
  induction es with
  | nil => intro ms h; cases ms with
    | nil => funext k; rw [members]; rfl
    | cons _ _ => cases h
  | cons e es ih => intro ms h; cases ms with
    | nil => cases h
    | cons x ms =>
      simp only [List.map_cons, List.cons.injEq, Prod.mk.injEq] at h
      funext k
      rw [members, h.1.1, h.1.2, ih ms h.2]
      by_cases hx : x.1 = k
      · simp [hx]
      · simp [hx]

/-! ## Lines -/

/-- A child as written: its text denotes its document. -/
def Good (x : Bytes × Elem) : Prop := Value NoEscapes x.1 (doc x.2)
/-- A named child as written. -/
def GoodN (x : Bytes × Bytes × Elem) : Prop := Plain x.1 ∧ x.2.2.name = some x.1 ∧ Value NoEscapes x.2.1 (doc x.2.2)

theorem items_lines (lvl : Nat) : ∀ (r : List (Bytes × Elem)) (pre post : Bytes), r ≠ [] → (∀ x ∈ r, Good x) → Blank pre → Blank post →
    Items NoEscapes (pre ++ arrayLines lvl (r.map Prod.fst) ++ post) (docs (r.map Prod.snd)) := by
  intro r
  induction r with
  | nil => intro _ _ h; exact absurd rfl h
  | cons x r ih =>
    intro pre post _ hg h1 h2
    cases r with
    | nil =>
      have := Items.one (blank_append h1 (blank_indent (lvl + 1))) (hg x (by simp)) (blank_append blank_nl h2)
      simpa [arrayLines, docs] using this
    | cons y r =>
      have := Items.more (blank_append h1 (blank_indent (lvl + 1))) (hg x (by simp)) blank_nil
        (ih [10] post (by simp) (fun z hz => hg z (List.mem_cons_of_mem _ hz)) blank_nl h2)
      simpa [arrayLines, docs] using this

theorem items_compact : ∀ (r : List (Bytes × Elem)), r ≠ [] → (∀ x ∈ r, Good x) → Items NoEscapes (arrayCompact (r.map Prod.fst)) (docs (r.map Prod.snd)) := by
  intro r
  induction r with
  | nil => intro h; exact absurd rfl h
  | cons x r ih =>
    intro _ hg
    cases r with
    | nil =>
      have := Items.one blank_nil (hg x (by simp)) blank_nil
      simpa [arrayCompact, docs] using this
    | cons y r =>
      have := Items.more blank_nil (hg x (by simp)) blank_nil (ih (by simp) (fun z hz => hg z (List.mem_cons_of_mem _ hz)))
      simpa [arrayCompact, docs] using this

theorem members_lines (lvl : Nat) : ∀ (r : List (Bytes × Bytes × Elem)) (pre post : Bytes), r ≠ [] → (∀ x ∈ r, GoodN x) → Blank pre → Blank post →
    Members NoEscapes (pre ++ objectLines lvl (r.map fun x => (x.1, x.2.1)) ++ post) (r.map fun x => (x.1, doc x.2.2)) := by
  intro r
  induction r with
  | nil => intro _ _ h; exact absurd rfl h
  | cons x r ih =>
    intro pre post _ hg h1 h2
    obtain ⟨k, t, e⟩ := x
    obtain ⟨g1, g2, g3⟩ := hg (k, t, e) (by simp)
    cases r with
    | nil =>
      have := Members.one (blank_append h1 (blank_indent (lvl + 1))) (chars_plain _ g1) blank_nil blank_sp g3 (blank_append blank_nl h2)
      simpa [objectLines] using this
    | cons y r =>
      have := Members.more (blank_append h1 (blank_indent (lvl + 1))) (chars_plain _ g1) blank_nil blank_sp g3 blank_nil
        (ih [10] post (by simp) (fun z hz => hg z (List.mem_cons_of_mem _ hz)) blank_nl h2)
      simpa [objectLines] using this

theorem members_compact : ∀ (r : List (Bytes × Bytes × Elem)), r ≠ [] → (∀ x ∈ r, GoodN x) →
    Members NoEscapes (objectCompact (r.map fun x => (x.1, x.2.1))) (r.map fun x => (x.1, doc x.2.2)) := by
  intro r
  induction r with
  | nil => intro h; exact absurd rfl h
  | cons x r ih =>
    intro _ hg
    obtain ⟨k, t, e⟩ := x
    obtain ⟨g1, g2, g3⟩ := hg (k, t, e) (by simp)
    cases r with
    | nil =>
      have := Members.one blank_nil (chars_plain _ g1) blank_nil blank_nil g3 blank_nil
      simpa [objectCompact] using this
    | cons y r =>
      have := Members.more blank_nil (chars_plain _ g1) blank_nil blank_nil g3 blank_nil (ih (by simp) (fun z hz => hg z (List.mem_cons_of_mem _ hz)))
      simpa [objectCompact] using this

/-! ## Elements -/

/-- Elements whose text can be read back. -/
abbrev Readable (e : Elem) : Prop := Valid (fun v => NoEscapes v ∧ (0 : UInt8) ∉ v) Plain (fun v => Number v false) (fun v => Number v true) e
abbrev ReadableAll (es : List Elem) : Prop := ValidAll (fun v => NoEscapes v ∧ (0 : UInt8) ∉ v) Plain (fun v => Number v false) (fun v => Number v true) es

theorem prim_value (n : Option Bytes) (t : PType) (v : Bytes) (h : Readable (.prim n t v)) : Value NoEscapes (primText t v) (doc (.prim n t v)) := by
  cases t with
  | string => exact .string (chars_encode v h.2) h.1
  | integer => exact .integer h
  | real => exact .real h
  | bool => rcases h with rfl | rfl
            · exact .true
            · exact .false
  | null => have : v = [110, 117, 108, 108] := h
            subst this
            exact .null

/-- A sorted list of written children: the object's document. -/
theorem object_doc {ks : List Elem} {r r' : List (Bytes × Bytes × Elem)} (hn : (keys ks).Nodup)
    (hr : ks.map (fun e => (e.name, doc e)) = r.map (fun x => (some x.1, doc x.2.2))) (hg : ∀ x ∈ r, GoodN x) (hp : r'.Perm r) :
    members ks = (fun k => (((r'.map fun x => (x.1, doc x.2.2)).reverse.find? fun x => x.1 = k).map Prod.snd)) ∧
    members (r'.map fun x => x.2.2) = members ks := by
  have hr1 : ks.map (fun e => (e.name, doc e)) = (r.map fun x => (x.1, doc x.2.2)).map (fun x => (some x.1, x.2)) := by rw [hr]; simp
  have hk : keys ks = (r.map fun x => (x.1, doc x.2.2)).map (fun x => some x.1) := by
    have := congrArg (List.map Prod.fst) hr1
    simpa [keys, Function.comp_def] using this
  have hnd : ((r.map fun x => (x.1, doc x.2.2)).map Prod.fst).Nodup := by
    rw [hk] at hn
    rw [List.nodup_iff_pairwise_ne, List.pairwise_map] at hn ⊢
    exact hn.imp fun h e => h (by rw [e])
  have hm := members_find ks _ hr1
  have hp' := hp.map fun x => (x.1, doc x.2.2)
  refine ⟨?_, ?_⟩
  · rw [hm]; funext k
    exact (find_perm hnd ((List.reverse_perm _).trans hp') k).symm
  · rw [members_find (r'.map fun x => x.2.2) (r'.map fun x => (x.1, doc x.2.2)) ?_, hm]
    · funext k; exact find_perm hnd hp' k
    · rw [List.map_map, List.map_map]
      apply List.map_congr_left
      intro x hx
      simp [(hg x (hp.mem_iff.1 hx)).2.1]

mutual
theorem write_ok : ∀ (e : Elem) (lvl : Nat), Readable e → ∃ t e', write lvl e = some (t, e') ∧ Value NoEscapes t (doc e) ∧ doc e' = doc e ∧ e'.name = e.name
  | .prim n t v, lvl, h => ⟨primText t v, .prim n t v, rfl, prim_value n t v h, rfl, rfl⟩
  | .cont n .array ks, lvl, h => by
    obtain ⟨r, e1, e2, e3⟩ := writeKids_ok ks (lvl + 1) h
    refine ⟨_, .cont n .array (r.map Prod.snd), by rw [write, e1]; rfl, ?_, by rw [doc, doc, e3], rfl⟩
    rw [doc, ← e3]
    cases r with
    | nil => exact .emptyArray (w := []) blank_nil
    | cons x r =>
      have := Value.array (items_lines lvl (x :: r) [10] (indent lvl) (by simp) e2 blank_nl (blank_indent lvl))
      simpa using this
  | .cont n .object ks, lvl, h => by
    obtain ⟨h1, h2, h3⟩ := h
    obtain ⟨r, e1, e2, e3⟩ := writeNamed_ok ks (lvl + 1) h1 h3
    obtain ⟨r', s1, s2, _⟩ := sortKids_spec r
    obtain ⟨m1, m2⟩ := object_doc h2 e3 e2 s2
    refine ⟨_, .cont n .object (r'.map fun x => x.2.2), by rw [write, e1, Option.bind_some, s1]; rfl, ?_, by rw [doc, doc, m2], rfl⟩
    rw [doc, m1]
    have hg : ∀ x ∈ r', GoodN x := fun x hx => e2 x (s2.mem_iff.1 hx)
    clear s1 s2 m1 m2
    cases r' with
    | nil =>
      have := Value.emptyObject (ok := NoEscapes) (blank_append blank_nl (blank_indent lvl))
      simpa [objectLines] using this
    | cons x r' =>
      have := Value.object (members_lines lvl (x :: r') [10] (indent lvl) (by simp) hg blank_nl (blank_indent lvl))
      simpa using this
theorem writeKids_ok : ∀ (es : List Elem) (lvl : Nat), ReadableAll es → ∃ r, writeKids lvl es = some r ∧ (∀ x ∈ r, Good x) ∧ docs (r.map Prod.snd) = docs es
  | [], _, _ => ⟨[], rfl, by simp, rfl⟩
  | e :: es, lvl, h => by
    obtain ⟨t, e', a1, a2, a3, _⟩ := write_ok e lvl h.1
    obtain ⟨r, b1, b2, b3⟩ := writeKids_ok es lvl h.2
    refine ⟨(t, e') :: r, by rw [writeKids, a1, Option.bind_some, b1]; rfl, ?_, by rw [List.map_cons, docs, docs, a3, b3]⟩
    intro x hx
    rcases List.mem_cons.1 hx with rfl | hx
    · rw [Good, a3]; exact a2
    · exact b2 x hx
theorem writeNamed_ok : ∀ (es : List Elem) (lvl : Nat), ReadableAll es → (∀ k ∈ keys es, ∃ n, k = some n ∧ Plain n) → ∃ r, writeNamed lvl es = some r ∧ (∀ x ∈ r, GoodN x) ∧
      es.map (fun e => (e.name, doc e)) = r.map (fun x => (some x.1, doc x.2.2))
  | [], _, _, _ => ⟨[], rfl, by simp, rfl⟩
  | e :: es, lvl, h, hk => by
    obtain ⟨t, e', a1, a2, a3, a4⟩ := write_ok e lvl h.1
    obtain ⟨k, k1, k2⟩ := hk e.name (by simp [keys])
    obtain ⟨r, b1, b2, b3⟩ := writeNamed_ok es lvl h.2 (fun x hx => hk x (by rw [keys] at hx ⊢; exact List.mem_cons_of_mem _ hx))
    refine ⟨(k, t, e') :: r, by rw [writeNamed, k1, Option.bind_some, a1, Option.bind_some, b1]; rfl, ?_, by rw [List.map_cons, List.map_cons, b3, a3, k1]⟩
    intro x hx
    rcases List.mem_cons.1 hx with rfl | hx
    · exact ⟨k2, by rw [a4, k1], by rw [a3]; exact a2⟩
    · exact b2 x hx
end

mutual
theorem compact_ok : ∀ (e : Elem), Readable e → ∃ t e', writeCompact e = some (t, e') ∧ Value NoEscapes t (doc e) ∧ doc e' = doc e ∧ e'.name = e.name
  | .prim n t v, h => ⟨primText t v, .prim n t v, rfl, prim_value n t v h, rfl, rfl⟩
  | .cont n .array ks, h => by
    obtain ⟨r, e1, e2, e3⟩ := compactKids_ok ks h
    refine ⟨_, .cont n .array (r.map Prod.snd), by rw [writeCompact, e1]; rfl, ?_, by rw [doc, doc, e3], rfl⟩
    rw [doc, ← e3]
    cases r with
    | nil => exact .emptyArray (w := []) blank_nil
    | cons x r => exact Value.array (items_compact (x :: r) (by simp) e2)
  | .cont n .object ks, h => by
    obtain ⟨h1, h2, h3⟩ := h
    obtain ⟨r, e1, e2, e3⟩ := compactNamed_ok ks h1 h3
    obtain ⟨r', s1, s2, _⟩ := sortKids_spec r
    obtain ⟨m1, m2⟩ := object_doc h2 e3 e2 s2
    refine ⟨_, .cont n .object (r'.map fun x => x.2.2), by rw [writeCompact, e1, Option.bind_some, s1]; rfl, ?_, by rw [doc, doc, m2], rfl⟩
    rw [doc, m1]
    have hg : ∀ x ∈ r', GoodN x := fun x hx => e2 x (s2.mem_iff.1 hx)
    clear s1 s2 m1 m2
    cases r' with
    | nil => exact Value.emptyObject (w := []) blank_nil
    | cons x r' => exact Value.object (members_compact (x :: r') (by simp) hg)
theorem compactKids_ok : ∀ (es : List Elem), ReadableAll es → ∃ r, writeCompactKids es = some r ∧ (∀ x ∈ r, Good x) ∧ docs (r.map Prod.snd) = docs es
  | [], _ => ⟨[], rfl, by simp, rfl⟩
  | e :: es, h => by
    obtain ⟨t, e', a1, a2, a3, _⟩ := compact_ok e h.1
    obtain ⟨r, b1, b2, b3⟩ := compactKids_ok es h.2
    refine ⟨(t, e') :: r, by rw [writeCompactKids, a1, Option.bind_some, b1]; rfl, ?_, by rw [List.map_cons, docs, docs, a3, b3]⟩
    intro x hx
    rcases List.mem_cons.1 hx with rfl | hx
    · rw [Good, a3]; exact a2
    · exact b2 x hx
theorem compactNamed_ok : ∀ (es : List Elem), ReadableAll es → (∀ k ∈ keys es, ∃ n, k = some n ∧ Plain n) → ∃ r, writeCompactNamed es = some r ∧ (∀ x ∈ r, GoodN x) ∧
      es.map (fun e => (e.name, doc e)) = r.map (fun x => (some x.1, doc x.2.2))
  | [], _, _ => ⟨[], rfl, by simp, rfl⟩
  | e :: es, h, hk => by
    obtain ⟨t, e', a1, a2, a3, a4⟩ := compact_ok e h.1
    obtain ⟨k, k1, k2⟩ := hk e.name (by simp [keys])
    obtain ⟨r, b1, b2, b3⟩ := compactNamed_ok es h.2 (fun x hx => hk x (by rw [keys] at hx ⊢; exact List.mem_cons_of_mem _ hx))
    refine ⟨(k, t, e') :: r, by rw [writeCompactNamed, k1, Option.bind_some, a1, Option.bind_some, b1]; rfl, ?_, by rw [List.map_cons, List.map_cons, b3, a3, k1]⟩
    intro x hx
    rcases List.mem_cons.1 hx with rfl | hx
    · exact ⟨k2, by rw [a4, k1], by rw [a3]; exact a2⟩
    · exact b2 x hx
end

theorem value_text {t a : Bytes} {d : Doc} (h : Value NoEscapes t d) (ha : Blank a) : Text NoEscapes (a ++ t) d := ⟨a, t, [], by simp, ha, h, blank_nil⟩

theorem jsonWrite_ok (e : Elem) (lvl : Nat) (h : Readable e) : ∃ t e', jsonWrite lvl e = some (t, e') ∧ Text NoEscapes t (doc e) ∧ doc e' = doc e := by
  cases e with
  | prim n t v => exact ⟨_, _, rfl, value_text (prim_value n t v h) (blank_indent lvl), rfl⟩
  | cont n t ks =>
    obtain ⟨t, e', e1, e2, e3, _⟩ := write_ok _ lvl h
    exact ⟨t, e', e1, by simpa using value_text e2 blank_nil, e3⟩
end Json

/-! ## Numbers made by the API -/
namespace NumSpec
theorem decimal_first (n : Nat) (h : 0 < n) : ∃ c ds, decimal n = c :: ds ∧ 49 ≤ c ∧ c ≤ 57 ∧ ∀ d ∈ ds, (48 : UInt8) ≤ d ∧ d ≤ 57 := by
  induction n using Nat.strongRecOn with
  | _ n ih =>
    have dig : ∀ m, m < 10 → (48 : UInt8) ≤ UInt8.ofNat (48 + m) ∧ UInt8.ofNat (48 + m) ≤ 57 := by decide
    have dig1 : ∀ m, m < 10 → m ≠ 0 → (49 : UInt8) ≤ UInt8.ofNat (48 + m) := by decide
    rw [decimal_eq]
    split
    · rename_i h10
      exact ⟨_, [], rfl, dig1 n h10 (by omega), (dig n h10).2, by simp⟩
    · obtain ⟨c, ds, e, h1, h2, h3⟩ := ih (n / 10) (by omega) (by omega)
      refine ⟨c, ds ++ [UInt8.ofNat (48 + n % 10)], by rw [e]; rfl, h1, h2, ?_⟩
      intro d hd
      rcases List.mem_append.1 hd with hd | hd
      · exact h3 d hd
      · rw [List.mem_singleton] at hd; subst hd; exact dig (n % 10) (Nat.mod_lt _ (by decide))
theorem decimal_intPart (n : Nat) : IntPart (decimal n) := by
  by_cases h : n = 0
  · subst h; exact Or.inl (by rw [decimal_eq]; rfl)
  · obtain ⟨c, ds, e, h1, h2, h3⟩ := decimal_first n (by omega)
    exact Or.inr ⟨c, ds, e, h1, h2, h3⟩
theorem decimal_small {n : Nat} (h : n < 10) : ∃ c, decimal n = [c] ∧ (48 : UInt8) ≤ c ∧ c ≤ 57 := by
  rw [decimal_eq, if_pos h]
  exact ⟨_, rfl, (by decide : ∀ m, m < 10 → (48 : UInt8) ≤ UInt8.ofNat (48 + m) ∧ UInt8.ofNat (48 + m) ≤ 57) n h⟩
theorem decimalInt_number (x : Int) : Number (decimalInt x) false := by
  refine ⟨decimalInt x, [], by simp, ?_, Or.inl rfl⟩
  rw [decimalInt]
  split
  · exact ⟨[45], decimal x.natAbs, [], by simp, Or.inr rfl, decimal_intPart _, rfl⟩
  · exact ⟨[], decimal x.natAbs, [], by simp, Or.inl rfl, decimal_intPart _, rfl⟩
theorem fixed4_number (neg : Bool) (n : Nat) : Number (Json.fixed4 neg n) true := by
  refine ⟨Json.fixed4 neg n, [], by simp, ?_, Or.inl rfl⟩
  obtain ⟨a, ha, ha'⟩ := decimal_small (n := n % 10000 / 1000) (by omega)
  obtain ⟨b, hb, hb'⟩ := decimal_small (n := n % 1000 / 100) (by omega)
  obtain ⟨c, hc, hc'⟩ := decimal_small (n := n % 100 / 10) (by omega)
  obtain ⟨d, hd, hd'⟩ := decimal_small (n := n % 10) (by omega)
  refine ⟨if neg then [45] else [], decimal (n / 10000), 46 :: [a, b, c, d], ?_, by cases neg <;> simp, decimal_intPart _, ⟨[a, b, c, d], rfl, by simp, ?_⟩⟩
  · simp only [Json.fixed4, natText_eq, ha, hb, hc, hd]; simp
  · intro x hx
    simp only [List.mem_cons, List.not_mem_nil, or_false] at hx
    rcases hx with rfl | rfl | rfl | rfl <;> assumption
end NumSpec

/-- C24, partial: an element whose strings have no NUL and no backslash before one of `" \ b f n r t`, whose keys need no escaping and whose numbers are JSON
numbers is written — indented from any level, or compactly — as a JSON text of RFC 8259 for its document, the document is unchanged by the writing (objects are
sorted in place), and parsing the text gives an equal document. Missing: other strings and keys, for which it is false (next theorems). -/
theorem C24_write_parse_partial (e : Elem) (lvl : Nat)
    (h : Valid (fun v => NoEscapes v ∧ (0 : UInt8) ∉ v) (fun k => ∀ c ∈ k, c ≠ 0 ∧ c ≠ 34 ∧ c ≠ 92) (fun v => Number v false) (fun v => Number v true) e) :
    (∃ t e', Json.jsonWrite lvl e = some (t, e') ∧ Text NoEscapes t (doc e) ∧ doc e' = doc e ∧ ∃ x q, Json.parse t = some (.ok (x, q)) ∧ doc x = doc e) ∧
    (∃ t e', Json.writeCompact e = some (t, e') ∧ Text NoEscapes t (doc e) ∧ doc e' = doc e ∧ ∃ x q, Json.parse t = some (.ok (x, q)) ∧ doc x = doc e) := by
  obtain ⟨t, e', a, b, c⟩ := Json.jsonWrite_ok e lvl h
  obtain ⟨t2, e2, a2, b2, c2, _⟩ := Json.compact_ok e h
  have b2 : Text NoEscapes t2 (doc e) := by simpa using Json.value_text b2 Json.blank_nil
  exact ⟨⟨t, e', a, b, c, Json.parse_text (fun _ h => h) b⟩, ⟨t2, e2, a2, b2, c2, Json.parse_text (fun _ h => h) b2⟩⟩

/-- The numbers the API makes are JSON numbers: every integer, and every real whose fixed notation with four decimals has at most 31 characters; a NaN or an
infinity is stored as 0.0000. -/
theorem C24_numbers (okS okK okI okR : Bytes → Prop) (hI : ∀ v, Number v false → okI v) (hR : ∀ v, Number v true → okR v) :
    (∀ v : Int, Valid okS okK okI okR (integerCreate v)) ∧ (∀ v : Int, Valid okS okK okI okR (integerCreate64 v)) ∧
    (∀ neg n, (fixed4 neg n).length ≤ 31 → Valid okS okK okI okR (realCreate (some (neg, n)))) ∧ Valid okS okK okI okR (realCreate none) := by
  refine ⟨fun v => ?_, fun v => ?_, fun neg n h => ?_, ?_⟩
  · rw [integerCreate, Json.intText_eq]; exact hI _ (NumSpec.decimalInt_number v)
  · rw [integerCreate64, Json.intText_eq]; exact hI _ (NumSpec.decimalInt_number v)
  · rw [realCreate]
    simp only [Option.getD_some, List.take_of_length_le h]
    exact hR _ (NumSpec.fixed4_number neg n)
  · exact hR _ (NumSpec.fixed4_number false 0)

/-- C24 fails for keys that contain a quote: the object `{"a\"b": null}` is written without the escape, and the text is rejected. -/
theorem C24_key_not_escaped :
    writeCompact (.cont none .object [.prim (some [97, 34, 98]) .null [110, 117, 108, 108]]) =
      some ([123, 34, 97, 34, 98, 34, 58, 110, 117, 108, 108, 125], .cont none .object [.prim (some [97, 34, 98]) .null [110, 117, 108, 108]]) ∧
    ∃ err, Json.parse [123, 34, 97, 34, 98, 34, 58, 110, 117, 108, 108, 125] = some (.error err) := ⟨rfl, _, rfl⟩

/-- C24 fails for strings with a backslash before `n`: the string of the two characters `\n` comes back as a newline. -/
theorem C24_string_changed :
    ∃ t, writeCompact (stringCreate [92, 110]) = some (t, stringCreate [92, 110]) ∧ ∃ q, Json.parse t = some (.ok (stringCreate [10], q)) := ⟨_, rfl, _, rfl⟩

/-- C24 fails for reals of 30 digits: the text is cut after 31 characters, after the decimal point, and what is written is rejected. -/
theorem C24_long_real_unreadable :
    ∃ t, writeCompact (realCreate (some (false, 10 ^ 33))) = some (t, realCreate (some (false, 10 ^ 33))) ∧ t = NumSpec.decimal (10 ^ 29) ++ [46] ∧
      ∃ err, Json.parse t = some (.error err) := by
  have hd : NumSpec.decimal (10 ^ 29) = 49 :: List.replicate 29 48 := by
    have step : ∀ k, NumSpec.decimal (10 ^ k) = 49 :: List.replicate k 48 := by
      intro k
      induction k with
      | zero => rw [NumSpec.decimal_eq]; rfl
      | succ k ih =>
        have h1 : ¬ 10 ^ (k + 1) < 10 := by have : 0 < 10 ^ k := Nat.pow_pos (by decide); omega
        have h2 : 10 ^ (k + 1) / 10 = 10 ^ k := by omega
        have h3 : 10 ^ (k + 1) % 10 = 0 := by omega
        rw [NumSpec.decimal_eq, if_neg h1, h2, h3, ih, List.replicate_succ']; rfl
    exact step 29
  have h0 : NumSpec.decimal 0 = [48] := by rw [NumSpec.decimal_eq]; rfl
  have ht : (fixed4 false (10 ^ 33)).take 31 = NumSpec.decimal (10 ^ 29) ++ [46] := by
    rw [fixed4]
    simp only [NumSpec.natText_eq, show (10 : Nat) ^ 33 / 10000 = 10 ^ 29 by decide, show (10 : Nat) ^ 33 % 10000 / 1000 = 0 by decide, show (10 : Nat) ^ 33 % 1000 / 100 = 0 by decide,
      show (10 : Nat) ^ 33 % 100 / 10 = 0 by decide, show (10 : Nat) ^ 33 % 10 = 0 by decide, h0, hd]
    rfl
  refine ⟨NumSpec.decimal (10 ^ 29) ++ [46], ?_, rfl, ?_⟩
  · rw [realCreate]
    simp only [Option.getD_some, ht]
    rfl
  · rw [hd]
    exact ⟨.numDigitEnd, rfl⟩

example : Valid (fun v => NoEscapes v ∧ (0 : UInt8) ∉ v) (fun k => ∀ c ∈ k, c ≠ 0 ∧ c ≠ 34 ∧ c ≠ 92) (fun v => Number v false) (fun v => Number v true)
    (.cont none .object [.cont (some [98]) .array [.prim none .string [34, 10], integerCreate (-5), boolCreate true], .prim (some [97]) .null [110, 117, 108, 108]]) := by
  refine ⟨⟨⟨⟨?_, by decide⟩, ?_, Or.inl rfl, trivial⟩, rfl, trivial⟩, by decide, ?_⟩
  · intro a d b h
    have h0 : (92 : UInt8) ∈ [34, 10] := by rw [h]; simp
    simp at h0
  · have := NumSpec.decimalInt_number (-5)
    rwa [← Json.intText_eq] at this
  · intro k hk
    simp only [keys, List.map_cons, List.map_nil, List.mem_cons, List.not_mem_nil, or_false] at hk
    rcases hk with rfl | rfl
    · exact ⟨[98], rfl, by decide⟩
    · exact ⟨[97], rfl, by decide⟩
