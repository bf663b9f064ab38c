import Verif.Spec.JsonApi
import Verif.Props.JsonOps
import Verif.Props.StrCompare
import Verif.Props.Seq
/-! # C93 (JsonSelect), C94 (JsonWalk), C95 (JSON iterators), C96 (JSON arrays), C97 (values read back) -/
open JsonSpec Json

namespace Json

theorem indexOfText_ok {t : Bytes} {n : Nat} (h0 : 0 ∉ t) (h : IsIndex t n) (hn : n < 2 ^ 63) : indexOfText t = some n := by
  have hnum : NumSpec.Numeral t false n [] :=
    ⟨[], [], t, by simp, by simp, Or.inl rfl, by simp, h.1, h.2.1, by simp, h.2.2.symm⟩
  have := ((C40_toLong t h0).2 false n [] hnum).2.2 (by simp only [NumSpec.signed, Bool.false_eq_true, if_false]; omega) (by simp only [NumSpec.signed, Bool.false_eq_true, if_false]; omega) (by simp [NumSpec.Terminated])
  simp only [indexOfText, getAsInteger, this, NumSpec.signed, Option.bind_eq_bind, Option.bind_some]
  simp only [Option.map_some, Option.some.injEq]
  simp only [Bool.false_eq_true, if_false]
  omega

theorem isNumeric_cstr {t : Bytes} (h0 : 0 ∉ t) : Str.isNumeric ((t ++ [0]).map some) = some (t.all TrimSpec.digit) :=
  (C68_class_tests _ t ⟨h0, [], by simp⟩).1

theorem get_mem {ks : List Elem} {k : Bytes} (hn : (keys ks).Nodup) (h0 : ∀ x ∈ keys ks, x ≠ none) :
    ∃ r, get ks k = some r ∧ ∀ c, r = some c ↔ c ∈ ks ∧ c.name = some k := by
  refine ⟨_, lookup_get h0, fun c => ?_⟩
  constructor
  · intro h
    have := List.find?_some h
    exact ⟨List.mem_of_find?_eq_some h, by simpa using this⟩
  · rintro ⟨hm, hk⟩
    clear h0
    induction ks with
    | nil => simp at hm
    | cons e es ih =>
      simp only [keys, List.map_cons, List.nodup_cons] at hn
      rw [List.find?_cons]
      rcases List.mem_cons.1 hm with rfl | hm
      · simp [hk]
      · have : e.name ≠ some k := by
          intro he
          exact hn.1 (by rw [he, ← hk]; exact List.mem_map_of_mem hm)
        rw [show (e.name == some k) = false by simpa using this]
        exact ih hn.2 hm

end Json

/-- C93. `JsonSelect` follows the path: it returns the element the keys and decimal positions lead to, and NULL if they lead nowhere. For an index on which
`StringIsNumeric` holds, the text must be a non-empty number below 2^63 (see the next theorem). -/
theorem C93_select (okS okK okI okR : Bytes → Prop) (p : List Bytes) : ∀ (e : Elem), Valid okS okK okI okR e →
    (∀ t ∈ p, 0 ∉ t ∧ (t.all TrimSpec.digit = true → t ≠ [] ∧ NumSpec.value t < 2 ^ 63)) →
    ∃ r, Json.select e p = some r ∧ ∀ x, r = some x ↔ Resolves e p x := by
  induction p with
  | nil =>
    intro e _ _
    refine ⟨some e, by rw [Json.select], fun x => ⟨?_, ?_⟩⟩
    · rintro h; cases h; exact .here
    · intro h; cases h; rfl
  | cons t p ih =>
    intro e he hp
    have ht := hp t (by simp)
    have hp' : ∀ t ∈ p, 0 ∉ t ∧ (t.all TrimSpec.digit = true → t ≠ [] ∧ NumSpec.value t < 2 ^ 63) := fun t h => hp t (by simp [h])
    cases e with
    | prim n ty v =>
      exact ⟨none, by rw [Json.select], fun x => ⟨(by intro h; cases h), (by intro h; cases h)⟩⟩
    | cont n ty ks =>
      cases ty with
      | object =>
        simp only [Valid] at he
        obtain ⟨hv, hn, hk⟩ := he
        obtain ⟨g, hg, hgm⟩ := get_mem (k := t) hn (fun x hx => by obtain ⟨m, rfl, _⟩ := hk x hx; simp)
        rw [Json.select, hg]
        cases g with
        | none =>
          refine ⟨none, rfl, fun x => ⟨(by intro h; cases h), ?_⟩⟩
          intro h
          cases h with
          | key hc hcn _ => have := (hgm _).2 ⟨hc, hcn⟩; cases this
        | some c =>
          have hc := (hgm c).1 rfl
          obtain ⟨r, hr, hrx⟩ := ih c ((validAll_iff ks).1 hv c hc.1) hp'
          refine ⟨r, hr, fun x => ?_⟩
          rw [hrx]
          constructor
          · intro h; exact .key hc.1 hc.2 h
          · intro h
            cases h with
            | key hc' hcn' h =>
              have := (hgm _).2 ⟨hc', hcn'⟩
              cases this; exact h
      | array =>
        simp only [Valid] at he
        rw [Json.select, isNumeric_cstr ht.1]
        cases hd : t.all TrimSpec.digit with
        | false =>
          refine ⟨none, rfl, fun x => ⟨(by intro h; cases h), ?_⟩⟩
          intro h
          cases h with
          | index hi _ _ => rw [hi.2.1] at hd; cases hd
        | true =>
          obtain ⟨hne, hlt⟩ := ht.2 hd
          have hi : IsIndex t (NumSpec.value t) := ⟨hne, hd, rfl⟩
          simp only [Option.bind_some, ↓reduceIte, indexOfText_ok ht.1 hi hlt]
          by_cases hb : NumSpec.value t < ks.length
          · rw [if_pos hb, List.getElem?_eq_getElem hb, Option.bind_some]
            obtain ⟨r, hr, hrx⟩ := ih ks[NumSpec.value t] ((validAll_iff ks).1 he _ (List.getElem_mem hb)) hp'
            refine ⟨r, hr, fun x => ?_⟩
            rw [hrx]
            constructor
            · intro h; exact .index hi (List.getElem?_eq_getElem hb) h
            · intro h
              cases h with
              | index hi' hc h =>
                have e1 := hi'.2.2
                subst e1
                rw [List.getElem?_eq_getElem hb] at hc
                cases hc; exact h
          · rw [if_neg hb]
            refine ⟨none, rfl, fun x => ⟨(by intro h; cases h), ?_⟩⟩
            intro h
            cases h with
            | index hi' hc h =>
              have e1 := hi'.2.2
              subst e1
              rw [List.getElem?_eq_none (by omega)] at hc
              cases hc

/-- C93 (finding). An index into an array that consists of digits only but is empty (`StringIsNumeric("")` is true) or is 2^63 or more ends the process instead
of leading nowhere, whatever the array. -/
theorem C93_bad_index_exits (n : Option Bytes) (ks : List Elem) (t : Bytes) (p : List Bytes) (h0 : 0 ∉ t) (hd : t.all TrimSpec.digit = true)
    (hb : t = [] ∨ 2 ^ 63 ≤ NumSpec.value t) : Json.select (.cont n .array ks) (t :: p) = none := by
  have hi : indexOfText t = none := by
    rcases hb with rfl | hb
    · decide +kernel
    · have hne : t ≠ [] := by rintro rfl; simp [NumSpec.value] at hb
      have hnum : NumSpec.Numeral t false (NumSpec.value t) [] :=
        ⟨[], [], t, by simp, by simp, Or.inl rfl, by simp, hne, hd, by simp, rfl⟩
      have := ((C40_toLong t h0).2 false _ [] hnum).1 (by simp only [NumSpec.signed, Bool.false_eq_true, if_false]; omega)
      simp [indexOfText, getAsInteger, this]
  rw [Json.select, isNumeric_cstr h0, hd]
  simp [hi]

example : Json.select (.cont none .array [Json.nullCreate]) [[]] = none ∧
    Json.select (.cont none .array [Json.nullCreate]) [NumSpec.decimal (2 ^ 63)] = none := by decide +kernel

/-- The hypotheses are met: {"a": [true, null]} and the path a, 01. -/
example : let e : Elem := .cont none .object [.cont (some [97]) .array [.prim none .bool litTrue, .prim none .null litNull]]
    Valid (fun _ => True) (fun _ => True) (fun _ => True) (fun _ => True) e ∧ Resolves e [[97], [48, 49]] (.prim none .null litNull) ∧
    (∀ t ∈ ([[97], [48, 49]] : List Bytes), 0 ∉ t ∧ (t.all TrimSpec.digit = true → t ≠ [] ∧ NumSpec.value t < 2 ^ 63)) ∧
    (∃ n v, Json.select e [[97], [48, 49]] = some (some (.prim n .null v))) := by
  refine ⟨?_, ?_, by decide +kernel, none, litNull, ?_⟩
  · simp [Valid, ValidAll, keys, Elem.name, litTrue, litNull]
  · exact .key (List.mem_singleton.2 rfl) rfl (.index (i := 1) ⟨by decide, by decide +kernel, by decide +kernel⟩ rfl .here)
  · rfl

namespace Json
variable {σ : Type} (vo va vp : Option (Visitor σ))

/-- The visitor that applies to an element. -/
def visitor (s : σ) (e : Elem) : σ × Bool :=
  callVisitor (match e with
    | .prim .. => vp
    | .cont _ .array _ => va
    | .cont _ .object _ => vo) s e

theorem visitUntil_append (visit : σ → Elem → σ × Bool) : ∀ (a b : List Elem) (s : σ),
    visitUntil visit s (a ++ b) = if (visitUntil visit s a).2 then visitUntil visit (visitUntil visit s a).1 b else ((visitUntil visit s a).1, false)
  | [], b, s => by simp [visitUntil]
  | e :: a, b, s => by
    simp only [List.cons_append, visitUntil]
    split
    · exact visitUntil_append visit a b _
    · simp

mutual
theorem walk_eq : ∀ (s : σ) (e : Elem), walk vo va vp s e = visitUntil (visitor vo va vp) s (preorder e)
  | s, .prim n t v => by
    rw [walk, preorder]
    have hv : visitor vo va vp s (.prim n t v) = callVisitor vp s (.prim n t v) := rfl
    simp only [visitUntil, hv]
    generalize callVisitor vp s (.prim n t v) = r
    obtain ⟨s', k⟩ := r
    cases k <;> rfl
  | s, .cont n t ks => by
    rw [walk, preorder]
    have hv : visitor vo va vp s (.cont n t ks) = callVisitor (if t = .array then va else vo) s (.cont n t ks) := by cases t <;> rfl
    simp only [visitUntil, hv]
    generalize callVisitor (if t = .array then va else vo) s (.cont n t ks) = r
    obtain ⟨s', k⟩ := r
    cases k with
    | true => exact walkKids_eq s' ks
    | false => rfl
theorem walkKids_eq : ∀ (s : σ) (es : List Elem), walkKids vo va vp s es = visitUntil (visitor vo va vp) s (preorderAll es)
  | s, [] => by rw [walkKids, preorderAll, visitUntil]
  | s, e :: es => by
    rw [walkKids, preorderAll, visitUntil_append, ← walk_eq s e]
    split
    · exact walkKids_eq _ es
    · rfl
end
end Json

/-- C94. `JsonWalk` visits the element and everything below it, parents before their children and children in order, each exactly once and by the visitor for its
kind, until a visitor says stop; elements without a visitor are passed over. The result is whether the walk went through. -/
theorem C94_walk {σ : Type} (vo va vp : Option (Json.Visitor σ)) (s : σ) (e : Elem) :
    Json.walk vo va vp s e = visitUntil (fun s e => match e, vo, va, vp with
      | .cont _ .object _, some f, _, _ => f s e
      | .cont _ .array _, _, some f, _ => f s e
      | .prim .., _, _, some f => f s e
      | _, _, _, _ => (s, true)) s (preorder e) := by
  rw [Json.walk_eq]
  congr 1
  funext s e
  cases e with
  | prim n t v => cases vp <;> rfl
  | cont n t ks => cases t <;> cases vo <;> cases va <;> rfl

/-- A walk over [true, [], null] that stops at the first empty array: three visits. -/
example : let rec_ : Json.Visitor Nat := fun n _ => (n + 1, true)
    let stop : Json.Visitor Nat := fun n e => (n + 1, Json.length e ≠ 0)
    Json.walk none (some stop) (some rec_) 0
      (.cont none .array [.prim none .bool litTrue, .cont none .array [], .prim none .null litNull]) = (3, false) := by rfl

namespace Json

/-- The iterator stands where the cursor does. -/
def At (it : Iter) (c : Cursor) : Prop :=
  ∃ n t ks, it.container = .cont n t ks ∧ it.index ≤ ks.length ∧ c.2 = ks.drop it.index ∧ c.1 = if it.index = 0 then none else ks[it.index - 1]?

theorem at_next {it : Iter} {c : Cursor} (h : At it c) :
    ∃ it', iterNext it = some (it', c.next.2) ∧ At it' c.next.1 ∧ it'.container = it.container ∧ (c.2 ≠ [] → it'.index = it.index + 1) := by
  obtain ⟨n, t, ks, hc, hi, h2, h1⟩ := h
  obtain ⟨last, todo⟩ := c
  simp only at h1 h2
  rw [iterNext, hc]
  simp only [kidsOf, Option.bind_some]
  by_cases hb : it.index ≥ ks.length
  · rw [if_pos hb]
    rw [List.drop_eq_nil_of_le hb] at h2
    subst h2
    exact ⟨it, rfl, ⟨n, t, ks, hc, hi, by simp [Cursor.next, List.drop_eq_nil_of_le hb], h1⟩, hc, by simp⟩
  · rw [if_neg hb, List.getElem?_eq_getElem (by omega)]
    rw [List.drop_eq_getElem_cons (by omega)] at h2
    subst h2
    refine ⟨_, rfl, ⟨n, t, ks, rfl, by simp; omega, rfl, ?_⟩, rfl, by simp⟩
    simp [Cursor.next, List.getElem?_eq_getElem (show it.index < ks.length by omega)]

theorem wanted_eq (t : EType) (s : Bool) (e : Elem) : wanted t s e = (!(s && isNull e) && decide (etype e = t)) := by
  cases e with
  | prim n ty v => cases t <;> cases s <;> cases ty <;> rfl
  | cont n ty ks => cases t <;> cases s <;> rfl

theorem at_seek (t : EType) (s : Bool) : ∀ (todo : List Elem) (fuel : Nat) (it : Iter) (last : Option Elem), At it (last, todo) → todo.length < fuel →
    ∃ it', iterNextByTypeLoop t s fuel it = some (it', (Cursor.seek (wanted t s) last todo).2) ∧ At it' (Cursor.seek (wanted t s) last todo).1 ∧
      it'.container = it.container := by
  intro todo
  induction todo with
  | nil =>
    intro fuel it last h hf
    obtain ⟨f, rfl⟩ : ∃ f, fuel = f + 1 := ⟨fuel - 1, by simp at hf; omega⟩
    obtain ⟨it', e, h', hc, _⟩ := at_next h
    rw [iterNextByTypeLoop, e]
    exact ⟨it', rfl, h', hc⟩
  | cons x todo ih =>
    intro fuel it last h hf
    obtain ⟨f, rfl⟩ : ∃ f, fuel = f + 1 := ⟨fuel - 1, by simp at hf; omega⟩
    obtain ⟨it', e, h', hc, _⟩ := at_next h
    rw [iterNextByTypeLoop, e]
    simp only [Cursor.next, Option.bind_some] at h' ⊢
    rw [Cursor.seek, wanted_eq]
    obtain ⟨it2, e2, h2, hc2⟩ := ih f it' (some x) h' (by simp at hf; omega)
    rw [hc] at hc2
    cases hs : s && isNull x with
    | true => simp only [↓reduceIte, Bool.not_true, Bool.false_and, Bool.false_eq_true]; exact ⟨it2, e2, h2, hc2⟩
    | false =>
      simp only [Bool.not_false, Bool.true_and, Bool.false_eq_true, if_false, decide_eq_true_eq]
      by_cases ht : etype x = t
      · rw [if_pos ht, if_pos ht]; exact ⟨it', rfl, h', hc⟩
      · rw [if_neg ht, if_neg ht]; exact ⟨it2, e2, h2, hc2⟩

theorem at_current {it : Iter} {c : Cursor} (h : At it c) : iterCurrent it = some c.1 := by
  obtain ⟨n, t, ks, hc, hi, h2, h1⟩ := h
  rw [iterCurrent, hc]
  simp only [kidsOf, Option.bind_some]
  by_cases h0 : it.index = 0
  · simp [h0] at h1 ⊢; exact h1.symm
  · rw [if_neg h0] at h1
    rw [if_neg (by omega), List.getElem?_eq_getElem (by omega)]
    rw [List.getElem?_eq_getElem (by omega)] at h1
    simp [h1]

theorem at_hasMore {it : Iter} {c : Cursor} (h : At it c) : iterHasMore it = !c.2.isEmpty := by
  obtain ⟨n, t, ks, hc, hi, h2, h1⟩ := h
  rw [iterHasMore, hc, h2, length]
  cases hb : decide (it.index < ks.length) with
  | true =>
    have := of_decide_eq_true hb
    cases hd : ks.drop it.index with
    | nil => have := congrArg List.length hd; simp at this; omega
    | cons => rfl
  | false =>
    have := of_decide_eq_false hb
    rw [List.drop_eq_nil_of_le (by omega)]; rfl

theorem at_step {it : Iter} {c : Cursor} (h : At it c) (o : IterOp) (hk : o.asksKey = true → isObject it.container = true) :
    ∃ it', o.onIter it = some (it', (o.onCursor c).2) ∧ At it' (o.onCursor c).1 ∧ it'.container = it.container := by
  obtain ⟨itn, en, hn, hcn, _⟩ := at_next h
  cases o with
  | next => exact ⟨itn, by simp [IterOp.onIter, en, IterOp.onCursor], hn, hcn⟩
  | nextKey => exact ⟨itn, by simp [IterOp.onIter, iterNextKey, hk rfl, en, IterOp.onCursor], hn, hcn⟩
  | nextByType t s =>
    obtain ⟨last, todo⟩ := c
    have hlen : todo.length < length it.container + 1 := by
      obtain ⟨n, t, ks, hc, hi, h2, h1⟩ := h
      simp only at h2
      rw [h2, hc, length, List.length_drop]; omega
    obtain ⟨it', e, h', hc'⟩ := at_seek t s todo _ it last h hlen
    exact ⟨it', by simp [IterOp.onIter, iterNextByType, e, IterOp.onCursor], h', hc'⟩
  | current => exact ⟨it, by simp [IterOp.onIter, at_current h, IterOp.onCursor], h, rfl⟩
  | currentKey => exact ⟨it, by simp [IterOp.onIter, iterCurrentKey, hk rfl, at_current h, IterOp.onCursor], h, rfl⟩
  | hasMore => exact ⟨it, by simp [IterOp.onIter, at_hasMore h, IterOp.onCursor], h, rfl⟩

theorem at_run : ∀ (os : List IterOp) (it : Iter) (c : Cursor), At it c → (∀ o ∈ os, o.asksKey = true → isObject it.container = true) →
    iterRun it os = some (cursorRun c os)
  | [], _, _, _, _ => rfl
  | o :: os, it, c, h, hk => by
    obtain ⟨it', e, h', hc⟩ := at_step h o (hk o (by simp))
    have := at_run os it' _ h' (fun o ho => by rw [hc]; exact hk o (by simp [ho]))
    simp [iterRun, e, this, cursorRun]

end Json

/-- C95. An iterator over a container is a cursor over its children, for every sequence of calls: the first NextValue gives the first child, each further one the
next, then NULL; the type filter skips exactly the children it should; the current value is the one handed out last (also after the end); keys (of objects) are those
of the same children; HasMore tells whether a child is left. -/
theorem C95_iterator_is_cursor (n : Option Bytes) (t : Json.CType) (ks : List Elem) (ops : List IterOp)
    (hk : ∀ o ∈ ops, o.asksKey = true → t = .object) :
    ∃ it, Json.iterInit (.cont n t ks) = some it ∧ iterRun it ops = some (cursorRun (none, ks) ops) := by
  refine ⟨⟨.cont n t ks, 0⟩, rfl, at_run ops _ _ ⟨n, t, ks, rfl, by simp, by simp, by simp⟩ ?_⟩
  intro o ho h
  simp [isObject, hk o ho h]

/-- C95. Asking for the type of the current value is undefined before the first call that moves the iterator, for every container. -/
theorem C95_current_type_before_first (n : Option Bytes) (t : Json.CType) (ks : List Elem) : Json.iterCurrentType ⟨.cont n t ks, 0⟩ = none := by
  simp [iterCurrentType, iterCurrent, kidsOf]

/-- Skipping nulls over {"a": null, "b": [], "c": true}: the primitive is c, the current key is c, and nothing is left. -/
example : (iterRun ⟨.cont none .object [.prim (some [97]) .null litNull, .cont (some [98]) .array [], .prim (some [99]) .bool litTrue], 0⟩
      [.nextByType .primitive true, .currentKey, .hasMore, .next, .current]).map
        (fun l => l.map fun r => match r with
          | .elem e => (e.bind Elem.name, false)
          | .key k => (k, false)
          | .bool b => (none, b)) = some [(some [99], false), (some [99], false), (none, false), (none, false), (some [99], false)] := by decide +kernel

namespace Json
open SeqSpec Seqn

theorem arrOf_spec : ∀ (es : List Elem) (a : Kids) (l : List Elem), Has a l → ∃ a', arrOf a es = some a' ∧ Has a' (l ++ es) ∧ a'.hasDestroy = a.hasDestroy
  | [], a, l, h => ⟨a, rfl, by simpa using h, rfl⟩
  | e :: es, a, l, h => by
    obtain ⟨a1, e1, h1, d1⟩ := Seqn.append_spec h e
    obtain ⟨a2, e2, h2, d2⟩ := arrOf_spec es a1 _ h1
    exact ⟨a2, by simp [arrOf, arrAppend, e1, e2], by simpa using h2, by rw [d2, d1]⟩

theorem arr_step {a : Kids} {l : List Elem} (h : Has a l) (hd : a.hasDestroy = true) (o : ArrOp) :
    match o.onList l with
    | none => o.onArr a = none
    | some (l', d) => ∃ a', o.onArr a = some (a', d) ∧ Has a' l' ∧ a'.hasDestroy = true := by
  cases o with
  | append e =>
    obtain ⟨a1, e1, h1, d1⟩ := Seqn.append_spec h e
    exact ⟨a1, by simp [ArrOp.onArr, arrAppend, e1], h1, by rw [d1, hd]⟩
  | extend es =>
    obtain ⟨b, eb, hb, _⟩ := arrOf_spec es (arrNew 0) [] (Seqn.has_new 0 true)
    obtain ⟨a1, e1, h1, d1⟩ := Seqn.appendSeqLoop_spec hb es.length 0 a l h (by simp)
    have : b.length = es.length := by simpa using hb.2.1
    exact ⟨a1, by simp [ArrOp.onArr, eb, arrExtend, Seqn.appendSeq, this, e1], by simpa using h1, by rw [d1, hd]⟩
  | removeRange i j =>
    have hl := h.2.1
    simp only [ArrOp.onList]
    by_cases hb : i ≤ j ∧ j < l.length
    · rw [if_pos hb]
      obtain ⟨a1, e1, h1, d1⟩ := Seqn.removeRange_spec h i j hb.2 hb.1
      refine ⟨a1, ?_, h1, by rw [d1, hd]⟩
      simp only [ArrOp.onArr, arrRemoveRange]
      rw [if_pos ⟨by omega, hb.1⟩, e1, hd]; simp
    · rw [if_neg hb]
      simp only [ArrOp.onArr, arrRemoveRange]
      rw [if_neg (by omega)]
  | reverse =>
    obtain ⟨a1, e1, h1, d1⟩ := Seqn.reverse_spec h
    exact ⟨a1, by simp [ArrOp.onArr, arrReverse, e1], h1, by rw [d1, hd]⟩

theorem arr_run : ∀ (os : List ArrOp) (a : Kids) (l : List Elem), Has a l → a.hasDestroy = true →
    match listRun l os with
    | none => arrRun a os = none
    | some (l', d) => ∃ a', arrRun a os = some (a', d) ∧ Has a' l' ∧ a'.hasDestroy = true
  | [], a, l, h, hd => ⟨a, rfl, h, hd⟩
  | o :: os, a, l, h, hd => by
    have hs := arr_step h hd o
    simp only [listRun, arrRun]
    cases ho : o.onList l with
    | none => rw [ho] at hs; simp only at hs; simp [hs]
    | some r =>
      obtain ⟨l1, d1⟩ := r
      rw [ho] at hs
      obtain ⟨a1, e1, h1, hd1⟩ := hs
      have hr := arr_run os a1 l1 h1 hd1
      rw [e1]
      simp only [Option.bind_eq_bind, Option.bind_some]
      cases hl : listRun l1 os with
      | none => rw [hl] at hr; simp only at hr; simp [hr]
      | some r =>
        obtain ⟨l2, d2⟩ := r
        rw [hl] at hr
        obtain ⟨a2, e2, h2, hd2⟩ := hr
        exact ⟨a2, by simp [e2], h2, hd2⟩

theorem only_loop {a : Kids} {l : List Elem} (h : Has a l) : ∀ (n i : Nat), i + n = l.length →
    arrOnlyPrimitivesLoop a i n = some ((l.drop i).all fun e => etype e = .primitive)
  | 0, i, hi => by rw [arrOnlyPrimitivesLoop, List.drop_eq_nil_of_le (by omega)]; rfl
  | n + 1, i, hi => by
    have hl := h.2.1
    have : arrGet a i = some l[i] := by
      rw [arrGet, if_pos (by omega), h.2.2 i (by omega), List.getElem?_eq_getElem (by omega)]
    rw [arrOnlyPrimitivesLoop, this, List.drop_eq_getElem_cons (by omega), Option.bind_some, List.all_cons, only_loop h n (i + 1) (by omega)]
    by_cases ht : etype l[i] = .primitive <;> simp [ht]

end Json

/-- C96. A JSON array is a list, for every history of appends, extensions with another array, range removals within bounds and reversals: its elements are those of
the list the history describes, the destroyed elements are exactly the removed ones (never those taken over from another array), every position reads the right
element, and the test for primitives looks at all of them. Calls outside the documented bounds are refused by an assertion. -/
theorem C96_array_is_list (cap : Nat) (ops : List ArrOp) :
    match listRun [] ops with
    | none => arrRun (Json.arrNew cap) ops = none
    | some (l, destroyed) => ∃ a, arrRun (Json.arrNew cap) ops = some (a, destroyed) ∧ a.length = l.length ∧ (∀ i, Json.arrGet a i = l[i]?) ∧
        (∃ b, Json.arrOnlyPrimitives a = some b ∧ (b = true ↔ ∀ e ∈ l, ∃ n t v, e = .prim n t v)) := by
  have h := arr_run ops (Json.arrNew cap) [] (Seqn.has_new cap true) rfl
  cases hl : listRun [] ops with
  | none => rw [hl] at h; exact h
  | some r =>
    obtain ⟨l, d⟩ := r
    rw [hl] at h
    obtain ⟨a, e, ha, _⟩ := h
    have hlen := ha.2.1
    refine ⟨a, e, hlen, fun i => ?_, l.all fun e => decide (etype e = .primitive), ?_, ?_⟩
    · rw [arrGet]
      by_cases hi : i < a.length
      · rw [if_pos hi, ha.2.2 i hi]
      · rw [if_neg hi, List.getElem?_eq_none (by omega)]
    · rw [arrOnlyPrimitives, hlen, only_loop ha _ 0 (by omega)]; simp
    · simp only [List.all_eq_true, decide_eq_true_eq]
      constructor
      · intro h e he
        have := h e he
        cases e with
        | prim n t v => exact ⟨n, t, v, rfl⟩
        | cont => cases this
      · intro h e he
        obtain ⟨n, t, v, rfl⟩ := h e he
        rfl

example : ((arrRun (Json.arrNew 1) [.append (Json.boolCreate true), .extend [Json.nullCreate, Json.arrayCreate], .reverse, .removeRange 1 2]).map
    fun r => (r.1.length, r.2.map Json.etype)) = some (1, [.primitive, .primitive]) := by decide +kernel

/-- C97. What is put into a primitive is read back: booleans, strings, integers (through `long`, through `int64_t`, with or without a default), and as text. -/
theorem C97_read_back (b : Bool) (s : Bytes) (x d : Int) (h1 : -2 ^ 63 ≤ x) (h2 : x < 2 ^ 63) (dbl : Bytes → Bytes) :
    Json.getAsBool (Json.boolCreate b) = some b ∧
    Json.primString (Json.stringCreate s) = some s ∧
    Json.primInteger (Json.integerCreate64 x) = some x ∧
    Json.primInt64 (Json.integerCreate64 x) = some (.ok x) ∧
    Json.primInt64Default d (Json.integerCreate64 x) = some x ∧
    Json.primToString dbl (Json.boolCreate b) = some (some (if b then litTrue else litFalse)) ∧
    Json.primToString dbl (Json.integerCreate64 x) = some (some (NumSpec.decimalInt x)) ∧
    Json.primToString dbl (Json.stringCreate s) = some (some s) ∧
    Json.primToString dbl Json.nullCreate = some none := by
  have hx : getAsInteger (intText x) = some x := by rw [intText_eq]; exact getAsInteger_ok x h1 h2
  have hl : Str.stringToLong (intText x) = some (.ok x) := by
    simp only [getAsInteger] at hx
    cases hr : Str.stringToLong (intText x) with
    | none => rw [hr] at hx; cases hx
    | some r =>
      rw [hr] at hx
      cases r with
      | ok v => simp at hx; rw [hx]
      | error _ => cases hx
  refine ⟨by cases b <;> rfl, rfl, hx, hl, ?_, by cases b <;> rfl, ?_, rfl, rfl⟩
  · simp [primInt64Default, integerCreate64, Str.stringToLongDefault, hl]
  · rw [integerCreate64, primToString, hx, Option.bind_some, intText_eq]

example : Json.primInteger (Json.integerCreate64 (-9223372036854775808)) = some (-9223372036854775808) := by decide +kernel

open NumSpec in
/-- C97. For an integer of any size (one that was parsed): `JsonPrimitiveGetAsInt64DefaultOnError` gives the number if it fits 64 bits and is nothing but a decimal
numeral, and the default otherwise. -/
theorem C97_default (n : Option Bytes) (v : Bytes) (h0 : 0 ∉ v) (d : Int) :
    (∀ neg mag rest, Numeral v neg mag rest → -2 ^ 63 ≤ signed neg mag → signed neg mag < 2 ^ 63 → Terminated rest →
      Json.primInt64Default d (.prim n .integer v) = some (signed neg mag)) ∧
    ((¬ ∃ neg mag rest, Numeral v neg mag rest ∧ -2 ^ 63 ≤ signed neg mag ∧ signed neg mag < 2 ^ 63 ∧ Terminated rest) →
      Json.primInt64Default d (.prim n .integer v) = some d) := C40_toLongDefault v h0 d

example : Json.primInt64Default 7 (.prim none .integer [57, 50, 50, 51, 51, 55, 50, 48, 51, 54, 56, 53, 52, 55, 55, 53, 56, 48, 56]) = some 7 := by decide +kernel
