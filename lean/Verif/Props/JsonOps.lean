import Verif.Props.Json
/-! # JSON: comparison, copy and merge -/
open JsonSpec Json

namespace Json
variable {okS okK okI okR : Bytes → Prop}

theorem validAll_iff (es : List Elem) : ValidAll okS okK okI okR es ↔ ∀ e ∈ es, Valid okS okK okI okR e := by
  induction es with
  | nil => simp [ValidAll]
  | cons e es ih => simp [ValidAll, ih]

theorem valid_setName (e : Elem) (n : Option Bytes) : Valid okS okK okI okR (e.setName n) ↔ Valid okS okK okI okR e := by
  cases e with
  | prim _ t v => cases t <;> simp [Elem.setName, Valid]
  | cont _ t v => cases t <;> simp [Elem.setName, Valid]

theorem members_eq (kids : List Elem) (k : Bytes) : members kids k = (toMap kids k).map doc := by
  induction kids with
  | nil => rfl
  | cons e es ih =>
    simp only [members, toMap, List.find?_cons]
    by_cases h : e.name = some k
    · simp [h]
    · rw [if_neg h, show (e.name == some k) = false by simpa using h]; exact ih

theorem docs_eq (es : List Elem) : docs es = es.map doc := by
  induction es with
  | nil => rfl
  | cons e es ih => simp [docs, ih]

/-! ## Comparison -/
theorem strcmp_zero (mag : Bytes → Bytes → Nat) (a b : Bytes) : strcmp mag a b = 0 ↔ a = b := by
  have hz := Str.cmpSign_zero id a b
  simp only [List.map_id] at hz
  rw [← hz, strcmp, Str.libc, Int.mul_eq_zero]
  constructor
  · rintro (h | h)
    · exact h
    · omega
  · exact Or.inl

theorem lengthDiff_self (n : Nat) : lengthDiff n n = 0 := by simp [lengthDiff, Str.toInt]

mutual
theorem compare_self (mag : Bytes → Bytes → Nat) : ∀ (e : Elem), Valid okS okK okI okR e → compare mag e e = some 0
  | .prim _ _ v, _ => by rw [compare, (strcmp_zero mag v v).2 rfl]
  | .cont _ .array ks, h => by
    rw [compare, if_neg (by simp), if_neg (by simp [lengthDiff_self])]
    exact compareArray_self mag ks (by rw [Valid] at h; exact h)
  | .cont _ .object ks, h => by
    rw [compare, if_neg (by simp), if_neg (by simp [lengthDiff_self])]
    rw [Valid] at h
    exact compareObject_self mag ks h.1 (fun k hk => let ⟨n, e, _⟩ := h.2.2 k hk; ⟨n, e⟩)
theorem compareArray_self (mag : Bytes → Bytes → Nat) : ∀ (es : List Elem), ValidAll okS okK okI okR es → compareArray mag es = some 0
  | [], _ => by rw [compareArray]
  | e :: es, h => by
    rw [ValidAll] at h
    rw [compareArray, compare_self mag e h.1, Option.bind_some, if_neg (by simp)]
    exact compareArray_self mag es h.2
theorem compareObject_self (mag : Bytes → Bytes → Nat) : ∀ (es : List Elem), ValidAll okS okK okI okR es → (∀ k ∈ keys es, ∃ n, k = some n) →
    compareObject mag es = some 0
  | [], _, _ => by rw [compareObject]
  | e :: es, h, hk => by
    rw [ValidAll] at h
    obtain ⟨n, hn⟩ := hk e.name (by simp [keys])
    rw [compareObject, hn, Option.bind_some, if_neg (by simp [(strcmp_zero mag n n).2 rfl]), compare_self mag e h.1, Option.bind_some, if_neg (by simp)]
    exact compareObject_self mag es h.2 (fun k hk' => hk k (by simp only [keys, List.map_cons] at hk' ⊢; exact List.mem_cons_of_mem _ hk'))
end

theorem lengthDiff_zero {a b : Nat} (ha : a < 2 ^ 32) (hb : b < 2 ^ 32) : lengthDiff a b = 0 ↔ a = b := by
  rw [lengthDiff, Str.toInt]
  constructor
  · intro h
    have h1 := Int.emod_bmod (x := (a : Int) - b) (n := 2 ^ 32)
    have h2 : ((a : Int) - b) % (2 ^ 32 : Nat) = 0 := by
      rw [Int.bmod] at h
      split at h <;> omega
    omega
  · rintro rfl; simp

theorem compare_zero_iff (mag : Bytes → Bytes → Nat) (a b : Elem) (ha : Valid okS okK okI okR a) (hca : count a < 2 ^ 32) (hcb : count b < 2 ^ 32) :
    compare mag a b = some 0 ↔ SameShape a b := by
  cases a with
  | prim n t v => cases b with
    | prim n' t' w => rw [compare]; simp [SameShape, strcmp_zero]
    | cont => rw [compare]; simp [SameShape]
  | cont n t ks => cases b with
    | prim n' t' w => rw [compare]; simp [SameShape]
    | cont n' u ls =>
      rw [compare.eq_def]
      simp only [SameShape]
      by_cases htu : t = u
      · subst htu
        rw [if_neg (by simp)]
        simp only [count] at hca hcb
        have hz := lengthDiff_zero hca hcb
        by_cases hl : ks.length = ls.length
        · rw [if_neg (by simp [hz.2 hl])]
          cases t with
          | array => rw [Valid] at ha; simp [hl, compareArray_self mag ks ha]
          | object => rw [Valid] at ha; simp [hl, compareObject_self mag ks ha.1 (fun k hk => let ⟨n, e, _⟩ := ha.2.2 k hk; ⟨n, e⟩)]
        · rw [if_pos (fun h => hl (hz.1 h))]
          simp [hl]
          exact fun h => hl (hz.1 h)
      · rw [if_pos htu]
        cases t <;> cases u <;> simp_all [typeRank]
end Json

namespace JsonSpec
open Json
variable {okS okK okI okR : Bytes → Prop}
theorem mem_keys_iff (ks : List Elem) (k : Bytes) : some k ∈ keys ks ↔ members ks k ≠ none := by
  induction ks with
  | nil => simp [keys, members]
  | cons e es ih =>
    simp only [keys, List.map_cons, List.mem_cons, members] at ih ⊢
    by_cases h : e.name = some k
    · simp [h]
    · rw [if_neg h, ← ih]; constructor
      · rintro (h' | h')
        · exact absurd h'.symm h
        · exact h'
      · exact Or.inr

/-- Equal documents have the same shape. -/
theorem shape_of_doc {a b : Elem} (ha : Valid okS okK okI okR a) (hb : Valid okS okK okI okR b) (h : doc a = doc b) : SameShape a b := by
  cases a with
  | prim n t v => cases b with
    | prim n' t' w =>
      rw [SameShape]
      cases t <;> cases t' <;> simp only [doc, Doc.string.injEq, Doc.integer.injEq, Doc.real.injEq, Doc.bool.injEq, reduceCtorEq] at h <;>
        try exact h
      · simp only [Valid] at ha hb
        rcases ha with rfl | rfl <;> rcases hb with rfl | rfl <;> first | rfl | (simp at h)
      · simp only [Valid] at ha hb; rw [ha, hb]
    | cont n' u ls => cases t <;> cases u <;> simp [doc] at h
  | cont n t ks => cases b with
    | prim n' t' w => cases t <;> cases t' <;> simp [doc] at h
    | cont n' u ls =>
      cases t <;> cases u <;> simp only [doc, Doc.array.injEq, Doc.object.injEq, reduceCtorEq] at h
      · refine ⟨rfl, ?_⟩
        rw [Valid] at ha hb
        have hp : (keys ks).Perm (keys ls) := by
          rw [List.perm_ext_iff_of_nodup ha.2.1 hb.2.1]
          intro k
          cases k with
          | none =>
            constructor
            · intro hk; obtain ⟨n, e, _⟩ := ha.2.2 _ hk; cases e
            · intro hk; obtain ⟨n, e, _⟩ := hb.2.2 _ hk; cases e
          | some k => rw [mem_keys_iff, mem_keys_iff, h]
        simpa [keys] using hp.length_eq
      · refine ⟨rfl, ?_⟩
        have := congrArg List.length h
        simpa [docs_eq] using this
end JsonSpec

/-- C27, partial: equal documents compare equal (with up to 2^32 children at the top). Missing: the converse, which is false (next theorem). -/
theorem C27_equal_documents_partial (mag : Bytes → Bytes → Nat) (a b : Elem) (okS okK okI okR : Bytes → Prop) (ha : Valid okS okK okI okR a)
    (hb : Valid okS okK okI okR b) (hca : count a < 2 ^ 32) (hcb : count b < 2 ^ 32) (h : doc a = doc b) : Json.compare mag a b = some 0 :=
  (compare_zero_iff mag a b ha hca hcb).2 (shape_of_doc ha hb h)

/-- C27, what the code decides: primitives by their texts, containers only by their kind and their number of children. -/
theorem C27_zero_iff_shape (mag : Bytes → Bytes → Nat) (a b : Elem) (okS okK okI okR : Bytes → Prop) (ha : Valid okS okK okI okR a)
    (hca : count a < 2 ^ 32) (hcb : count b < 2 ^ 32) : Json.compare mag a b = some 0 ↔ SameShape a b :=
  compare_zero_iff mag a b ha hca hcb

/-- C27 fails: `[1]` and `[2]`, `{"a":1}` and `{"b":null}`, the string "true" and the boolean compare equal. -/
theorem C27_contents_ignored (mag : Bytes → Bytes → Nat) :
    (∃ a b, Json.compare mag a b = some 0 ∧ a = .cont none .array [integerCreate 1] ∧ b = .cont none .array [integerCreate 2] ∧ doc a ≠ doc b) ∧
    (∃ a b, Json.compare mag a b = some 0 ∧ a = .cont none .object [.prim (some [97]) .integer [49]] ∧ b = .cont none .object [.prim (some [98]) .null litNull] ∧
      doc a ≠ doc b) ∧
    (∃ a b, Json.compare mag a b = some 0 ∧ a = stringCreate litTrue ∧ b = boolCreate true ∧ doc a ≠ doc b) := by
  have v1 : Valid (fun _ => True) (fun _ => True) (fun _ => True) (fun _ => True) (.cont none .array [integerCreate 1]) := by
    simp [Valid, ValidAll, integerCreate]
  have v2 : Valid (fun _ => True) (fun _ => True) (fun _ => True) (fun _ => True) (.cont none .object [.prim (some [97]) .integer [49]]) := by
    simp [Valid, ValidAll, keys, Elem.name]
  have v3 : Valid (fun _ => True) (fun _ => True) (fun _ => True) (fun _ => True) (stringCreate litTrue) := by
    simp [Valid, stringCreate]
  refine ⟨⟨_, _, (compare_zero_iff mag _ (.cont none .array [integerCreate 2]) v1 (by decide) (by decide)).2 ⟨rfl, rfl⟩, rfl, rfl, ?_⟩,
    ⟨_, _, (compare_zero_iff mag _ (.cont none .object [.prim (some [98]) .null litNull]) v2 (by decide) (by decide)).2 ⟨rfl, rfl⟩, rfl, rfl, ?_⟩,
    ⟨_, _, (compare_zero_iff mag _ (boolCreate true) v3 (by decide) (by decide)).2 rfl, rfl, rfl, ?_⟩⟩
  · simp only [doc, docs, integerCreate, Doc.array.injEq, List.cons.injEq, Doc.integer.injEq, and_true, ne_eq]; decide +kernel
  · simp only [doc, Doc.object.injEq, ne_eq]
    intro h
    have := congrFun h [97]
    simp [members, Elem.name] at this
  · simp [doc, stringCreate, boolCreate]

/-! ## Copy -/
namespace Json
variable {okS okK : Bytes → Prop}

theorem getAsInteger_ok (x : Int) (h1 : -2 ^ 63 ≤ x) (h2 : x < 2 ^ 63) : getAsInteger (NumSpec.decimalInt x) = some x := by
  obtain ⟨_, _, _, h⟩ := C40_roundtrip x h1 h2
  simp [getAsInteger, h]

theorem intText_eq (x : Int) : intText x = NumSpec.decimalInt x := by rw [intText, NumSpec.decimalInt, NumSpec.natText_eq]

theorem toInt_id {x : Int} (h1 : -2 ^ 31 ≤ x) (h2 : x < 2 ^ 31) : Str.toInt x = x := by
  rw [Str.toInt, Int.bmod_eq_of_le] <;> omega

theorem appendElement_valid {okI okR : Bytes → Prop} {acc : List Elem} {k : Bytes} {e : Elem} (h : ∀ x ∈ acc, Valid okS okK okI okR x) (he : Valid okS okK okI okR e) :
    ∀ x ∈ appendElement acc k e, Valid okS okK okI okR x := by
  rw [appendElement, removeKey_eq]
  intro x hx
  rcases List.mem_append.1 hx with hx | hx
  · exact h x (List.mem_of_mem_eraseP hx)
  · simp at hx; subst hx; exact (valid_setName e _).2 he

theorem members_append {kids : List Elem} (k : Bytes) (e : Elem) (h : (keys kids).Nodup) (k' : Bytes) :
    members (appendElement kids k e) k' = if k' = k then some (doc e) else members kids k' := by
  rw [members_eq, toMap_append k e h, Map.set, members_eq]
  split <;> simp [doc_setName]

/-- The state of an object under construction. -/
structure ObjOk (okS okK okI okR : Bytes → Prop) (acc : List Elem) : Prop where
  valid : ∀ x ∈ acc, Valid okS okK okI okR x
  nodup : (keys acc).Nodup
  named : ∀ k ∈ keys acc, ∃ n, k = some n ∧ okK n

theorem ObjOk.append {okI okR : Bytes → Prop} {acc : List Elem} (h : ObjOk okS okK okI okR acc) {k : Bytes} (hk : okK k) {e : Elem} (he : Valid okS okK okI okR e) :
    ObjOk okS okK okI okR (appendElement acc k e) := by
  refine ⟨appendElement_valid h.valid he, nodup_append k e h.nodup, ?_⟩
  rw [keys_append]
  intro x hx
  rcases List.mem_append.1 hx with hx | hx
  · exact h.named x (List.mem_of_mem_erase hx)
  · simp at hx; exact ⟨k, hx, hk⟩

theorem ObjOk.elem {okI okR : Bytes → Prop} {acc : List Elem} (h : ObjOk okS okK okI okR acc) (n : Option Bytes) : Valid okS okK okI okR (.cont n .object acc) := by
  rw [Valid]; exact ⟨(validAll_iff acc).2 h.valid, h.nodup, h.named⟩

variable (rt : RealText)
mutual
theorem copy_ok : ∀ (e : Elem), Valid okS okK IsInt (fun v => rt v = v) e → ∃ e', copy rt e = some e' ∧ doc e' = doc e ∧
    Valid okS okK IsInt (fun v => rt v = v) e' ∧ e'.name = none
  | .prim _ .string v, h => ⟨_, rfl, rfl, h, rfl⟩
  | .prim _ .real v, h => by
    rw [Valid] at h
    exact ⟨.prim none .real v, by rw [copy, primCopy, h], rfl, h, rfl⟩
  | .prim _ .integer v, h => by
    rw [Valid] at h
    have hv := h
    obtain ⟨x, h1, h2, rfl⟩ := h
    refine ⟨.prim none .integer (NumSpec.decimalInt x), ?_, rfl, hv, rfl⟩
    rw [copy, primCopy, getAsInteger_ok x (by omega) (by omega), Option.map_some, toInt_id h1 h2, integerCreate, intText_eq]
  | .prim _ .bool v, h => by
    rw [Valid] at h
    rcases h with rfl | rfl
    · exact ⟨_, rfl, rfl, by rw [boolCreate, Valid]; exact Or.inl rfl, rfl⟩
    · exact ⟨_, rfl, rfl, by rw [boolCreate, Valid]; exact Or.inr rfl, rfl⟩
  | .prim _ .null v, h => ⟨_, rfl, rfl, by rw [nullCreate, Valid, litNull], rfl⟩
  | .cont _ .array ks, h => by
    rw [Valid] at h
    obtain ⟨es, h1, h2, h3⟩ := copyArray_ok ks [] h
    refine ⟨.cont none .array es, by rw [copy, h1]; rfl, by rw [doc, doc, h2], ?_, rfl⟩
    rw [Valid]; exact h3
  | .cont _ .object ks, h => by
    rw [Valid] at h
    obtain ⟨es, h1, h2, h3⟩ := copyObject_ok ks [] h.1 h.2.2 h.2.1 ⟨by simp, List.nodup_nil, by simp [keys]⟩
    refine ⟨.cont none .object es, by rw [copy, h1]; rfl, ?_, h2.elem _, rfl⟩
    rw [doc, doc]
    congr 1
    funext k
    rw [h3]
    simp [members]
theorem copyArray_ok : ∀ (es acc : List Elem), ValidAll okS okK IsInt (fun v => rt v = v) es → ∃ es', copyArray rt es acc = some (acc ++ es') ∧
    docs es' = docs es ∧ ValidAll okS okK IsInt (fun v => rt v = v) es'
  | [], acc, _ => ⟨[], by rw [copyArray]; simp, rfl, by rw [ValidAll]; trivial⟩
  | e :: es, acc, h => by
    rw [ValidAll] at h
    obtain ⟨e', a1, a2, a3, _⟩ := copy_ok e h.1
    obtain ⟨es', b1, b2, b3⟩ := copyArray_ok es (acc ++ [e']) h.2
    refine ⟨e' :: es', ?_, by rw [docs, docs, a2, b2], by rw [ValidAll]; exact ⟨a3, b3⟩⟩
    rw [copyArray, a1, Option.bind_some, b1]; simp
theorem copyObject_ok : ∀ (es acc : List Elem), ValidAll okS okK IsInt (fun v => rt v = v) es → (∀ k ∈ keys es, ∃ n, k = some n ∧ okK n) → (keys es).Nodup →
    ObjOk okS okK IsInt (fun v => rt v = v) acc → ∃ acc', copyObject rt es acc = some acc' ∧ ObjOk okS okK IsInt (fun v => rt v = v) acc' ∧
      ∀ k, members acc' k = (members es k).or (members acc k)
  | [], acc, _, _, _, ha => ⟨acc, by rw [copyObject], ha, by simp [members]⟩
  | e :: es, acc, h, hk, hn, ha => by
    rw [ValidAll] at h
    obtain ⟨n, hname, hok⟩ := hk e.name (by simp [keys])
    obtain ⟨e', a1, a2, a3, _⟩ := copy_ok e h.1
    have hn' := hn
    simp only [keys, List.map_cons, List.nodup_cons] at hn'
    obtain ⟨acc', b1, b2, b3⟩ := copyObject_ok es (appendElement acc n e') h.2
      (fun k hk' => hk k (by simp only [keys, List.map_cons] at hk' ⊢; exact List.mem_cons_of_mem _ hk')) hn'.2 (ha.append hok a3)
    refine ⟨acc', by rw [copyObject, hname, Option.bind_some, a1, Option.bind_some, b1], b2, ?_⟩
    intro k
    rw [b3, members_append n e' ha.nodup, a2]
    simp only [members, hname, Option.some.injEq]
    by_cases hkn : k = n
    · subst hkn
      have : members es k = none := by
        by_cases hm : members es k = none
        · exact hm
        · exact absurd ((mem_keys_iff es k).2 hm) (hname ▸ hn'.1)
      simp [this]
    · rw [if_neg hkn, if_neg (fun h => hkn h.symm)]
end
end Json

/-- C28, partial: copying a document whose integers fit in an `int` and whose reals are texts that reading and printing with four decimals leaves alone
gives an equal document (itself valid, so this can be iterated). Missing: other numbers, for which it is false (next theorems). -/
theorem C28_copy_partial (rt : Json.RealText) (e : Elem) (okS okK : Bytes → Prop) (h : Valid okS okK IsInt (fun v => rt v = v) e) :
    ∃ e', Json.copy rt e = some e' ∧ doc e' = doc e ∧ Valid okS okK IsInt (fun v => rt v = v) e' ∧ e'.name = none := Json.copy_ok rt e h

/-- C28 fails: the copy of the integer 4294967301 = 2^32 + 5 is 5. -/
theorem C28_large_integer_truncated (rt : Json.RealText) : Json.copy rt (Json.integerCreate64 4294967301) = some (Json.integerCreate 5) := by
  rw [integerCreate64, copy, primCopy, intText_eq, getAsInteger_ok _ (by omega) (by omega)]
  rfl

/-- C28 fails: copying what the parser makes of `1e5` or of `9223372036854775808` ends the process. -/
theorem C28_integer_exits (rt : Json.RealText) :
    (∃ e q, Json.parse [49, 101, 53] = some (.ok (e, q)) ∧ Json.copy rt e = none) ∧
    (∃ e q, Json.parse [57, 50, 50, 51, 51, 55, 50, 48, 51, 54, 56, 53, 52, 55, 55, 53, 56, 48, 56] = some (.ok (e, q)) ∧ Json.copy rt e = none) := by
  refine ⟨⟨.prim none .integer [49, 101, 53], 2, by rfl, by rfl⟩,
    ⟨.prim none .integer [57, 50, 50, 51, 51, 55, 50, 48, 51, 54, 56, 53, 52, 55, 55, 53, 56, 48, 56], 18, by rfl, by rfl⟩⟩

example (rt : Json.RealText) (h : rt [49, 46, 53, 48, 48, 48] = [49, 46, 53, 48, 48, 48]) :
    Valid (fun _ => True) (fun _ => True) IsInt (fun v => rt v = v)
      (.cont none .object [.prim (some [97]) .real [49, 46, 53, 48, 48, 48], .cont (some [98]) .array [integerCreate (-7), nullCreate, boolCreate true]]) := by
  have : IsInt (intText (-7)) := ⟨-7, by omega, by omega, intText_eq _⟩
  simp [Valid, ValidAll, keys, Elem.name, integerCreate, nullCreate, boolCreate, litNull, litTrue, h, this]

/-! ## Merge -/
namespace Json
variable {okS okK : Bytes → Prop} (rt : RealText)

theorem decimal_inj {a b : Nat} (h : NumSpec.decimal a = NumSpec.decimal b) : a = b := by
  rw [← NumSpec.value_decimal a, h, NumSpec.value_decimal]

theorem indexed_lt {ds : List Doc} : ∀ {i j : Nat}, j < i → indexed i ds (NumSpec.decimal j) = none := by
  induction ds with
  | nil => intros; rfl
  | cons d ds ih =>
    intro i j h
    rw [indexed, if_neg (fun e => by have := decimal_inj e; omega)]
    exact ih (by omega)

theorem mergeArrayLoop_ok (hidx : ∀ n, okK (NumSpec.decimal n)) : ∀ (es acc : List Elem) (i : Nat), ValidAll okS okK IsInt (fun v => rt v = v) es →
    ObjOk okS okK IsInt (fun v => rt v = v) acc → ∃ acc', mergeArrayLoop rt i es acc = some acc' ∧ ObjOk okS okK IsInt (fun v => rt v = v) acc' ∧
      ∀ k, members acc' k = (indexed i (docs es) k).or (members acc k) := by
  intro es
  induction es with
  | nil => intro acc i _ ha; exact ⟨acc, rfl, ha, by simp [docs, indexed]⟩
  | cons e es ih =>
    intro acc i h ha
    rw [ValidAll] at h
    obtain ⟨e', a1, a2, a3, _⟩ := copy_ok rt e h.1
    have hi : intText i = NumSpec.decimal i := by rw [intText_eq, NumSpec.decimalInt, if_neg (by omega)]; simp
    obtain ⟨acc', b1, b2, b3⟩ := ih (appendElement acc (NumSpec.decimal i) e') (i + 1) h.2 (ha.append (hidx i) a3)
    refine ⟨acc', by rw [mergeArrayLoop, a1, Option.bind_some, hi, b1], b2, ?_⟩
    intro k
    rw [b3, members_append _ e' ha.nodup, a2, docs, indexed]
    by_cases hk : k = NumSpec.decimal i
    · subst hk; rw [indexed_lt (by omega)]; simp
    · rw [if_neg hk, if_neg hk]
end Json

/-- C29. Merging two containers (with numbers that can be copied, see C28; the claim that keys are `okK` also covers the indices): arrays are
concatenated; objects are united, the second operand winning; an array merged with an object, in either order, becomes members with decimal
indices, which win over the object's. -/
theorem C29_merge (rt : Json.RealText) (a b : Elem) (okS okK : Bytes → Prop) (hidx : ∀ n, okK (NumSpec.decimal n))
    (ha : Valid okS okK IsInt (fun v => rt v = v) a) (hb : Valid okS okK IsInt (fun v => rt v = v) b)
    (ca : ∃ n t ks, a = .cont n t ks) (cb : ∃ n t ks, b = .cont n t ks) :
    ∃ e, Json.merge rt a b = some e ∧ doc e = merged (doc a) (doc b) ∧ Valid okS okK IsInt (fun v => rt v = v) e := by
  obtain ⟨na, ta, ka, rfl⟩ := ca
  obtain ⟨nb, tb, kb, rfl⟩ := cb
  have e0 : ObjOk okS okK IsInt (fun v => rt v = v) [] := ⟨by simp, List.nodup_nil, by simp [keys]⟩
  cases ta <;> cases tb <;> simp only [Valid] at ha hb <;> rw [merge]
  · obtain ⟨r, a1, a2, a3⟩ := copyObject_ok rt ka [] ha.1 ha.2.2 ha.2.1 e0
    obtain ⟨r', b1, b2, b3⟩ := copyObject_ok rt kb r hb.1 hb.2.2 hb.2.1 a2
    refine ⟨.cont none .object r', by rw [a1, Option.bind_some, b1]; rfl, ?_, b2.elem _⟩
    rw [doc, doc, doc, merged]; congr 1; funext k
    rw [b3, a3]; simp [members]
  · obtain ⟨r, a1, a2, a3⟩ := copyObject_ok rt ka [] ha.1 ha.2.2 ha.2.1 e0
    obtain ⟨r', b1, b2, b3⟩ := mergeArrayLoop_ok rt hidx kb r 0 hb a2
    refine ⟨.cont none .object r', by rw [a1, Option.bind_some, b1]; rfl, ?_, b2.elem _⟩
    rw [doc, doc, doc, merged]; congr 1; funext k
    rw [b3, a3]; simp [members]
  · obtain ⟨r, a1, a2, a3⟩ := copyObject_ok rt kb [] hb.1 hb.2.2 hb.2.1 e0
    obtain ⟨r', b1, b2, b3⟩ := mergeArrayLoop_ok rt hidx ka r 0 ha a2
    refine ⟨.cont none .object r', by rw [a1, Option.bind_some, b1]; rfl, ?_, b2.elem _⟩
    rw [doc, doc, doc, merged]; congr 1; funext k
    rw [b3, a3]; simp [members]
  · obtain ⟨r, a1, a2, a3⟩ := copyArray_ok rt ka [] ha
    obtain ⟨r', b1, b2, b3⟩ := copyArray_ok rt kb r hb
    refine ⟨.cont none .array (r ++ r'), by rw [mergeArrays, a1, Option.bind_some, List.nil_append, b1]; rfl, ?_, ?_⟩
    · rw [doc, doc, doc, merged]; congr 1
      rw [docs_eq] at *; rw [docs_eq] at *; rw [docs_eq kb] at *
      rw [List.map_append, a2, b2]
    · rw [Valid, validAll_iff]
      intro x hx
      rcases List.mem_append.1 hx with hx | hx
      · exact (validAll_iff r).1 a3 x hx
      · exact (validAll_iff r').1 b3 x hx

example (rt : Json.RealText) : Json.merge rt (.cont none .object [.prim (some [48]) .integer [49], .prim (some [97]) .null litNull])
    (.cont none .array [integerCreate 7]) = some (.cont none .object [.prim (some [97]) .null litNull, .prim (some [48]) .integer [55]]) := rfl
