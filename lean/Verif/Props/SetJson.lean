import Verif.Model.SetJson
import Verif.Props.Set
/-! # Properties of string sets made from and turned into JSON arrays -/
namespace SetJson
open CMap Json MapSpec

/-- Text of an array item, when it has one. -/
def itemText (dbl : Bytes → Bytes) : Elem → Option Bytes
  | .prim _ .string v => some v
  | .prim _ .bool v => some (if v = litTrue then litTrue else litFalse)
  | .prim _ .integer v => (getAsInteger v).map intText
  | .prim _ .real v => some (dbl v)
  | _ => none

theorem primToString_of_text {dbl : Bytes → Bytes} {e : Elem} {t : Bytes} (h : itemText dbl e = some t) : primToString dbl e = some (some t) := by
  cases e with
  | cont => simp [itemText] at h
  | prim n ty v =>
    cases ty with
    | bool =>
      simp only [itemText, Option.some.injEq] at h
      rw [primToString, ← h]
      by_cases hv : v = litTrue <;> simp [hv]
    | integer =>
      simp only [itemText, Option.map_eq_some_iff] at h
      obtain ⟨x, h1, h2⟩ := h
      simp [primToString, h1, h2]
    | null => simp [itemText] at h
    | real => simpa [itemText, primToString] using h
    | string => simpa [itemText, primToString] using h

theorem walkKids_items {f : Fns Bytes} (hf : Lawful f) (dbl : Bytes → Bytes) : ∀ (ks : List Elem) (ts : List Bytes), ks.map (itemText dbl) = ts.map some →
    ∀ (h : List (SetSpec.Op Bytes)) (m : Map Bytes Bytes), SetSpec.runImpl f h = some m →
    ∃ m', walkKids (some visitError) (some visitArray) (some (visitItem f dbl)) (some m) ks = (some m', true) ∧
      SetSpec.runImpl f ((ts.map SetSpec.Op.add).reverse ++ h) = some m' := by
  intro ks
  induction ks with
  | nil =>
    intro ts ht h m hm
    cases ts with
    | nil => exact ⟨m, rfl, hm⟩
    | cons => simp at ht
  | cons k ks ih =>
    intro ts ht h m hm
    cases ts with
    | nil => simp at ht
    | cons t ts =>
      simp only [List.map_cons, List.cons.injEq] at ht
      obtain ⟨s1, _, _, e1, _⟩ := set_run_spec hf (.add t :: h)
      have hadd : ∃ d, setAdd f m t = some (s1, d) := by
        rw [SetSpec.runImpl, hm] at e1
        simp only [Option.bind_eq_bind, Option.bind_some] at e1
        cases ha : setAdd f m t with
        | none => rw [ha] at e1; simp at e1
        | some r => rw [ha] at e1; simp at e1; exact ⟨r.2, by rw [← e1]⟩
      obtain ⟨d, hd⟩ := hadd
      obtain ⟨m', w, r⟩ := ih ts ht.2 (.add t :: h) s1 e1
      refine ⟨m', ?_, by simpa using r⟩
      cases k with
      | cont => simp [itemText] at ht
      | prim n ty v =>
        rw [walkKids]
        have hw : walk (some visitError) (some visitArray) (some (visitItem f dbl)) (some m) (.prim n ty v) = (some s1, true) := by
          rw [walk, callVisitor, visitItem]
          simp only [primToString_of_text ht.1, hd]
        rw [hw]
        simpa using w

theorem runImpl_new_size : mapSize (mapNew : Map Bytes Bytes) = some 0 := rfl

/-- C121: an array of strings, numbers and booleans becomes the set of their texts: no more, no less. -/
theorem C121_array_to_set (f : Fns Bytes) (hf : Lawful f) (heq : ∀ a b, f.eq a b = decide (a = b)) (dbl : Bytes → Bytes) (n : Option Bytes)
    (ks : List Elem) (ts : List Bytes) (ht : ks.map (itemText dbl) = ts.map some) :
    ∃ m, arrayToSet f dbl (.cont n .array ks) = some (some m) ∧ ∀ x, mapHasKey f m x = some (decide (x ∈ ts)) := by
  obtain ⟨m, hw, hr⟩ := walkKids_items hf dbl ks ts ht [] mapNew rfl
  refine ⟨m, ?_, fun x => ?_⟩
  · have : walk (some visitError) (some visitArray) (some (visitItem f dbl)) (some mapNew) (.cont n .array ks) = (some m, true) := by
      rw [walk]; simp [callVisitor, visitArray, runImpl_new_size, hw]
    simp only [arrayToSet, this]
  · obtain ⟨s1, s2, xs, e1, _, h1, _⟩ := C09_set_is_a_set f hf ((ts.map SetSpec.Op.add).reverse ++ []) [] id (by simp [heq])
    rw [hr] at e1
    cases e1
    rw [h1 x, ← List.map_reverse, mem_adds]
    simp only [SetSpec.mem, Bool.or_false, heq]
    congr 1
    rw [Bool.eq_iff_iff]
    simp

/-- An array that is not made of such items only: what the walk needs to stop. -/
theorem walkKids_bad {f : Fns Bytes} (hf : Lawful f) (dbl : Bytes → Bytes) : ∀ (pre : List Elem) (ts : List Bytes) (k : Elem) (post : List Elem),
    pre.map (itemText dbl) = ts.map some → (∀ h m, SetSpec.runImpl f h = some m → (ts = [] → h = []) →
      (∃ m', walk (some visitError) (some visitArray) (some (visitItem f dbl)) (some m) k = (some m', false))) →
    ∃ m', walkKids (some visitError) (some visitArray) (some (visitItem f dbl)) (some mapNew) (pre ++ k :: post) = (some m', false) := by
  intro pre ts k post ht hk
  have split : ∀ (pre : List Elem) (s s' : Option (Map Bytes Bytes)), walkKids (some visitError) (some visitArray) (some (visitItem f dbl)) s pre = (s', true) →
      walkKids (some visitError) (some visitArray) (some (visitItem f dbl)) s (pre ++ k :: post) =
        walkKids (some visitError) (some visitArray) (some (visitItem f dbl)) s' (k :: post) := by
    intro pre
    induction pre with
    | nil => intro s s' h; rw [walkKids] at h; cases h; rfl
    | cons p pre ih =>
      intro s s' h
      rw [walkKids] at h
      rw [List.cons_append, walkKids]
      split at h
      · next hp => rw [if_pos hp]; exact ih _ _ h
      · cases h
  obtain ⟨m, hw, hr⟩ := walkKids_items hf dbl pre ts ht [] mapNew rfl
  obtain ⟨m', hm'⟩ := hk _ m hr (by rintro rfl; rfl)
  refine ⟨m', ?_⟩
  rw [split pre _ _ hw, walkKids, hm']
  simp

/-- C121: an array with a null or an object among its items, after items that have texts, gives no set; so does one with an array behind
at least one item; and what is no array gives none. (An array as the very first item is accepted: see below.) -/
theorem C121_other_arrays_partial (f : Fns Bytes) (hf : Lawful f) (heq : ∀ a b, f.eq a b = decide (a = b)) (dbl : Bytes → Bytes) (n : Option Bytes)
    (pre : List Elem) (ts : List Bytes) (ht : pre.map (itemText dbl) = ts.map some) (k : Elem) (post : List Elem)
    (hk : (∃ m v, k = .prim m .null v) ∨ (∃ m l, k = .cont m .object l) ∨ (ts ≠ [] ∧ ∃ m l, k = .cont m .array l)) :
    arrayToSet f dbl (.cont n .array (pre ++ k :: post)) = some none := by
  have hbad : ∃ m', walkKids (some visitError) (some visitArray) (some (visitItem f dbl)) (some mapNew) (pre ++ k :: post) = (some m', false) := by
    rcases hk with ⟨m, v, rfl⟩ | ⟨m, l, rfl⟩ | ⟨hne, m, l, rfl⟩
    · exact walkKids_bad hf dbl pre ts _ post ht (fun h s _ _ => ⟨s, by simp [walk, callVisitor, visitItem, primToString]⟩)
    · exact walkKids_bad hf dbl pre ts _ post ht (fun h s _ _ => ⟨s, by rw [walk]; simp [callVisitor, visitError]⟩)
    · obtain ⟨s, hw, hr⟩ := walkKids_items hf dbl pre ts ht [] mapNew rfl
      have hsz : ∃ n, mapSize s = some (n + 1) := by
        obtain ⟨s1, s2, xs, e1, _, _, _, _, h5, _, h7, _⟩ := C09_set_is_a_set f hf ((ts.map SetSpec.Op.add).reverse ++ []) [] id (by simp [heq])
        rw [hr] at e1
        cases e1
        cases ts with
        | nil => exact absurd rfl hne
        | cons t ts =>
          have := (h7 t).1 (by
            rw [← List.map_reverse, mem_adds]; simp [heq])
          obtain ⟨y, hy, _⟩ := this
          cases xs with
          | nil => simp at hy
          | cons x xs => exact ⟨xs.length, h5⟩
      obtain ⟨q, hq⟩ := hsz
      have split : ∀ (pre : List Elem) (s s' : Option (Map Bytes Bytes)), walkKids (some visitError) (some visitArray) (some (visitItem f dbl)) s pre = (s', true) →
          walkKids (some visitError) (some visitArray) (some (visitItem f dbl)) s (pre ++ .cont m .array l :: post) =
            walkKids (some visitError) (some visitArray) (some (visitItem f dbl)) s' (.cont m .array l :: post) := by
        intro pre
        induction pre with
        | nil => intro s s' h; rw [walkKids] at h; cases h; rfl
        | cons p pre ih =>
          intro s s' h
          rw [walkKids] at h
          rw [List.cons_append, walkKids]
          split at h
          · next hp => rw [if_pos hp]; exact ih _ _ h
          · cases h
      refine ⟨s, ?_⟩
      rw [split pre _ _ hw, walkKids, walk]
      simp [callVisitor, visitArray, hq]
  obtain ⟨m', hm'⟩ := hbad
  have : walk (some visitError) (some visitArray) (some (visitItem f dbl)) (some mapNew) (.cont n .array (pre ++ k :: post)) = (some m', false) := by
    rw [walk]; simp [callVisitor, visitArray, runImpl_new_size, hm']
  simp only [arrayToSet, this]

theorem C121_not_an_array (f : Fns Bytes) (dbl : Bytes → Bytes) (e : Elem) (h : ∀ n l, e ≠ .cont n .array l) : arrayToSet f dbl e = some none := by
  cases e with
  | prim => rfl
  | cont n t l => cases t with
    | array => exact absurd rfl (h n l)
    | object => rfl

/-- C121: for every history of a string set, the JSON array made from it has each member exactly once, as a string; the set made from
that array has the same members. -/
theorem C121_round_trip (f : Fns Bytes) (hf : Lawful f) (heq : ∀ a b, f.eq a b = decide (a = b)) (dbl : Bytes → Bytes) (h : List (SetSpec.Op Bytes)) :
    ∃ (s : Map Bytes Bytes) (xs : List Bytes), SetSpec.runImpl f h = some s ∧ setToJson s = some (.cont none .array (xs.map fun x => .prim none .string x)) ∧ xs.Nodup ∧
      (∀ x, x ∈ xs ↔ SetSpec.mem f.eq h x = true) ∧
      ∃ s', arrayToSet f dbl (.cont none .array (xs.map fun x => .prim none .string x)) = some (some s') ∧
        (∀ x, mapHasKey f s' x = mapHasKey f s x) ∧ setIsEqual f s s' = some true := by
  obtain ⟨s, s2, xs, e1, _, h1, _, h3, h4, h5, h6, _⟩ := C09_set_is_a_set f hf h [] id (by simp [heq])
  have hx : ∀ x, x ∈ xs ↔ SetSpec.mem f.eq h x = true := by
    intro x
    rw [h6 x]
    simp [heq]
  have ht : (xs.map fun x => Elem.prim none .string x).map (itemText dbl) = xs.map some := by simp [itemText]
  obtain ⟨s', hs', hk⟩ := C121_array_to_set f hf heq dbl none _ xs ht
  refine ⟨s, xs, e1, by simp [setToJson, h3, stringCreate], ?_, hx, s', hs', fun x => ?_, ?_⟩
  · exact h5.imp (fun {a b} hab => by rw [heq] at hab; simpa using hab)
  · rw [hk x, h1 x]
    congr 1
    rw [Bool.eq_iff_iff, decide_eq_true_eq]
    exact hx x
  · obtain ⟨m, hw, hr⟩ := walkKids_items hf dbl _ xs ht [] mapNew rfl
    have hm : s' = m := by
      have : walk (some visitError) (some visitArray) (some (visitItem f dbl)) (some mapNew) (.cont none .array (xs.map fun x => .prim none .string x)) = (some m, true) := by
        rw [walk]; simp [callVisitor, visitArray, runImpl_new_size, hw]
      simp only [arrayToSet, this] at hs'
      cases hs'; rfl
    subst hm
    obtain ⟨t1, t2, ys, f1, f2, _, _, _, _, _, _, ⟨b, hb, hb2⟩, _⟩ := C09_set_is_a_set f hf h ((xs.map SetSpec.Op.add).reverse ++ []) id (by simp [heq])
    rw [e1] at f1
    rw [hr] at f2
    cases f1; cases f2
    rw [hb]
    congr 1
    rw [hb2]
    intro x
    rw [← List.map_reverse, mem_adds, Bool.eq_iff_iff, ← hx x]
    simp [heq, SetSpec.mem]

/-- String equality with a constant hash meets the hypotheses. -/
def sampleFns : Fns Bytes := { eq := fun a b => decide (a = b), hash := fun _ => 0 }

example : (arrayToSet sampleFns id (.cont none .array [stringCreate [97], boolCreate true, stringCreate [97]])).bind
    (fun o => o.bind setElements) = some [[97], litTrue] := by decide +kernel

/-- Finding (acknowledged in set.c:206-209): an array nested as the first item is accepted, and its items are taken for items of the outer one. -/
theorem C121_nested_array_negated :
    ¬ ∀ (n : Option Bytes) (ks : List Elem), (∃ m l, Elem.cont m .array l ∈ ks) → arrayToSet sampleFns id (.cont n .array ks) = some none := by
  intro h
  have := h none [.cont none .array [stringCreate [97]], stringCreate [98]] ⟨none, [stringCreate [97]], by simp⟩
  cases this

end SetJson
