import Verif.Props.SetJson
/-! # C121 for every JSON element -/
namespace SetJson
open CMap Json MapSpec

mutual
/-- What can be read from an element when `seen` says that some item has been read before it: `none` means that an integer outside `long`
ends the program, `some none` that the array is refused, `some (some ts)` that the texts `ts` are taken. Arrays are opened as long as no
item has been read. -/
def readElem (dbl : Bytes → Bytes) (seen : Bool) : Elem → Option (Option (List Bytes))
  | .prim n ty v => match itemText dbl (.prim n ty v) with
    | some t => some (some [t])
    | none => if ty = .integer then none else some none
  | .cont _ .object _ => some none
  | .cont _ .array l => if seen then some none else readKids dbl false l
/-- The same for elements in a row, up to the first that is refused. -/
def readKids (dbl : Bytes → Bytes) (seen : Bool) : List Elem → Option (Option (List Bytes))
  | [] => some (some [])
  | k :: ks => match readElem dbl seen k with
    | none => none
    | some none => some none
    | some (some ts) => match readKids dbl (seen || !ts.isEmpty) ks with
      | none => none
      | some none => some none
      | some (some us) => some (some (ts ++ us))
end

/-- What the walk gives for what can be read. -/
def Gives (f : Fns Bytes) (hs : List Bytes) (r : Option (Map Bytes Bytes) × Bool) : Option (Option (List Bytes)) → Prop
  | none => r = (none, false)
  | some none => ∃ m, r = (some m, false)
  | some (some ts) => ∃ m, r = (some m, true) ∧ SetSpec.runImpl f ((hs ++ ts).map SetSpec.Op.add).reverse = some m

theorem size_adds {f : Fns Bytes} (hf : Lawful f) (heq : ∀ a b, f.eq a b = decide (a = b)) (hs : List Bytes) (m : Map Bytes Bytes)
    (h : SetSpec.runImpl f (hs.map SetSpec.Op.add).reverse = some m) : ∃ q, mapSize m = some q ∧ (q == 0) = hs.isEmpty := by
  obtain ⟨s1, s2, xs, e1, _, _, _, _, h5, _, h7, _⟩ := C09_set_is_a_set f hf (hs.map SetSpec.Op.add).reverse [] id (by simp [heq])
  rw [h] at e1
  cases e1
  refine ⟨_, h5, ?_⟩
  have key : ∀ x, SetSpec.mem f.eq (hs.map SetSpec.Op.add).reverse x = true ↔ x ∈ hs := by
    intro x
    rw [← List.map_reverse, ← List.append_nil (List.map _ _), mem_adds]
    simp [heq, SetSpec.mem]
  cases hs with
  | nil =>
    cases xs with
    | nil => rfl
    | cons x xs => exact absurd ((key x).1 ((h7 x).2 ⟨x, by simp, by simp [heq]⟩)) (by simp)
  | cons t ts =>
    obtain ⟨y, hy, _⟩ := (h7 t).1 ((key t).2 (by simp))
    cases xs with
    | nil => simp at hy
    | cons x xs => rfl

theorem add_step {f : Fns Bytes} (hf : Lawful f) (hs : List Bytes) (m : Map Bytes Bytes) (t : Bytes)
    (h : SetSpec.runImpl f (hs.map SetSpec.Op.add).reverse = some m) :
    ∃ m' d, setAdd f m t = some (m', d) ∧ SetSpec.runImpl f ((hs ++ [t]).map SetSpec.Op.add).reverse = some m' := by
  obtain ⟨s1, _, _, e1, _⟩ := set_run_spec hf (.add t :: (hs.map SetSpec.Op.add).reverse)
  have e2 := e1
  rw [SetSpec.runImpl, h] at e1
  simp only [Option.bind_eq_bind, Option.bind_some] at e1
  cases ha : setAdd f m t with
  | none => rw [ha] at e1; simp at e1
  | some r =>
    rw [ha] at e1; simp at e1
    exact ⟨r.1, r.2, rfl, by rw [e1]; simpa using e2⟩

mutual
theorem walk_gives {f : Fns Bytes} (hf : Lawful f) (heq : ∀ a b, f.eq a b = decide (a = b)) (dbl : Bytes → Bytes) : ∀ (e : Elem) (hs : List Bytes)
    (m : Map Bytes Bytes), SetSpec.runImpl f (hs.map SetSpec.Op.add).reverse = some m →
    Gives f hs (walk (some visitError) (some visitArray) (some (visitItem f dbl)) (some m) e) (readElem dbl (!hs.isEmpty) e)
  | .prim n ty v, hs, m, h => by
    rw [walk, callVisitor, readElem, visitItem]
    cases ht : itemText dbl (.prim n ty v) with
    | some t =>
      obtain ⟨m', d, ha, hr⟩ := add_step hf hs m t h
      simp only [primToString_of_text ht, ha]
      exact ⟨m', rfl, hr⟩
    | none =>
      cases ty with
      | integer =>
        simp only [itemText, Option.map_eq_none_iff] at ht
        simp [primToString, ht, Gives]
      | null => simp [primToString, Gives]
      | bool => simp [itemText] at ht
      | real => simp [itemText] at ht
      | string => simp [itemText] at ht
  | .cont n .object l, hs, m, h => by
    rw [walk, readElem]
    simp [callVisitor, visitError, Gives]
  | .cont n .array l, hs, m, h => by
    obtain ⟨q, hq, hz⟩ := size_adds hf heq hs m h
    rw [walk, readElem]
    simp only [if_true, callVisitor, visitArray, hq, hz]
    cases hs with
    | nil => simpa using walkKids_gives hf heq dbl l [] m h
    | cons t ts => simp [Gives]
theorem walkKids_gives {f : Fns Bytes} (hf : Lawful f) (heq : ∀ a b, f.eq a b = decide (a = b)) (dbl : Bytes → Bytes) : ∀ (l : List Elem) (hs : List Bytes)
    (m : Map Bytes Bytes), SetSpec.runImpl f (hs.map SetSpec.Op.add).reverse = some m →
    Gives f hs (walkKids (some visitError) (some visitArray) (some (visitItem f dbl)) (some m) l) (readKids dbl (!hs.isEmpty) l)
  | [], hs, m, h => by
    rw [walkKids, readKids]
    exact ⟨m, rfl, by simpa using h⟩
  | k :: ks, hs, m, h => by
    have hk := walk_gives hf heq dbl k hs m h
    rw [walkKids, readKids]
    revert hk
    cases hr : readElem dbl (!hs.isEmpty) k with
    | none => intro hk; simp only [Gives] at hk ⊢; simp [hk]
    | some o =>
      cases o with
      | none => rintro ⟨m', hk⟩; exact ⟨m', by simp [hk]⟩
      | some ts =>
        rintro ⟨m', hk, hm⟩
        have hrest := walkKids_gives hf heq dbl ks (hs ++ ts) m' hm
        have hseen : (!(hs ++ ts).isEmpty) = (!hs.isEmpty || !ts.isEmpty) := by
          cases hs <;> cases ts <;> rfl
        rw [hseen] at hrest
        simp only [hk, if_true]
        revert hrest
        cases readKids dbl (!hs.isEmpty || !ts.isEmpty) ks with
        | none => exact id
        | some o =>
          cases o with
          | none => exact id
          | some us => rintro ⟨m2, h1, h2⟩; exact ⟨m2, h1, by rw [← List.append_assoc]; exact h2⟩
end

/-- C121, for every JSON element: what is no array gives no set; an array gives the set of exactly the texts read from it, none if it is
refused, and an integer outside `long` (and nothing else) ends the program. -/
theorem C121_every_element (f : Fns Bytes) (hf : Lawful f) (heq : ∀ a b, f.eq a b = decide (a = b)) (dbl : Bytes → Bytes) :
    (∀ e, (∀ n l, e ≠ .cont n .array l) → arrayToSet f dbl e = some none) ∧
    ∀ n l, match readKids dbl false l with
      | none => arrayToSet f dbl (.cont n .array l) = none
      | some none => arrayToSet f dbl (.cont n .array l) = some none
      | some (some ts) => ∃ m, arrayToSet f dbl (.cont n .array l) = some (some m) ∧ ∀ x, mapHasKey f m x = some (decide (x ∈ ts)) := by
  refine ⟨C121_not_an_array f dbl, fun n l => ?_⟩
  have hw : walk (some visitError) (some visitArray) (some (visitItem f dbl)) (some mapNew) (.cont n .array l) =
      walkKids (some visitError) (some visitArray) (some (visitItem f dbl)) (some mapNew) l := by
    rw [walk]; simp [callVisitor, visitArray, runImpl_new_size]
  have h := walkKids_gives hf heq dbl l [] mapNew rfl
  simp only [List.isEmpty_nil, Bool.not_true] at h
  simp only [arrayToSet, hw]
  revert h
  cases readKids dbl false l with
  | none => intro h; simp only [Gives] at h; simp [h]
  | some o =>
    cases o with
    | none => rintro ⟨m, h⟩; simp [h]
    | some ts =>
      rintro ⟨m, h, hr⟩
      refine ⟨m, by simp [h], fun x => ?_⟩
      obtain ⟨s1, s2, xs, e1, _, h1, _⟩ := C09_set_is_a_set f hf (([] ++ ts).map SetSpec.Op.add).reverse [] id (by simp [heq])
      rw [hr] at e1
      cases e1
      rw [h1 x, List.nil_append, ← List.map_reverse, ← List.append_nil (List.map _ _), mem_adds]
      simp only [SetSpec.mem, Bool.or_false, heq]
      congr 1
      rw [Bool.eq_iff_iff]
      simp

/-- C121: an array without containers in it is read exactly if every item has a text, as those texts. -/
theorem C121_flat_arrays (dbl : Bytes → Bytes) (l : List Elem) (hflat : ∀ e ∈ l, ∀ n k, e ≠ .cont n .array k) :
    ∀ seen ts, readKids dbl seen l = some (some ts) ↔ l.map (itemText dbl) = ts.map some := by
  induction l with
  | nil => intro seen ts; cases ts <;> simp [readKids]
  | cons k l ih =>
    intro seen ts
    have hih := ih (fun e he => hflat e (by simp [he]))
    rw [readKids]
    cases k with
    | cont n ty q =>
      cases ty with
      | array => exact absurd rfl (hflat _ (by simp) n q)
      | object => cases ts <;> simp [readElem, itemText]
    | prim n ty v =>
      rw [readElem]
      cases ht : itemText dbl (.prim n ty v) with
      | none =>
        by_cases hi : ty = .integer
        · subst hi; cases ts <;> simp [ht]
        · cases ts <;> simp [hi, ht]
      | some t =>
        simp only []
        have := hih (seen || !([t] : List Bytes).isEmpty)
        cases ts with
        | nil =>
          simp only [List.map_nil, List.map_cons, reduceCtorEq, iff_false]
          split <;> simp
        | cons u us =>
          simp only [List.map_cons, ht, List.cons.injEq, Option.some.injEq]
          rw [← this us]
          cases readKids dbl (seen || !([t] : List Bytes).isEmpty) l with
          | none => simp
          | some o => cases o <;> simp

/-- The array of the finding, and one behind an item. -/
example : readKids id false [.cont none .array [stringCreate [97]], stringCreate [98]] = some (some [[97], [98]]) := by decide +kernel
example : readKids id false [stringCreate [98], .cont none .array [stringCreate [97]]] = some none := by decide +kernel
example : readKids id false [.cont none .array [], .cont none .array [.cont none .array []], .cont none .array [stringCreate [97]], stringCreate [98]] =
  some (some [[97], [98]]) := by decide +kernel
example : Lawful sampleFns ∧ ∀ a b, sampleFns.eq a b = decide (a = b) := by
  refine ⟨⟨fun a => by simp [sampleFns], fun a b h => by simp_all [sampleFns], fun a b c h1 h2 => by simp_all [sampleFns], fun _ _ _ => by simp [sampleFns]⟩, fun a b => by simp [sampleFns]⟩

end SetJson
