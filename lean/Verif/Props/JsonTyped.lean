import Verif.Model.JsonTyped
import Verif.Spec.JsonTyped
import Verif.Props.JsonApi
/-! # Property C146: typed members of objects and arrays -/
open JsonSpec Json JsonTypedSpec

namespace Json

/-- A call on an object. -/
inductive TOp where
  | append (k : Bytes) (v : TVal)
  | remove (k : Bytes)

/-- The calls on the children of an object. -/
def tRun : List Elem → List TOp → Option (List Elem)
  | ks, [] => some ks
  | ks, .append k v :: rest => (objAppend ks k v).bind fun ks => tRun ks rest
  | ks, .remove k :: rest => tRun (removeKey ks k).1 rest

/-- The member a value stands for. -/
def TVal.member : TVal → Option Member
  | .string s => some (.string s)
  | .int v => some (.other (NumSpec.decimalInt v))
  | .int64 v => some (.other (NumSpec.decimalInt v))
  | .bool b => some (.bool b)
  | .real (some (neg, n)) => some (.other ((fixed4 neg n).take 31))
  | .real none => some (.other ((fixed4 false 0).take 31))
  | .null => some (.other [110, 117, 108, 108])
  | .array (.cont _ .array ks) => some (.array ks)
  | .object (.cont _ .object ks) => some (.object ks)
  | _ => none

/-- The calls on a record; `none` when a value is not of the kind its function takes. -/
def specRun : Record → List TOp → Option Record
  | r, [] => some r
  | r, .append k v :: rest =>
    match v.member with
    | none => none
    | some m => specRun (r.put k (some m)) rest
  | r, .remove k :: rest => specRun (r.put k none) rest

/-- An element stands for a member. -/
def Stands (k : Bytes) : Option Elem → Option Member → Prop
  | none, none => True
  | some e, some (.string s) => e = .prim (some k) .string s
  | some e, some (.other t) => ∃ p, p ≠ .string ∧ p ≠ .bool ∧ e = .prim (some k) p t
  | some e, some (.bool b) => e = .prim (some k) .bool (if b then litTrue else litFalse)
  | some e, some (.array ks) => e = .cont (some k) .array ks
  | some e, some (.object ks) => e = .cont (some k) .object ks
  | _, _ => False

theorem element_stands (k : Bytes) (v : TVal) :
    (v.element = none ∧ v.member = none) ∨ ∃ e m, v.element = some e ∧ v.member = some m ∧ Stands k (some (e.setName (some k))) (some m) := by
  cases v with
  | string s => exact Or.inr ⟨_, _, rfl, rfl, rfl⟩
  | int x => exact Or.inr ⟨_, _, rfl, rfl, .integer, by decide, by decide, by simp [integerCreate, Elem.setName, intText_eq]⟩
  | int64 x => exact Or.inr ⟨_, _, rfl, rfl, .integer, by decide, by decide, by simp [integerCreate64, Elem.setName, intText_eq]⟩
  | bool b => exact Or.inr ⟨_, _, rfl, rfl, rfl⟩
  | real x =>
    cases x with
    | none => exact Or.inr ⟨_, _, rfl, rfl, .real, by decide, by decide, rfl⟩
    | some p => exact Or.inr ⟨_, _, rfl, rfl, .real, by decide, by decide, rfl⟩
  | null => exact Or.inr ⟨_, _, rfl, rfl, .null, by decide, by decide, rfl⟩
  | array e =>
    cases e with
    | prim n t x => exact Or.inl ⟨rfl, rfl⟩
    | cont n t ks =>
      cases t with
      | array => exact Or.inr ⟨_, _, rfl, rfl, rfl⟩
      | object => exact Or.inl ⟨rfl, rfl⟩
  | object e =>
    cases e with
    | prim n t x => exact Or.inl ⟨rfl, rfl⟩
    | cont n t ks =>
      cases t with
      | array => exact Or.inl ⟨rfl, rfl⟩
      | object => exact Or.inr ⟨_, _, rfl, rfl, rfl⟩

theorem tRun_ok : ∀ (ops : List TOp) (kids : List Elem) (r : Record), (keys kids).Nodup → none ∉ keys kids →
    (∀ k, Stands k (toMap kids k) (r k)) →
    match specRun r ops with
    | none => tRun kids ops = none
    | some r' => ∃ kids', tRun kids ops = some kids' ∧ (keys kids').Nodup ∧ none ∉ keys kids' ∧ ∀ k, Stands k (toMap kids' k) (r' k) := by
  intro ops
  induction ops with
  | nil => intro kids r h1 h2 h3; exact ⟨kids, rfl, h1, h2, h3⟩
  | cons o ops ih =>
    intro kids r h1 h2 h3
    cases o with
    | append k v =>
      rcases element_stands k v with ⟨e1, e2⟩ | ⟨e, m, e1, e2, e3⟩
      · simp [specRun, e2, tRun, objAppend, e1]
      · obtain ⟨k1, f1, f2, f3, f4⟩ := Op.step kids (.append k e) h1 h2
        simp only [Op.onObject, Option.some.injEq, Prod.mk.injEq] at f1
        obtain ⟨rfl, -⟩ := f1
        simp only [specRun, e2, tRun, objAppend, e1, Option.map_some, Option.bind_some]
        refine ih _ _ f3 f4 ?_
        intro k'
        rw [f2]
        simp only [Op.onMap, Map.set, Record.put]
        by_cases hk : k' = k
        · subst hk; simpa using e3
        · simpa [hk] using h3 k'
    | remove k =>
      obtain ⟨k1, f1, f2, f3, f4⟩ := Op.step kids (.remove k) h1 h2
      simp only [Op.onObject, Option.some.injEq, Prod.mk.injEq] at f1
      obtain ⟨rfl, -⟩ := f1
      simp only [specRun, tRun]
      refine ih _ _ f3 f4 ?_
      intro k'
      rw [f2]
      simp only [Op.onMap, Map.set, Record.put]
      by_cases hk : k' = k
      · subst hk; simp [Stands]
      · simpa [hk] using h3 k'

/-- The children a container has. -/
def childrenOf : Elem → List Elem
  | .cont _ _ ks => ks
  | .prim .. => []

theorem getters_ok (k : Bytes) (kids : List Elem) (hnone : none ∉ keys kids) (m : Option Member) (h : Stands k (toMap kids k) m) :
    objGetString kids k = asText m ∧ objGetBool kids k = asBool m ∧
    (objGetObject kids k).map (Option.map childrenOf) = asObject m ∧ (objGetArray kids k).map (Option.map childrenOf) = asArray m := by
  have hl : lookup k kids = some (toMap kids k) := lookup_get (fun n hn e => hnone (e ▸ hn)) ..
  simp only [objGetString, objGetBool, objGetObject, objGetArray, Json.get, hl, Option.bind_some]
  generalize toMap kids k = e at h
  cases e with
  | none =>
    cases m with
    | none => exact ⟨rfl, rfl, rfl, rfl⟩
    | some m => cases m <;> exact h.elim
  | some e =>
    cases m with
    | none => exact h.elim
    | some m =>
      cases m with
      | string s => cases h; exact ⟨rfl, rfl, rfl, rfl⟩
      | other t =>
        obtain ⟨p, h1, h2, rfl⟩ := h
        refine ⟨rfl, ?_, rfl, rfl⟩
        cases p <;> first | rfl | exact absurd rfl h2
      | bool b => cases h; cases b <;> exact ⟨rfl, rfl, rfl, rfl⟩
      | array ks => cases h; exact ⟨rfl, rfl, rfl, rfl⟩
      | object ks => cases h; exact ⟨rfl, rfl, rfl, rfl⟩
end Json

/-- C146. For every history of typed appends and removals on a new object: the history is refused exactly when a container is appended through the function
for the other kind; otherwise every typed getter gives what was last stored under the key (its text, its truth value, its children), NULL or
false when there is nothing, and is refused exactly when the member is of another kind. -/
theorem C146_typed_members (ops : List TOp) :
    match specRun (fun _ => none) ops with
    | none => tRun [] ops = none
    | some r => ∃ kids, tRun [] ops = some kids ∧ ∀ k,
        objGetString kids k = asText (r k) ∧ objGetBool kids k = asBool (r k) ∧
        (objGetObject kids k).map (Option.map childrenOf) = asObject (r k) ∧
        (objGetArray kids k).map (Option.map childrenOf) = asArray (r k) := by
  have h := tRun_ok ops [] (fun _ => none) List.nodup_nil (by simp [keys]) (fun k => trivial)
  cases hs : specRun (fun _ => none) ops with
  | none => rw [hs] at h; exact h
  | some r =>
    rw [hs] at h
    obtain ⟨kids, h1, h2, h3, h4⟩ := h
    exact ⟨kids, h1, fun k => getters_ok k kids h3 _ (h4 k)⟩

example : ∃ r, specRun (fun _ => none) [.append [97] (.int64 (-5)), .append [98] (.bool true), .append [97] (.string [120]), .append [99] (.array arrayCreate), .remove [98]] = some r ∧
    asText (r [97]) = some (some [120]) ∧ asBool (r [98]) = some false ∧ asArray (r [99]) = some (some []) := ⟨_, rfl, rfl, rfl, rfl⟩

/-- C146. Arrays: after appending the values, position `i` holds the i-th; the typed getters give a string's text and an object's children, and are refused for anything else and out of range. -/
theorem C146_typed_items (vs : List TVal) (es : List Elem) (hes : vs.map TVal.element = es.map some) :
    vs.foldl (fun a v => a.bind fun a => arrAppendTyped a v) (some []) = some es ∧
    (∀ i s, vs[i]? = some (.string s) → arrGetString es i = some (some s)) ∧
    (∀ i n ks, vs[i]? = some (.object (.cont n .object ks)) → (arrGetObject es i).map (Option.map childrenOf) = some (some ks)) ∧
    (∀ i, (∀ s, vs[i]? ≠ some (.string s)) → arrGetString es i = none) ∧
    (∀ i, (∀ e, vs[i]? ≠ some (.object e)) → arrGetObject es i = none) := by
  have hget : ∀ i : Nat, (vs[i]?).map TVal.element = (es[i]?).map some := by
    intro i
    have := congrArg (fun l => l[i]?) hes
    simpa using this
  have hfold : ∀ (vs : List TVal) (es acc : List Elem), vs.map TVal.element = es.map some →
      vs.foldl (fun a v => a.bind fun a => arrAppendTyped a v) (some acc) = some (acc ++ es) := by
    intro vs
    induction vs with
    | nil => intro es acc h; cases es <;> simp at h ⊢
    | cons v vs ih =>
      intro es acc h
      cases es with
      | nil => simp at h
      | cons e es =>
        simp only [List.map_cons, List.cons.injEq] at h
        have ha : arrAppendTyped acc v = some (acc ++ [e]) := by simp [arrAppendTyped, h.1]
        rw [List.foldl_cons, Option.bind_some, ha]
        rw [ih es (acc ++ [e]) h.2]; simp
  refine ⟨by simpa using hfold vs es [] hes, ?_, ?_, ?_, ?_⟩
  · intro i s h
    have := hget i
    rw [h] at this
    cases he : es[i]? with
    | none => rw [he] at this; simp at this
    | some e =>
      rw [he] at this
      simp only [Option.map_some, TVal.element, Option.some.injEq] at this
      simp [arrGetString, he, ← this, stringCreate]
  · intro i n ks h
    have := hget i
    rw [h] at this
    cases he : es[i]? with
    | none => rw [he] at this; simp at this
    | some e =>
      rw [he] at this
      simp only [Option.map_some, TVal.element, Option.some.injEq] at this
      simp [arrGetObject, he, ← this, childOf, childrenOf]
  · intro i h
    have := hget i
    cases he : es[i]? with
    | none => simp [arrGetString, he]
    | some e =>
      rw [he] at this
      cases hv : vs[i]? with
      | none => rw [hv] at this; simp at this
      | some v =>
        rw [hv] at this
        simp only [Option.map_some, Option.some.injEq] at this
        simp only [arrGetString, he, Option.bind_some]
        rcases Json.element_stands [] v with ⟨e1, -⟩ | ⟨e', m, e1, e2, e3⟩
        · rw [e1] at this; cases this
        · rw [e1] at this; cases this
          cases e with
          | cont => rfl
          | prim n t x =>
            cases t with
            | string =>
              exfalso
              cases v with
              | string s => exact h s hv
              | bool b => simp [TVal.element, boolCreate] at e1
              | int b => simp [TVal.element, integerCreate] at e1
              | int64 b => simp [TVal.element, integerCreate64] at e1
              | null => simp [TVal.element, nullCreate] at e1
              | real b => simp [TVal.element, realCreate] at e1
              | array b => simp only [TVal.element] at e1; split at e1 <;> simp at e1
              | object b => simp only [TVal.element] at e1; split at e1 <;> simp at e1
            | _ => rfl
  · intro i h
    have := hget i
    cases he : es[i]? with
    | none => simp [arrGetObject, he]
    | some e =>
      rw [he] at this
      cases hv : vs[i]? with
      | none => rw [hv] at this; simp at this
      | some v =>
        rw [hv] at this
        simp only [Option.map_some, Option.some.injEq] at this
        simp only [arrGetObject, he, Option.bind_some]
        cases v with
        | object e => exact absurd hv (h e)
        | string s => simp [TVal.element, stringCreate] at this; subst this; rfl
        | bool b => simp [TVal.element, boolCreate] at this; subst this; rfl
        | int b => simp [TVal.element, integerCreate] at this; subst this; rfl
        | int64 b => simp [TVal.element, integerCreate64] at this; subst this; rfl
        | null => simp [TVal.element, nullCreate] at this; subst this; rfl
        | real b => simp [TVal.element, realCreate] at this; subst this; rfl
        | array b =>
          simp only [TVal.element] at this
          split at this
          · cases this; rfl
          · cases this

example : [TVal.string [97], .object objectCreate, .null].map TVal.element = [stringCreate [97], objectCreate, nullCreate].map some := rfl

/-- Finding: a null member read as a string is the text "null", not NULL. -/
theorem C146_null_as_string_negated : (tRun [] [.append [97] .null]).bind (fun kids => objGetString kids [97]) = some (some litNull) := by decide +kernel

/-- Finding: `JsonPrimitiveTypeToString` has no name for null. -/
theorem C146_null_has_no_type_name_negated : typeName .null = none ∧ ∀ t, t ≠ .null → (typeName t).isSome := by
  refine ⟨rfl, fun t h => ?_⟩
  cases t <;> first | rfl | exact absurd rfl h
