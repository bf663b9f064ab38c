import Verif.Spec.JsonWriteHeap
import Mathlib.Data.List.Nodup
/-! # Every member of an object has a name, and no two the same: kept by every call -/
namespace JsonWriteHeap
open Json JsonHeap JsonHeapSpec JsonWriteSpec

theorem regularAll_iff (ks : List Elem) : RegularAll ks ↔ ∀ k ∈ ks, Regular k := by
  induction ks with
  | nil => simp [RegularAll]
  | cons k ks ih => simp [RegularAll, ih]

/-- Children of an object. -/
def Members (ks : List Elem) : Prop := (∀ k ∈ ks, Regular k ∧ k.name ≠ none) ∧ (ks.map Elem.name).Nodup

theorem regular_array {n : Option Bytes} {ks : List Elem} : Regular (.cont n .array ks) ↔ ∀ k ∈ ks, Regular k := by simp only [Regular, regularAll_iff]
theorem regular_object {n : Option Bytes} {ks : List Elem} : Regular (.cont n .object ks) ↔ Members ks := by
  simp only [Regular, regularAll_iff, Members]
  exact ⟨fun h => ⟨fun k hk => ⟨h.1 k hk, h.2.1 k hk⟩, h.2.2⟩, fun h => ⟨fun k hk => (h.1 k hk).1, fun k hk => (h.1 k hk).2, h.2⟩⟩

theorem regular_setName (e : Elem) (n : Option Bytes) : Regular (e.setName n) ↔ Regular e := by
  cases e with
  | prim => rfl
  | cont m t ks => cases t <;> rfl

theorem setName_name (e : Elem) (n : Option Bytes) : (e.setName n).name = n := by cases e <;> rfl

theorem members_sublist {ks ks' : List Elem} (h : Members ks) (hs : ks'.Sublist ks) : Members ks' :=
  ⟨fun k hk => h.1 k (hs.subset hk), h.2.sublist (hs.map _)⟩

theorem removeKey_sublist (ks : List Elem) (k : Bytes) : (Json.removeKey ks k).1.Sublist ks := by
  simp only [Json.removeKey]
  split
  · exact List.eraseIdx_sublist ..
  · exact List.Sublist.refl _

theorem members_removeKey {ks : List Elem} (h : Members ks) (k : Bytes) : Members (Json.removeKey ks k).1 := members_sublist h (removeKey_sublist ks k)

theorem map_erase {α β : Type} (f : α → β) : ∀ (l : List α) (i : Nat), (l.eraseIdx i).map f = (l.map f).eraseIdx i
  | [], _ => rfl
  | _ :: _, 0 => rfl
  | x :: xs, i + 1 => by simp only [List.eraseIdx_cons_succ, List.map_cons, map_erase f xs i]

theorem removeKey_notMem {ks : List Elem} (h : Members ks) (k : Bytes) : some k ∉ (Json.removeKey ks k).1.map Elem.name := by
  simp only [Json.removeKey, Json.indexOf]
  split
  · rename_i i hi
    rw [List.findIdx?_eq_some_iff_getElem] at hi
    obtain ⟨hl, hk, _⟩ := hi
    have hk' : ks[i].name = some k := by simpa using hk
    intro hm
    have hn := h.2
    have he : (ks.eraseIdx i).map Elem.name = (ks.map Elem.name).eraseIdx i := map_erase _ _ _
    rw [he, List.mem_eraseIdx_iff_getElem] at hm
    obtain ⟨j, hj, hne, hjk⟩ := hm
    have : j = i := (List.Nodup.getElem_inj_iff hn (hi := hj) (hj := by simpa using hl)).mp (by simp only [hjk, List.getElem_map, hk'])
    exact hne this
  · rename_i hi
    rw [List.findIdx?_eq_none_iff] at hi
    intro hm
    obtain ⟨x, hx, he⟩ := List.mem_map.mp hm
    have := hi x hx
    simp [he] at this

theorem members_appendElement {ks : List Elem} (h : Members ks) (k : Bytes) {e : Elem} (he : Regular e) : Members (appendElement ks k e) := by
  have hr := members_removeKey h k
  refine ⟨fun x hx => ?_, ?_⟩
  · simp only [appendElement, List.mem_append, List.mem_singleton] at hx
    rcases hx with hx | rfl
    · exact hr.1 x hx
    · exact ⟨(regular_setName _ _).mpr he, by simp [setName_name]⟩
  · simp only [appendElement, List.map_append, List.map_cons, List.map_nil, setName_name]
    rw [List.nodup_append]
    refine ⟨hr.2, by simp, ?_⟩
    intro a ha b hb hab
    simp only [List.mem_singleton] at hb
    subst hb
    subst hab
    exact removeKey_notMem h k ha

theorem members_nil : Members [] := by simp [Members]

theorem regular_primCopy {rt : RealText} {t : PType} {v : Bytes} {e : Elem} (h : primCopy rt t v = some e) : Regular e := by
  cases t <;> simp only [primCopy, Option.some.injEq, Option.map_eq_some_iff] at h
  all_goals first | (obtain ⟨_, _, rfl⟩ := h; trivial) | (subst h; trivial)

mutual
theorem regular_copy (rt : RealText) : (e : Elem) → ∀ e', Json.copy rt e = some e' → Regular e'
  | .prim _ t v, e', h => by simp only [Json.copy] at h; exact regular_primCopy h
  | .cont _ .array ks, e', h => by
    simp only [Json.copy, Option.map_eq_some_iff] at h
    obtain ⟨r, hr, rfl⟩ := h
    exact regular_array.mpr ((regular_copies rt ks [] r).1 hr (by simp))
  | .cont _ .object ks, e', h => by
    simp only [Json.copy, Option.map_eq_some_iff] at h
    obtain ⟨r, hr, rfl⟩ := h
    exact regular_object.mpr ((regular_copies rt ks [] r).2 hr members_nil)
theorem regular_copies (rt : RealText) : (es : List Elem) → ∀ acc r, (copyArray rt es acc = some r → (∀ k ∈ acc, Regular k) → ∀ k ∈ r, Regular k) ∧ (copyObject rt es acc = some r → Members acc → Members r)
  | [], acc, r => ⟨fun h ha => by simp only [copyArray, Option.some.injEq] at h; subst h; exact ha, fun h ha => by simp only [copyObject, Option.some.injEq] at h; subst h; exact ha⟩
  | e :: es, acc, r => by
    refine ⟨fun h ha => ?_, fun h ha => ?_⟩
    · simp only [copyArray, Option.bind_eq_some_iff] at h
      obtain ⟨x, hx, h⟩ := h
      refine (regular_copies rt es _ r).1 h ?_
      intro k hk
      rcases List.mem_append.mp hk with hk | hk
      · exact ha k hk
      · simp only [List.mem_singleton] at hk; subst hk; exact regular_copy rt e k hx
    · simp only [copyObject, Option.bind_eq_some_iff] at h
      obtain ⟨n, _, x, hx, h⟩ := h
      exact (regular_copies rt es _ r).2 h (members_appendElement ha n (regular_copy rt e x hx))
end

theorem members_mergeLoop (rt : RealText) : ∀ (es : List Elem) (i : Nat) (acc r : List Elem), Json.mergeArrayLoop rt i es acc = some r → Members acc → Members r := by
  intro es
  induction es with
  | nil => intro i acc r h ha; simp only [Json.mergeArrayLoop, Option.some.injEq] at h; subst h; exact ha
  | cons e es ih =>
    intro i acc r h ha
    simp only [Json.mergeArrayLoop, Option.bind_eq_some_iff] at h
    obtain ⟨x, hx, h⟩ := h
    exact ih _ _ r h (members_appendElement ha _ (regular_copy rt e x hx))

theorem regular_merge {rt : RealText} {a b r : Elem} (h : Json.merge rt a b = some r) : Regular r := by
  unfold Json.merge at h
  split at h
  · simp only [mergeArrays, Option.bind_eq_some_iff, Option.map_eq_some_iff] at h
    obtain ⟨x, hx, y, hy, rfl⟩ := h
    exact regular_array.mpr ((regular_copies rt _ _ _).1 hy ((regular_copies rt _ _ _).1 hx (by simp)))
  · simp only [Option.bind_eq_some_iff, Option.map_eq_some_iff] at h
    obtain ⟨x, hx, y, hy, rfl⟩ := h
    exact regular_object.mpr (members_mergeLoop rt _ _ _ _ hy ((regular_copies rt _ _ _).2 hx members_nil))
  · simp only [Option.bind_eq_some_iff, Option.map_eq_some_iff] at h
    obtain ⟨x, hx, y, hy, rfl⟩ := h
    exact regular_object.mpr (members_mergeLoop rt _ _ _ _ hy ((regular_copies rt _ _ _).2 hx members_nil))
  · simp only [Option.bind_eq_some_iff, Option.map_eq_some_iff] at h
    obtain ⟨x, hx, y, hy, rfl⟩ := h
    exact regular_object.mpr ((regular_copies rt _ _ _).2 hy ((regular_copies rt _ _ _).2 hx members_nil))
  · cases h

theorem regular_sub : ∀ (p : List Nat) (e e' : Elem), Regular e → sub e p = some e' → Regular e' := by
  intro p
  induction p with
  | nil => intro e e' h hs; simp only [sub, Option.some.injEq] at hs; exact hs ▸ h
  | cons i p ih =>
    intro e e' h hs
    cases e with
    | prim => simp [sub] at hs
    | cont n t ks =>
      simp only [sub, Option.bind_eq_some_iff] at hs
      obtain ⟨k, hk, hs⟩ := hs
      refine ih k e' ?_ hs
      cases t with
      | array => exact regular_array.mp h k (List.mem_of_getElem? hk)
      | object => exact ((regular_object.mp h).1 k (List.mem_of_getElem? hk)).1

/-- A change that keeps names and namedness. -/
def Keeps (f : Elem → Option Elem) (e : Elem) : Prop := ∀ e', f e = some e' → Regular e' ∧ e'.name = e.name

theorem regular_modify {f : Elem → Option Elem} : ∀ (p : List Nat) (e e' x : Elem), Regular e → sub e p = some x → Keeps f x → modifyAt f e p = some e' → Regular e' ∧ e'.name = e.name := by
  intro p
  induction p with
  | nil => intro e e' x h hs hk hm; simp only [sub, Option.some.injEq] at hs; subst hs; exact hk e' hm
  | cons i p ih =>
    intro e e' x h hs hf hm
    cases e with
    | prim => simp [sub] at hs
    | cont n t ks =>
      simp only [sub, Option.bind_eq_some_iff] at hs
      obtain ⟨k, hk, hs⟩ := hs
      simp only [modifyAt, hk, Option.bind_some, Option.map_eq_some_iff] at hm
      obtain ⟨k', hk', rfl⟩ := hm
      refine ⟨?_, rfl⟩
      have hkm := List.mem_of_getElem? hk
      cases t with
      | array =>
        have hr := ih k k' x (regular_array.mp h k hkm) hs hf hk'
        refine regular_array.mpr fun y hy => ?_
        rcases List.mem_or_eq_of_mem_set hy with hy | rfl
        · exact regular_array.mp h y hy
        · exact hr.1
      | object =>
        have hr := ih k k' x ((regular_object.mp h).1 k hkm).1 hs hf hk'
        have hnames : (ks.set i k').map Elem.name = ks.map Elem.name := by
          rw [List.map_set, hr.2]
          refine List.ext_getElem? fun j => ?_
          rw [List.getElem?_set]
          split
          · rename_i e
            subst e
            split
            · simp [hk]
            · rename_i hl
              exact absurd (by simpa using (List.getElem?_eq_some_iff.mp hk).1) hl
          · rfl
        refine regular_object.mpr ⟨fun y hy => ?_, by rw [hnames]; exact (regular_object.mp h).2⟩
        rcases List.mem_or_eq_of_mem_set hy with hy | rfl
        · exact (regular_object.mp h).1 y hy
        · exact ⟨hr.1, by rw [hr.2]; exact ((regular_object.mp h).1 k hkm).2⟩

theorem sub_of_modify {f : Elem → Option Elem} : ∀ (p : List Nat) (e e' : Elem), modifyAt f e p = some e' → ∃ x, sub e p = some x := by
  intro p
  induction p with
  | nil => intro e e' _; exact ⟨e, rfl⟩
  | cons i p ih =>
    intro e e' hm
    cases e with
    | prim => simp [modifyAt] at hm
    | cont n t ks =>
      simp only [modifyAt, Option.bind_eq_some_iff, Option.map_eq_some_iff] at hm
      obtain ⟨k, hk, k', hk', rfl⟩ := hm
      obtain ⟨x, hx⟩ := ih k k' hk'
      exact ⟨x, by simp only [sub, hk, Option.bind_some, hx]⟩

theorem modify_of_sub {e' : Elem} : ∀ (p : List Nat) (e x : Elem), sub e p = some x → ∃ r, modifyAt (fun _ => some e') e p = some r := by
  intro p
  induction p with
  | nil => intro e x _; exact ⟨e', rfl⟩
  | cons i p ih =>
    intro e x hs
    cases e with
    | prim => simp [sub] at hs
    | cont n t ks =>
      simp only [sub, Option.bind_eq_some_iff] at hs
      obtain ⟨k, hk, hs⟩ := hs
      obtain ⟨r, hr⟩ := ih k x hs
      exact ⟨.cont n t (ks.set i r), by simp only [modifyAt, hk, Option.bind_some, hr, Option.map_some]⟩

/-- Every value held is regular. -/
def AllRegular (vs : Vals) : Prop := ∀ e, some e ∈ vs → Regular e

theorem allRegular_push {vs : Vals} (h : AllRegular vs) {e : Elem} (he : Regular e) : AllRegular (vs ++ [some e]) := by
  intro x hx
  simp only [List.mem_append, List.mem_singleton, Option.some.injEq] at hx
  rcases hx with hx | rfl
  · exact h x hx
  · exact he

theorem allRegular_value {vs : Vals} (h : AllRegular vs) {x : Target} {e : Elem} (hv : value vs x = some e) : Regular e := by
  simp only [value] at hv
  split at hv
  · rename_i e0 h0; exact regular_sub _ _ _ (h _ (List.mem_of_getElem? h0)) hv
  · cases hv

theorem allRegular_update {vs vs' : Vals} (h : AllRegular vs) {x : Target} {f : Elem → Option Elem} (hf : ∀ e, Regular e → value vs x = some e → Keeps f e) (hu : update vs x f = some vs') : AllRegular vs' := by
  simp only [update] at hu
  split at hu
  · rename_i e0 h0
    simp only [Option.map_eq_some_iff] at hu
    obtain ⟨e1, he1, rfl⟩ := hu
    obtain ⟨y, hy⟩ := sub_of_modify _ _ _ he1
    have hn := h _ (List.mem_of_getElem? h0)
    have hr := regular_modify _ _ _ y hn hy (hf y (regular_sub _ _ _ hn hy) (by simp only [value, h0, hy])) he1
    intro z hz
    rcases List.mem_or_eq_of_mem_set hz with hz | hz
    · exact h z hz
    · cases hz; exact hr.1
  · cases hu

theorem allRegular_take {vs : Vals} (h : AllRegular vs) {y : Nat} {r : Elem × Vals} (ht : take vs y = some r) : Regular r.1 ∧ AllRegular r.2 := by
  simp only [take] at ht
  split at ht
  · rename_i e he
    simp only [Option.some.injEq] at ht
    subst ht
    refine ⟨h _ (List.mem_of_getElem? he), fun z hz => ?_⟩
    rcases List.mem_or_eq_of_mem_set hz with hz | hz
    · exact h z hz
    · cases hz
  · cases ht

theorem keeps_onArray {f : List Elem → Option (List Elem)} (hf : ∀ ks ks', (∀ k ∈ ks, Regular k) → f ks = some ks' → ∀ k ∈ ks', Regular k) {e : Elem} (he : Regular e) : Keeps (onArray f) e := by
  intro e' h
  unfold onArray at h
  split at h
  · simp only [Option.map_eq_some_iff] at h
    obtain ⟨ks', hk, rfl⟩ := h
    exact ⟨regular_array.mpr (hf _ _ (regular_array.mp he) hk), rfl⟩
  · cases h

theorem keeps_onObject {f : List Elem → Option (List Elem)} (hf : ∀ ks ks', Members ks → f ks = some ks' → Members ks') {e : Elem} (he : Regular e) : Keeps (onObject f) e := by
  intro e' h
  unfold onObject at h
  split at h
  · simp only [Option.map_eq_some_iff] at h
    obtain ⟨ks', hk, rfl⟩ := h
    exact ⟨regular_object.mpr (hf _ _ (regular_object.mp he) hk), rfl⟩
  · cases h

theorem lookup_mem {k : Bytes} : ∀ (ks : List Elem) (d : Elem), Json.lookup k ks = some (some d) → d ∈ ks := by
  intro ks
  induction ks with
  | nil => intro d h; simp [Json.lookup] at h
  | cons e es ih =>
    intro d h
    simp only [Json.lookup] at h
    split at h
    · cases h
    · split at h
      · simp only [Option.some.injEq] at h; subst h; simp
      · exact List.mem_cons_of_mem _ (ih d h)

theorem detach_mem {ks ks' : List Elem} {k : Bytes} {d : Option Elem} (h : Json.detachKey ks k = some (ks', d)) : ks'.Sublist ks ∧ ∀ x, d = some x → x ∈ ks := by
  simp only [Json.detachKey] at h
  split at h
  · simp only [Option.map_eq_some_iff, Prod.mk.injEq] at h
    obtain ⟨d', hd, rfl, rfl⟩ := h
    exact ⟨List.eraseIdx_sublist .., fun x hx => lookup_mem ks x (hx ▸ hd)⟩
  · simp only [Option.some.injEq, Prod.mk.injEq] at h
    obtain ⟨rfl, rfl⟩ := h
    exact ⟨List.Sublist.refl _, fun x hx => by cases hx⟩

/-- Every call of C133 keeps it. -/
theorem allRegular_step (rt : RealText) {vs vs' : Vals} (h : AllRegular vs) (c : Cmd) (hs : valueStep rt vs c = some vs') : AllRegular vs' := by
  cases c with
  | string b => simp only [valueStep, Option.some.injEq] at hs; subst hs; exact allRegular_push h trivial
  | integer i => simp only [valueStep, Option.some.injEq] at hs; subst hs; exact allRegular_push h trivial
  | real t => simp only [valueStep, Option.some.injEq] at hs; subst hs; exact allRegular_push h trivial
  | bool b => simp only [valueStep, Option.some.injEq] at hs; subst hs; exact allRegular_push h trivial
  | null => simp only [valueStep, Option.some.injEq] at hs; subst hs; exact allRegular_push h trivial
  | array => simp only [valueStep, Option.some.injEq] at hs; subst hs; exact allRegular_push h (regular_array.mpr (by simp))
  | object => simp only [valueStep, Option.some.injEq] at hs; subst hs; exact allRegular_push h (regular_object.mpr members_nil)
  | append x y =>
    simp only [valueStep, Option.bind_eq_some_iff] at hs
    obtain ⟨r, hr, hs⟩ := hs
    obtain ⟨h1, h2⟩ := allRegular_take h hr
    refine allRegular_update h2 (fun e he _ => keeps_onArray (fun ks ks' hk e => ?_) he) hs
    simp only [Option.some.injEq] at e
    subst e
    intro k hm
    rcases List.mem_append.mp hm with hm | hm
    · exact hk k hm
    · simp only [List.mem_singleton] at hm; subst hm; exact h1
  | put x k y =>
    simp only [valueStep, Option.bind_eq_some_iff] at hs
    obtain ⟨r, hr, hs⟩ := hs
    obtain ⟨h1, h2⟩ := allRegular_take h hr
    refine allRegular_update h2 (fun e he _ => keeps_onObject (fun ks ks' hk e => ?_) he) hs
    simp only [Option.some.injEq] at e
    subst e
    exact members_appendElement hk k h1
  | extend x y =>
    simp only [valueStep, Option.bind_eq_some_iff] at hs
    obtain ⟨r, hr, hs⟩ := hs
    obtain ⟨h1, h2⟩ := allRegular_take h hr
    split at hs
    · rename_i n ys hy
      rw [hy] at h1
      refine allRegular_update h2 (fun e he _ => keeps_onArray (fun ks ks' hk e => ?_) he) hs
      simp only [Option.some.injEq] at e
      subst e
      intro k hm
      rcases List.mem_append.mp hm with hm | hm
      · exact hk k hm
      · exact regular_array.mp h1 k hm
    · cases hs
  | removeRange x i j =>
    simp only [valueStep] at hs
    refine allRegular_update h (fun e he _ => keeps_onArray (fun ks ks' hk e => ?_) he) hs
    split at e
    · simp only [Option.some.injEq] at e
      subst e
      intro k hm
      rcases List.mem_append.mp hm with hm | hm
      · exact hk k (List.mem_of_mem_take hm)
      · exact hk k (List.mem_of_mem_drop hm)
    · cases e
  | removeKey x k =>
    simp only [valueStep] at hs
    refine allRegular_update h (fun e he _ => keeps_onObject (fun ks ks' hk e => ?_) he) hs
    simp only [Option.some.injEq] at e
    subst e
    exact members_removeKey hk k
  | detach x k =>
    simp only [valueStep] at hs
    split at hs
    · rename_i n ks hx
      have hm := regular_object.mp (allRegular_value h hx)
      split at hs
      · rename_i ks1 d hd
        simp only [Option.map_eq_some_iff] at hs
        obtain ⟨vs1, hu, rfl⟩ := hs
        have h1 : AllRegular vs1 := by
          refine allRegular_update h (fun e he _ => keeps_onObject (fun us us' hk e => ?_) he) hu
          simp only [Option.map_eq_some_iff] at e
          obtain ⟨⟨q1, q2⟩, hq, rfl⟩ := e
          exact members_sublist hk (detach_mem hq).1
        cases d with
        | none =>
          intro z hz
          simp only [List.mem_append, List.mem_singleton, reduceCtorEq, or_false] at hz
          exact h1 z hz
        | some d => exact allRegular_push h1 (hm.1 d ((detach_mem hd).2 d rfl)).1
      · cases hs
    · cases hs
  | reverse x =>
    simp only [valueStep] at hs
    refine allRegular_update h (fun e he _ => keeps_onArray (fun ks ks' hk e => ?_) he) hs
    simp only [Option.some.injEq] at e
    subst e
    exact fun k hm => hk k (List.mem_reverse.mp hm)
  | copy x =>
    simp only [valueStep, Option.bind_eq_some_iff, Option.map_eq_some_iff] at hs
    obtain ⟨e, _, e', he', rfl⟩ := hs
    exact allRegular_push h (regular_copy rt e e' he')
  | merge x y =>
    simp only [valueStep, Option.bind_eq_some_iff, Option.map_eq_some_iff] at hs
    obtain ⟨e, _, f, _, e', he', rfl⟩ := hs
    exact allRegular_push h (regular_merge he')
  | destroy y =>
    simp only [valueStep, Option.map_eq_some_iff] at hs
    obtain ⟨r, hr, rfl⟩ := hs
    exact (allRegular_take h hr).2

theorem sorts_name {e e' : Elem} (h : Sorts e e') : e'.name = e.name := by cases h <;> rfl

theorem sortsAll_names : ∀ (ks ks' : List Elem), SortsAll ks ks' → ks'.map Elem.name = ks.map Elem.name
  | [], _, h => by cases h; rfl
  | k :: ks, _, h => by
    cases h with
    | cons h1 h2 => simp only [List.map_cons, sorts_name h1, sortsAll_names ks _ h2]

mutual
theorem sorts_regular : (e e' : Elem) → Sorts e e' → Regular e → Regular e'
  | .prim .., _, h, hn => by cases h; exact hn
  | .cont n .array ks, _, h, hn => by
    cases h with
    | array _ hs => exact regular_array.mpr fun k hk => sortsAll_regular _ _ hs (regular_array.mp hn) k hk
  | .cont n .object ks, _, h, hn => by
    cases h with
    | object _ hs hp _ =>
      rename_i ks' out
      have ho := regular_object.mp hn
      have hr := sortsAll_regular _ _ hs fun k hk => (ho.1 k hk).1
      have hnm := sortsAll_names _ _ hs
      refine regular_object.mpr ⟨fun k hk => ⟨hr k (hp.mem_iff.mp hk), ?_⟩, ?_⟩
      · have : k.name ∈ ks.map Elem.name := by rw [← hnm]; exact List.mem_map_of_mem (hp.mem_iff.mp hk)
        obtain ⟨x, hx, he⟩ := List.mem_map.mp this
        rw [← he]
        exact (ho.1 x hx).2
      · rw [(hp.map Elem.name).nodup_iff, hnm]
        exact ho.2
theorem sortsAll_regular : (ks ks' : List Elem) → SortsAll ks ks' → (∀ k ∈ ks, Regular k) → ∀ k ∈ ks', Regular k
  | [], _, h, _ => by cases h; simp
  | k :: ks, _, h, hn => by
    cases h with
    | cons h1 h2 =>
      intro x hx
      rcases List.mem_cons.mp hx with rfl | hx
      · exact sorts_regular _ _ h1 (hn _ (by simp))
      · exact sortsAll_regular _ _ h2 (fun y hy => hn y (List.mem_cons_of_mem _ hy)) x hx
end

mutual
theorem named_of_regular : (e : Elem) → Regular e → Named e
  | .prim .., _ => trivial
  | .cont _ .array ks, h => by simp only [Regular] at h; simp only [Named]; exact namedAll_of_regular ks h
  | .cont _ .object ks, h => by simp only [Regular] at h; simp only [Named]; exact ⟨namedAll_of_regular ks h.1, h.2.1⟩
theorem namedAll_of_regular : (ks : List Elem) → RegularAll ks → NamedAll ks
  | [], _ => trivial
  | k :: ks, h => ⟨named_of_regular k h.1, namedAll_of_regular ks h.2⟩
end

end JsonWriteHeap
