import Verif.Model.Mustache
import Verif.Props.JsonWrite
import Verif.Props.JsonCanon
import Verif.Props.StrCompare
/-! # Paths into the data, and what serialisation does to it -/
namespace Mustache
open Json (Bytes Elem)

/-- An element as the API builds it. -/
abbrev WF (e : Elem) : Prop := JsonSpec.Valid (fun _ => True) (fun _ => True) (fun _ => True) (fun _ => True) e
abbrev WFAll (es : List Elem) : Prop := JsonSpec.ValidAll (fun _ => True) (fun _ => True) (fun _ => True) (fun _ => True) es

theorem wfAll_iff (es : List Elem) : WFAll es ↔ ∀ e ∈ es, WF e := by
  induction es with
  | nil => simp [WFAll, JsonSpec.ValidAll]
  | cons e es ih => simp only [WFAll, JsonSpec.ValidAll, List.mem_cons, forall_eq_or_imp]; rw [← ih]

/-- An element without its children. -/
inductive Shape where
  | prim (n : Option Bytes) (t : Json.PType) (v : Bytes)
  | cont (n : Option Bytes) (t : Json.CType) (len : Nat)

def shape : Elem → Shape
  | .prim n t v => .prim n t v
  | .cont n t ks => .cont n t ks.length

/-- The same, but for the order of the children of objects. -/
def Sim (e e' : Elem) : Prop := ∀ p, (get e p).map shape = (get e' p).map shape

theorem Sim.refl (e : Elem) : Sim e e := fun _ => rfl
theorem Sim.symm {a b : Elem} (h : Sim a b) : Sim b a := fun p => (h p).symm
theorem Sim.trans {a b c : Elem} (h : Sim a b) (h' : Sim b c) : Sim a c := fun p => (h p).trans (h' p)
theorem Sim.shape {a b : Elem} (h : Sim a b) : shape a = shape b := by have := h []; simpa [get] using this

theorem find_key {ks : List Elem} (hn : (ks.map Elem.name).Nodup) (k : Bytes) (e : Elem) :
    (ks.find? fun c => c.name == some k) = some e ↔ e ∈ ks ∧ e.name = some k := by
  constructor
  · intro h
    exact ⟨List.mem_of_find?_eq_some h, by have := List.find?_some h; simpa using this⟩
  · rintro ⟨hm, hk⟩
    induction ks with
    | nil => simp at hm
    | cons c cs ih =>
      rw [List.map_cons, List.nodup_cons] at hn
      rcases List.mem_cons.mp hm with rfl | hm
      · simp [List.find?, hk]
      · have : c.name ≠ some k := by
          intro h
          exact hn.1 (by rw [h, ← hk]; exact List.mem_map_of_mem hm)
        rw [List.find?_cons_of_neg (by simpa using this)]
        exact ih hn.2 hm

theorem find_perm {l l' : List Elem} (h : l'.Perm l) (hn : (l.map Elem.name).Nodup) (k : Bytes) :
    (l'.find? fun c => c.name == some k) = (l.find? fun c => c.name == some k) := by
  have hn' : (l'.map Elem.name).Nodup := (h.map _).nodup_iff.mpr hn
  apply Option.ext
  intro e
  rw [find_key hn', find_key hn, h.mem_iff]

inductive Forall₂ {α β : Type} (R : α → β → Prop) : List α → List β → Prop
  | nil : Forall₂ R [] []
  | cons {a b l m} : R a b → Forall₂ R l m → Forall₂ R (a :: l) (b :: m)

/-- Counterparts: the same name, the same up to order. -/
def Twin (e e' : Elem) : Prop := e'.name = e.name ∧ WF e' ∧ Sim e e'

theorem Sim.name {a b : Elem} (h : Sim a b) : b.name = a.name := by
  have := h.shape
  cases a <;> cases b <;> simp [Mustache.shape] at this <;> simp [Elem.name, this.1]

theorem twins_names {ks ks' : List Elem} (h : Forall₂ Twin ks ks') : ks'.map Elem.name = ks.map Elem.name := by
  induction h with
  | nil => rfl
  | cons h _ ih => simp [h.1, ih]

theorem twins_length {ks ks' : List Elem} (h : Forall₂ Twin ks ks') : ks'.length = ks.length := by
  induction h with
  | nil => rfl
  | cons h _ ih => simp [ih]

theorem twins_wf {ks ks' : List Elem} (h : Forall₂ Twin ks ks') : ∀ e ∈ ks', WF e := by
  induction h with
  | nil => simp
  | cons h _ ih => simp only [List.mem_cons, forall_eq_or_imp]; exact ⟨h.2.1, ih⟩

theorem twins_find {ks ks' : List Elem} (h : Forall₂ Twin ks ks') (k : Bytes) (p : Path) :
    ((ks.find? fun c => c.name == some k).bind fun c => get c p).map shape = ((ks'.find? fun c => c.name == some k).bind fun c => get c p).map shape := by
  induction h with
  | nil => rfl
  | @cons a b l m h _ ih =>
    by_cases hk : a.name = some k
    · have hk' : b.name = some k := by rw [h.1, hk]
      simp [List.find?, hk, hk']; exact h.2.2 p
    · have hk' : b.name ≠ some k := by rw [h.1]; exact hk
      rw [List.find?_cons_of_neg (by simpa using hk), List.find?_cons_of_neg (by simpa using hk')]
      exact ih

theorem twins_idx {ks ks' : List Elem} (h : Forall₂ Twin ks ks') (i : Nat) (p : Path) :
    ((ks[i]?).bind fun c => get c p).map shape = ((ks'[i]?).bind fun c => get c p).map shape := by
  induction h generalizing i with
  | nil => rfl
  | cons h _ ih =>
    cases i with
    | zero => simp; exact h.2.2 p
    | succ i => simpa only [List.getElem?_cons_succ] using ih i

theorem sim_array {n : Option Bytes} {ks ks' : List Elem} (h : Forall₂ Twin ks ks') : Sim (.cont n .array ks) (.cont n .array ks') := by
  intro p
  cases p with
  | nil => simp [get, shape, twins_length h]
  | cons s p =>
    cases s with
    | key k => simp [get, child]
    | idx i => simp only [get, child]; exact twins_idx h i p

theorem sim_object {n : Option Bytes} {ks mid ks' : List Elem} (h : Forall₂ Twin ks mid) (hp : ks'.Perm mid) (hn : (ks.map Elem.name).Nodup) :
    Sim (.cont n .object ks) (.cont n .object ks') := by
  intro p
  cases p with
  | nil => simp [get, shape, hp.length_eq, twins_length h]
  | cons s p =>
    cases s with
    | idx i => simp [get, child]
    | key k =>
      simp only [get, child]
      rw [find_perm hp (by rw [twins_names h]; exact hn)]
      exact twins_find h k p

theorem wf_array {n : Option Bytes} {ks : List Elem} : WF (.cont n .array ks) ↔ ∀ e ∈ ks, WF e := wfAll_iff ks

theorem wf_object {n : Option Bytes} {ks : List Elem} : WF (.cont n .object ks) ↔ (∀ e ∈ ks, WF e) ∧ (ks.map Elem.name).Nodup ∧ ∀ e ∈ ks, ∃ k, e.name = some k := by
  rw [← wfAll_iff]
  constructor
  · rintro ⟨h1, h2, h3⟩
    refine ⟨h1, h2, fun e he => ?_⟩
    obtain ⟨k, hk, _⟩ := h3 e.name (by simp only [JsonSpec.keys]; exact List.mem_map_of_mem he)
    exact ⟨k, hk⟩
  · rintro ⟨h1, h2, h3⟩
    refine ⟨h1, h2, fun k hk => ?_⟩
    simp only [JsonSpec.keys, List.mem_map] at hk
    obtain ⟨e, he, rfl⟩ := hk
    obtain ⟨k, hk⟩ := h3 e he
    exact ⟨k, hk, trivial⟩

/-- The children after an object has been written. -/
theorem object_twin {n : Option Bytes} {ks : List Elem} {r r' : List (Bytes × Bytes × Elem)} (hw : WF (.cont n .object ks)) (h : Forall₂ Twin ks (r.map fun x => x.2.2))
    (hp : r'.Perm r) : WF (.cont n .object (r'.map fun x => x.2.2)) ∧ Sim (.cont n .object ks) (.cont n .object (r'.map fun x => x.2.2)) := by
  obtain ⟨h1, h2, h3⟩ := wf_object.mp hw
  have hp' := hp.map (fun x : Bytes × Bytes × Elem => x.2.2)
  refine ⟨wf_object.mpr ⟨?_, ?_, ?_⟩, sim_object h hp' h2⟩
  · intro e he
    exact twins_wf h e (hp'.mem_iff.mp he)
  · rw [(hp'.map Elem.name).nodup_iff, twins_names h]; exact h2
  · intro e he
    have : e.name ∈ (r.map fun x => x.2.2).map Elem.name := List.mem_map_of_mem (hp'.mem_iff.mp he)
    rw [twins_names h] at this
    obtain ⟨e', he', hn⟩ := List.mem_map.mp this
    obtain ⟨k, hk⟩ := h3 e' he'
    exact ⟨k, by rw [← hn, hk]⟩

mutual
theorem write_twin : ∀ (e : Elem) (lvl : Nat), WF e → ∃ t e', Json.write lvl e = some (t, e') ∧ Twin e e'
  | .prim n t v, _, h => ⟨_, _, rfl, rfl, h, Sim.refl _⟩
  | .cont n .array ks, lvl, h => by
    obtain ⟨r, e1, e2⟩ := writeKids_twin ks (lvl + 1) h
    refine ⟨_, .cont n .array (r.map Prod.snd), by rw [Json.write, e1, Option.bind_some], rfl, wf_array.mpr (twins_wf e2), sim_array e2⟩
  | .cont n .object ks, lvl, h => by
    obtain ⟨r, e1, e2⟩ := writeNamed_twin ks (lvl + 1) h.1 (fun k hk => (h.2.2 k hk).imp fun _ h => h.1)
    obtain ⟨r', s1, s2, _⟩ := Json.sortKids_spec r
    have := object_twin h e2 s2
    exact ⟨_, .cont n .object (r'.map fun x => x.2.2), by rw [Json.write, e1, Option.bind_some, s1, Option.bind_some], rfl, this.1, this.2⟩
theorem writeKids_twin : ∀ (es : List Elem) (lvl : Nat), WFAll es → ∃ r, Json.writeKids lvl es = some r ∧ Forall₂ Twin es (r.map Prod.snd)
  | [], _, _ => ⟨[], rfl, .nil⟩
  | e :: es, lvl, h => by
    obtain ⟨t, e', a1, a2⟩ := write_twin e lvl h.1
    obtain ⟨r, b1, b2⟩ := writeKids_twin es lvl h.2
    exact ⟨(t, e') :: r, by rw [Json.writeKids, a1, Option.bind_some, b1]; rfl, .cons a2 b2⟩
theorem writeNamed_twin : ∀ (es : List Elem) (lvl : Nat), WFAll es → (∀ k ∈ JsonSpec.keys es, ∃ n, k = some n) →
    ∃ r, Json.writeNamed lvl es = some r ∧ Forall₂ Twin es (r.map fun x => x.2.2)
  | [], _, _, _ => ⟨[], rfl, .nil⟩
  | e :: es, lvl, h, hk => by
    obtain ⟨t, e', a1, a2⟩ := write_twin e lvl h.1
    obtain ⟨k, k1⟩ := hk e.name (by simp [JsonSpec.keys])
    obtain ⟨r, b1, b2⟩ := writeNamed_twin es lvl h.2 (fun x hx => hk x (by rw [JsonSpec.keys] at hx ⊢; exact List.mem_cons_of_mem _ hx))
    exact ⟨(k, t, e') :: r, by rw [Json.writeNamed, k1, Option.bind_some, a1, Option.bind_some, b1]; rfl, .cons a2 b2⟩
end

mutual
theorem compact_twin : ∀ (e : Elem), WF e → ∃ t e', Json.writeCompact e = some (t, e') ∧ Twin e e'
  | .prim n t v, h => ⟨_, _, rfl, rfl, h, Sim.refl _⟩
  | .cont n .array ks, h => by
    obtain ⟨r, e1, e2⟩ := compactKids_twin ks h
    refine ⟨_, .cont n .array (r.map Prod.snd), by rw [Json.writeCompact, e1, Option.bind_some], rfl, wf_array.mpr (twins_wf e2), sim_array e2⟩
  | .cont n .object ks, h => by
    obtain ⟨r, e1, e2⟩ := compactNamed_twin ks h.1 (fun k hk => (h.2.2 k hk).imp fun _ h => h.1)
    obtain ⟨r', s1, s2, _⟩ := Json.sortKids_spec r
    have := object_twin h e2 s2
    exact ⟨_, .cont n .object (r'.map fun x => x.2.2), by rw [Json.writeCompact, e1, Option.bind_some, s1, Option.bind_some], rfl, this.1, this.2⟩
theorem compactKids_twin : ∀ (es : List Elem), WFAll es → ∃ r, Json.writeCompactKids es = some r ∧ Forall₂ Twin es (r.map Prod.snd)
  | [], _ => ⟨[], rfl, .nil⟩
  | e :: es, h => by
    obtain ⟨t, e', a1, a2⟩ := compact_twin e h.1
    obtain ⟨r, b1, b2⟩ := compactKids_twin es h.2
    exact ⟨(t, e') :: r, by rw [Json.writeCompactKids, a1, Option.bind_some, b1]; rfl, .cons a2 b2⟩
theorem compactNamed_twin : ∀ (es : List Elem), WFAll es → (∀ k ∈ JsonSpec.keys es, ∃ n, k = some n) →
    ∃ r, Json.writeCompactNamed es = some r ∧ Forall₂ Twin es (r.map fun x => x.2.2)
  | [], _, _ => ⟨[], rfl, .nil⟩
  | e :: es, h, hk => by
    obtain ⟨t, e', a1, a2⟩ := compact_twin e h.1
    obtain ⟨k, k1⟩ := hk e.name (by simp [JsonSpec.keys])
    obtain ⟨r, b1, b2⟩ := compactNamed_twin es h.2 (fun x hx => hk x (by rw [JsonSpec.keys] at hx ⊢; exact List.mem_cons_of_mem _ hx))
    exact ⟨(k, t, e') :: r, by rw [Json.writeCompactNamed, k1, Option.bind_some, a1, Option.bind_some, b1]; rfl, .cons a2 b2⟩
end

/-- Replacing a child by its twin. -/
theorem setKey_twins {ks : List Elem} {k : Bytes} {c c' : Elem} (hw : ∀ e ∈ ks, WF e) (hf : (ks.find? fun c => c.name == some k) = some c) (ht : Twin c c') :
    Forall₂ Twin ks (setKey k c' ks) := by
  induction ks with
  | nil => simp at hf
  | cons a as ih =>
    have hr : ∀ l : List Elem, (∀ e ∈ l, WF e) → Forall₂ Twin l l := by
      intro l
      induction l with
      | nil => intro _; exact .nil
      | cons x xs ih => intro h; exact .cons ⟨rfl, h x (by simp), Sim.refl _⟩ (ih fun e he => h e (by simp [he]))
    by_cases hk : a.name = some k
    · rw [List.find?_cons_of_pos (by simpa using hk)] at hf
      obtain rfl := Option.some.inj hf
      simp only [setKey, hk, beq_self_eq_true, if_true]
      exact .cons ht (hr as fun e he => hw e (by simp [he]))
    · rw [List.find?_cons_of_neg (by simpa using hk)] at hf
      have : (a.name == some k) = false := by simpa using hk
      simp only [setKey, this]
      exact .cons ⟨rfl, hw a (by simp), Sim.refl _⟩ (ih (fun e he => hw e (by simp [he])) hf)

theorem set_twins {ks : List Elem} {i : Nat} {c c' : Elem} (hw : ∀ e ∈ ks, WF e) (hf : ks[i]? = some c) (ht : Twin c c') : Forall₂ Twin ks (ks.set i c') := by
  induction ks generalizing i with
  | nil => simp at hf
  | cons a as ih =>
    have hr : ∀ l : List Elem, (∀ e ∈ l, WF e) → Forall₂ Twin l l := by
      intro l
      induction l with
      | nil => intro _; exact .nil
      | cons x xs ih => intro h; exact .cons ⟨rfl, h x (by simp), Sim.refl _⟩ (ih fun e he => h e (by simp [he]))
    cases i with
    | zero =>
      simp at hf
      subst hf
      exact .cons ht (hr as fun e he => hw e (by simp [he]))
    | succ i => exact .cons ⟨rfl, hw a (by simp), Sim.refl _⟩ (ih (fun e he => hw e (by simp [he])) (by simpa using hf))

theorem get_wf {e v : Elem} {p : Path} (hw : WF e) (h : get e p = some v) : WF v := by
  induction p generalizing e with
  | nil => simp only [get] at h; cases h; exact hw
  | cons s p ih =>
    simp only [get] at h
    cases hc : child e s with
    | none => rw [hc] at h; cases h
    | some c =>
      rw [hc] at h
      refine ih ?_ h
      cases s with
      | key k =>
        cases e with
        | prim => simp [child] at hc
        | cont n t ks =>
          cases t with
          | array => simp [child] at hc
          | object => exact (wf_object.mp hw).1 c (List.mem_of_find?_eq_some hc)
      | idx i =>
        cases e with
        | prim => simp [child] at hc
        | cont n t ks =>
          cases t with
          | object => simp [child] at hc
          | array => exact wf_array.mp hw c (List.mem_of_getElem? hc)

theorem put_twin {e v v' : Elem} {p : Path} (hw : WF e) (h : get e p = some v) (ht : Twin v v') : Twin e (put e p v') := by
  induction p generalizing e with
  | nil => simp only [get] at h; cases h; exact ht
  | cons s p ih =>
    simp only [get] at h
    cases hc : child e s with
    | none => rw [hc] at h; cases h
    | some c =>
      rw [hc] at h
      have hcw : WF c := get_wf hw (p := [s]) (by simp [get, hc])
      have htw := ih hcw h
      cases s with
      | key k =>
        cases e with
        | prim => simp [child] at hc
        | cont n t ks =>
          cases t with
          | array => simp [child] at hc
          | object =>
            simp only [child] at hc
            simp only [put, hc]
            obtain ⟨w1, w2, w3⟩ := wf_object.mp hw
            have hts := setKey_twins (k := k) w1 hc htw
            refine ⟨rfl, wf_object.mpr ⟨twins_wf hts, by rw [twins_names hts]; exact w2, ?_⟩, sim_object hts (.refl _) w2⟩
            intro x hx
            have : x.name ∈ (setKey k (put c p v') ks).map Elem.name := List.mem_map_of_mem hx
            rw [twins_names hts] at this
            obtain ⟨y, hy, e⟩ := List.mem_map.mp this
            obtain ⟨kk, hk⟩ := w3 y hy
            exact ⟨kk, by rw [← e, hk]⟩
      | idx i =>
        cases e with
        | prim => simp [child] at hc
        | cont n t ks =>
          cases t with
          | object => simp [child] at hc
          | array =>
            simp only [child] at hc
            simp only [put, hc]
            have hts := set_twins (i := i) (wf_array.mp hw) hc htw
            exact ⟨rfl, wf_array.mpr (twins_wf hts), sim_array hts⟩

theorem get_append {e : Elem} {p q : Path} : get e (p ++ q) = (get e p).bind fun c => get c q := by
  induction p generalizing e with
  | nil => rfl
  | cons s p ih =>
    simp only [List.cons_append, get]
    cases child e s with
    | none => rfl
    | some c => simp [ih]

theorem Sim.isSome {a b : Elem} (h : Sim a b) {p : Path} (hs : (Mustache.get a p).isSome) : (Mustache.get b p).isSome := by
  have := h p
  cases h1 : Mustache.get a p with
  | none => rw [h1] at hs; simp at hs
  | some x => rw [h1] at this; cases h2 : Mustache.get b p with
    | none => rw [h2] at this; simp at this
    | some y => rfl

/-- `JsonObjectGet` on a well-formed object is the child by name. -/
theorem jsonGet_eq {ks : List Elem} (k : Bytes) (hn : ∀ e ∈ ks, ∃ k, e.name = some k) :
    Json.get ks k = some (ks.find? fun c => c.name == some k) := by
  unfold Json.get
  induction ks with
  | nil => rfl
  | cons c cs ih =>
    obtain ⟨n, hc⟩ := hn c (by simp)
    rw [Json.lookup]
    simp only [hc]
    by_cases h : k = n
    · subst h
      rw [if_pos ((Str.cmpSign_zero id k k).mpr rfl), List.find?_cons_of_pos (by simp [hc])]
    · rw [if_neg (fun e => h (by simpa using (Str.cmpSign_zero id k n).mp e)), List.find?_cons_of_neg (by simp [hc, Ne.symm h])]
      exact ih fun e he => hn e (by simp [he])

end Mustache
