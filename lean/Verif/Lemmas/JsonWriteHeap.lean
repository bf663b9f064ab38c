import Verif.Model.JsonWriteHeap
import Verif.Lemmas.SeqSortMap
import Verif.Props.JsonWrite
import Verif.Props.JsonHeap
/-! # Writing trees in a heap -/
namespace JsonHeap
open Json

/-! ## Writing values, in one style or the other -/

mutual
def writeG (st : Style) (lvl : Nat) : Elem → Option (Bytes × Elem)
  | .prim n t v => some (primText t v, .prim n t v)
  | .cont n .array ks => (writeGKids st (lvl + 1) ks).bind fun r => some (st.array lvl (r.map Prod.fst), .cont n .array (r.map Prod.snd))
  | .cont n .object ks => (writeGNamed st (lvl + 1) ks).bind fun r => (sortKids r).bind fun r =>
    some (st.object lvl (r.map fun x => (x.1, x.2.1)), .cont n .object (r.map fun x => x.2.2))
def writeGKids (st : Style) (lvl : Nat) : List Elem → Option (List (Bytes × Elem))
  | [] => some []
  | e :: es => (writeG st lvl e).bind fun x => (writeGKids st lvl es).map (x :: ·)
def writeGNamed (st : Style) (lvl : Nat) : List Elem → Option (List (Bytes × Bytes × Elem))
  | [] => some []
  | e :: es => e.name.bind fun k => (writeG st lvl e).bind fun x => (writeGNamed st lvl es).map ((k, x.1, x.2) :: ·)
end

mutual
theorem writeG_pretty : (e : Elem) → ∀ lvl, writeG pretty lvl e = Json.write lvl e
  | .prim _ _ _, lvl => by simp only [writeG, Json.write]
  | .cont n .array ks, lvl => by simp only [writeG, Json.write, writeGKids_pretty ks]; simp only [pretty, List.isEmpty_map]
  | .cont n .object ks, lvl => by simp only [writeG, Json.write, writeGNamed_pretty ks]; simp only [pretty]
theorem writeGKids_pretty : (es : List Elem) → ∀ lvl, writeGKids pretty lvl es = Json.writeKids lvl es
  | [], lvl => by simp only [writeGKids, Json.writeKids]
  | e :: es, lvl => by simp only [writeGKids, Json.writeKids, writeG_pretty e, writeGKids_pretty es]
theorem writeGNamed_pretty : (es : List Elem) → ∀ lvl, writeGNamed pretty lvl es = Json.writeNamed lvl es
  | [], lvl => by simp only [writeGNamed, Json.writeNamed]
  | e :: es, lvl => by simp only [writeGNamed, Json.writeNamed, writeG_pretty e, writeGNamed_pretty es]
end

mutual
theorem writeG_compact : (e : Elem) → ∀ lvl, writeG compact lvl e = Json.writeCompact e
  | .prim _ _ _, lvl => by simp only [writeG, Json.writeCompact]
  | .cont n .array ks, lvl => by simp only [writeG, Json.writeCompact, writeGKids_compact ks]; simp only [compact, List.isEmpty_map]
  | .cont n .object ks, lvl => by simp only [writeG, Json.writeCompact, writeGNamed_compact ks]; simp only [compact]
theorem writeGKids_compact : (es : List Elem) → ∀ lvl, writeGKids compact lvl es = Json.writeCompactKids es
  | [], lvl => by simp only [writeGKids, Json.writeCompactKids]
  | e :: es, lvl => by simp only [writeGKids, Json.writeCompactKids, writeG_compact e, writeGKids_compact es]
theorem writeGNamed_compact : (es : List Elem) → ∀ lvl, writeGNamed compact lvl es = Json.writeCompactNamed es
  | [], lvl => by simp only [writeGNamed, Json.writeCompactNamed]
  | e :: es, lvl => by simp only [writeGNamed, Json.writeCompactNamed, writeG_compact e, writeGNamed_compact es]
end

/-! ## A child of an object with what will be written for it -/

abbrev Entry := HT × (Bytes × Bytes × Elem)

def Entry.Ok (st : Style) (lvl : Nat) (z : Entry) : Prop := z.1.nm.map (·.2) = some z.2.1 ∧ writeG st lvl z.1.elem = some z.2.2

def entryCmp (a b : Entry) : Int := nameCompare a.2 b.2

theorem entryCmp_order : SeqSpec.TotalPreorder entryCmp :=
  ⟨fun a => nameCompare_order.refl a.2, fun a b => nameCompare_order.swap a.2 b.2, fun a b c => nameCompare_order.trans a.2 b.2 c.2⟩

theorem entries_of (st : Style) (lvl : Nat) : ∀ (ks : List HT) (r : List (Bytes × Bytes × Elem)), writeGNamed st lvl (elems ks) = some r →
    ∃ zs : List Entry, zs.map Prod.fst = ks ∧ zs.map Prod.snd = r ∧ ∀ z ∈ zs, Entry.Ok st lvl z := by
  intro ks
  induction ks with
  | nil => intro r hr; simp only [elems, writeGNamed, Option.some.injEq] at hr; subst hr; exact ⟨[], rfl, rfl, by simp⟩
  | cons k ks ih =>
    intro r hr
    simp only [elems, writeGNamed, HT.elem_name, Option.bind_eq_some_iff, Option.map_eq_some_iff] at hr
    obtain ⟨n, ⟨p, hp, rfl⟩, x, hx, r1, hr1, rfl⟩ := hr
    obtain ⟨zs, h1, h2, h3⟩ := ih r1 hr1
    refine ⟨(k, (p.2, x.1, x.2)) :: zs, by simp [h1], by simp [h2], ?_⟩
    intro z hz
    rcases List.mem_cons.mp hz with rfl | hz
    · exact ⟨by simp [hp], hx⟩
    · exact h3 z hz

theorem sortKids_eq (l : List (Bytes × Bytes × Elem)) : sortKids l = Seqn.sorted nameCompare l := rfl

theorem nameOf_ok {h : Heap} {t : HT} {b : Bytes} (hH : Has h t.blocks) (hn : t.nm.map (·.2) = some b) : nameOf h t.root = some b := by
  rw [Option.map_eq_some_iff] at hn
  obtain ⟨⟨q, c⟩, hn, rfl⟩ := hn
  simp only [nameOf, hH.elem, hn, Option.map_some, Option.bind_eq_bind, Option.bind_some]
  exact hH.name hn

theorem named_ok {h : Heap} (st : Style) (lvl : Nat) : ∀ (zs : List Entry), (∀ z ∈ zs, Entry.Ok st lvl z) → Has h (blocksL (zs.map Prod.fst)) →
    named h ((zs.map Prod.fst).map HT.root) = some (zs.map fun z => (z.2.1, z.1.root)) := by
  intro zs
  induction zs with
  | nil => intro _ _; rfl
  | cons z zs ih =>
    intro ho hH
    simp only [List.map_cons, blocksL, has_add] at hH
    simp only [List.map_cons, named, nameOf_ok hH.1 (ho z (by simp)).1, ih (fun z hz => ho z (by simp [hz])) hH.2, Option.bind_some, Option.map_some]

theorem sortChildren_ok {h : Heap} {s : Nat} {R : Blocks} (st : Style) (lvl : Nat) (zs : List Entry) (ho : ∀ z ∈ zs, Entry.Ok st lvl z) (r : List (Bytes × Bytes × Elem)) (hr : sortKids (zs.map Prod.snd) = some r)
    (hI : Is h ((s, .seq ((zs.map Prod.fst).map HT.root)) ::ₘ (blocksL (zs.map Prod.fst) + R))) :
    ∃ (h' : Heap) (zs' : List Entry), sortChildren h s = some h' ∧ zs'.Perm zs ∧ zs'.map Prod.snd = r ∧ Is h' ((s, .seq ((zs'.map Prod.fst).map HT.root)) ::ₘ (blocksL (zs'.map Prod.fst) + R)) ∧ h'.next = h.next := by
  obtain ⟨zs', e, hp, _⟩ := Seqn.sorted_spec entryCmp_order zs
  have hr' : zs'.map Prod.snd = r := by
    rw [sortKids_eq, Seqn.sorted_map (cp := entryCmp) Prod.snd (fun _ _ => rfl), e] at hr
    simpa using hr
  have hs := Seqn.sorted_map (cp := entryCmp) (cq := fun a b : Bytes × Nat => Str.cmpSign id a.1 b.1) (fun z : Entry => (z.2.1, z.1.root)) (fun _ _ => rfl) zs
  rw [e, Option.map_some, Seqn.sorted, Option.bind_eq_some_iff] at hs
  obtain ⟨q, hq, hq'⟩ := hs
  obtain ⟨h', e1, i1, n1⟩ := hI.store (.seq ((zs'.map Prod.fst).map HT.root))
  refine ⟨h', zs', ?_, hp, hr', i1.congr ?_, n1⟩
  · have hn := named_ok (h := h) st lvl zs ho (hI.has fun x hx => by simp [hx])
    simp only [sortChildren, getSeq_ok hI, hn, Option.bind_eq_bind, Option.bind_some]
    rw [hq, Option.bind_some, hq', Option.bind_some]
    rw [← e1]
    congr 2
    simp
  · rw [blocksL_perm (hp.map Prod.fst)]

/-! ## Writing -/

/-- Writing a tree of at most this depth: the text, and the tree with the children of its objects in another order. -/
def WritesAt (st : Style) (n : Nat) : Prop := ∀ (t : HT) (lvl : Nat) (h : Heap) (R : Blocks) (text : Bytes) (e' : Elem), t.Valid → t.depth ≤ n → Is h (t.blocks + R) → writeG st lvl t.elem = some (text, e') →
  ∃ (h' : Heap) (t' : HT), writeN st n lvl h t.root = some (text, h') ∧ Is h' (t'.blocks + R) ∧ h'.next = h.next ∧ t'.root = t.root ∧ t'.nm = t.nm ∧ t'.Valid ∧ t'.elem = e'

theorem writeEach_ok {st : Style} {n : Nat} (ih : WritesAt st n) (lvl : Nat) : ∀ (ks : List HT) (h : Heap) (R : Blocks) (r : List (Bytes × Elem)), ValidL ks → depthL ks ≤ n → Is h (blocksL ks + R) →
    writeGKids st lvl (elems ks) = some r → ∃ (h' : Heap) (ks' : List HT), writeEach (writeN st n lvl) h (ks.map HT.root) = some (r.map Prod.fst, h') ∧ Is h' (blocksL ks' + R) ∧ h'.next = h.next ∧
      ks'.map HT.root = ks.map HT.root ∧ ValidL ks' ∧ elems ks' = r.map Prod.snd := by
  intro ks
  induction ks with
  | nil => intro h R r _ _ hI hr; simp only [elems, writeGKids, Option.some.injEq] at hr; subst hr; exact ⟨h, [], rfl, hI, rfl, rfl, trivial, rfl⟩
  | cons k ks ihl =>
    intro h R r hv hd hI hr
    simp only [elems, writeGKids, Option.bind_eq_some_iff, Option.map_eq_some_iff] at hr
    obtain ⟨x, hx, r1, hr1, rfl⟩ := hr
    simp only [ValidL] at hv
    simp only [depthL] at hd
    simp only [blocksL, add_assoc] at hI
    obtain ⟨h1, t1, e1, i1, n1, a1, _, v1, el1⟩ := ih k lvl h _ x.1 x.2 hv.1 (by omega) hI hx
    obtain ⟨h2, ks', e2, i2, n2, a2, v2, el2⟩ := ihl h1 (t1.blocks + R) r1 hv.2 (by omega) (i1.congr (by abel)) hr1
    refine ⟨h2, t1 :: ks', ?_, i2.congr (by simp only [blocksL]; abel), by omega, by simp [a1, a2], ⟨v1, v2⟩, by simp [elems, el1, el2]⟩
    simp only [List.map_cons, writeEach, e1, e2, Option.bind_eq_bind, Option.bind_some]

theorem writeEachNamed_ok {st : Style} {n : Nat} (ih : WritesAt st n) (lvl : Nat) : ∀ (zs : List Entry) (h : Heap) (R : Blocks), (∀ z ∈ zs, Entry.Ok st lvl z) → (∀ z ∈ zs, z.1.Valid) → (∀ z ∈ zs, z.1.depth ≤ n) →
    Is h (blocksL (zs.map Prod.fst) + R) → ∃ (h' : Heap) (ks' : List HT), writeEachNamed (writeN st n lvl) h ((zs.map Prod.fst).map HT.root) = some (zs.map fun z => (z.2.1, z.2.2.1), h') ∧ Is h' (blocksL ks' + R) ∧ h'.next = h.next ∧
      ks'.map HT.root = (zs.map Prod.fst).map HT.root ∧ ValidL ks' ∧ elems ks' = zs.map fun z => z.2.2.2 := by
  intro zs
  induction zs with
  | nil => intro h R _ _ _ hI; exact ⟨h, [], rfl, hI, rfl, rfl, trivial, rfl⟩
  | cons z zs ihl =>
    intro h R ho hv hd hI
    simp only [List.map_cons, blocksL, add_assoc] at hI
    have hz := ho z (by simp)
    obtain ⟨h1, t1, e1, i1, n1, a1, _, v1, el1⟩ := ih z.1 lvl h _ z.2.2.1 z.2.2.2 (hv z (by simp)) (hd z (by simp)) hI hz.2
    obtain ⟨h2, ks', e2, i2, n2, a2, v2, el2⟩ := ihl h1 (t1.blocks + R) (fun z hz => ho z (by simp [hz])) (fun z hz => hv z (by simp [hz])) (fun z hz => hd z (by simp [hz])) (i1.congr (by abel))
    refine ⟨h2, t1 :: ks', ?_, i2.congr (by simp only [blocksL]; abel), by omega, by simp only [List.map_cons, a1, a2], ⟨v1, v2⟩, by simp [elems, el1, el2]⟩
    simp only [List.map_cons, writeEachNamed, nameOf_ok (hI.has sub_left) hz.1, e1, e2, Option.bind_eq_bind, Option.bind_some]

theorem writeN_ok (st : Style) : ∀ n, WritesAt st n := by
  intro n
  induction n with
  | zero =>
    intro t lvl h R text e' _ hd
    cases t <;> simp [HT.depth] at hd
  | succ n ih =>
    intro t lvl h R text e' hv hd hI hw
    have hg := (hI.has (m' := t.blocks) sub_left).elem
    cases t with
    | prim a nm t p b =>
      simp only [HT.elem, writeG, Option.some.injEq, Prod.mk.injEq] at hw
      obtain ⟨rfl, rfl⟩ := hw
      refine ⟨h, _, ?_, hI, rfl, rfl, rfl, hv, rfl⟩
      have hb : getStr h (textPtr p b) = some b := by
        cases p with
        | none => rfl
        | some q =>
          have := hI.has (m' := (HT.prim a nm t (some q) b).blocks) sub_left (q, .str b) (by simp [HT.blocks, strBlock])
          simp only [textPtr, getStr, this]
      simp only [HT.root, HT.body] at hg
      simp only [HT.root, writeN, hg, Option.bind_eq_bind, Option.bind_some, hb, Option.map_some]
    | cont a nm t s ks =>
      simp only [HT.root, HT.body] at hg
      simp only [HT.Valid] at hv
      simp only [HT.depth] at hd
      rw [cont_focus] at hI
      cases t with
      | array =>
        simp only [HT.elem, writeG, Option.bind_eq_some_iff, Option.some.injEq, Prod.mk.injEq] at hw
        obtain ⟨r, hr, rfl, rfl⟩ := hw
        obtain ⟨h', ks', e, i, nx, ar, v, el⟩ := writeEach_ok ih (lvl + 1) ks h ((s, .seq (ks.map HT.root)) ::ₘ ((a, .elem (nm.map (·.1)) (.cont .array s)) ::ₘ (strBlock nm + R))) r hv (by omega)
          (hI.congr (by simp only [Multiset.add_cons])) hr
        refine ⟨h', .cont a nm .array s ks', ?_, ?_, nx, rfl, rfl, v, by simp only [HT.elem, el]⟩
        · simp only [HT.root, writeN, hg, getSeq_ok hI, e, Option.bind_eq_bind, Option.bind_some]
        · rw [cont_focus, ar]
          exact i.congr (by simp only [Multiset.add_cons])
      | object =>
        simp only [HT.elem, writeG, Option.bind_eq_some_iff, Option.some.injEq, Prod.mk.injEq] at hw
        obtain ⟨r, hr, r', hr', rfl, rfl⟩ := hw
        obtain ⟨zs, rfl, rfl, ho⟩ := entries_of st (lvl + 1) ks r hr
        obtain ⟨h1, zs', e1, hp, rfl, i1, n1⟩ := sortChildren_ok st (lvl + 1) zs ho r' hr' hI
        have hsub : ∀ z ∈ zs', z ∈ zs := fun z hz => hp.mem_iff.mp hz
        obtain ⟨h', ks', e, i, nx, ar, v, el⟩ := writeEachNamed_ok ih (lvl + 1) zs' h1 ((s, .seq ((zs'.map Prod.fst).map HT.root)) ::ₘ ((a, .elem (nm.map (·.1)) (.cont .object s)) ::ₘ (strBlock nm + R)))
          (fun z hz => ho z (hsub z hz)) (fun z hz => (validL_iff _).mp hv _ (List.mem_map_of_mem (hsub z hz))) (fun z hz => depthL_le.mp (show depthL _ ≤ n by omega) _ (List.mem_map_of_mem (hsub z hz)))
          (i1.congr (by simp only [Multiset.add_cons]))
        refine ⟨h', .cont a nm .object s ks', ?_, ?_, by omega, rfl, rfl, v, ?_⟩
        · simp only [HT.root, writeN, hg, e1, getSeq_ok i1, e, Option.bind_eq_bind, Option.bind_some]
          simp only [List.map_map]
          rfl
        · rw [cont_focus, ar]
          exact i.congr (by simp only [Multiset.add_cons])
        · simp only [HT.elem, el, List.map_map]
          rfl

theorem jsonWrite_ok {t : HT} {lvl : Nat} {h : Heap} {R : Blocks} {text : Bytes} {e' : Elem} (hv : t.Valid) (hI : Is h (t.blocks + R)) (hw : Json.jsonWrite lvl t.elem = some (text, e')) :
    ∃ (h' : Heap) (t' : HT), jsonWrite h t.root lvl = some (text, h') ∧ Is h' (t'.blocks + R) ∧ t'.root = t.root ∧ t'.Valid ∧ t'.elem = e' := by
  have hg := (hI.has (m' := t.blocks) sub_left).elem
  have hd := hI.depth_le
  cases t with
  | prim a nm t p b =>
    obtain ⟨h', t', e, i, _, a1, _, v, el⟩ := writeN_ok pretty (h.next + 1) _ lvl h R (primText t b) (.prim (nm.map (·.2)) t b) hv (by omega) hI (by simp only [HT.elem, writeG])
    simp only [HT.elem, Json.jsonWrite, Option.some.injEq, Prod.mk.injEq] at hw
    obtain ⟨rfl, rfl⟩ := hw
    refine ⟨h', t', ?_, i, a1, v, el⟩
    simp only [HT.body] at hg
    simp only [jsonWrite, hg, e, Option.bind_eq_bind, Option.bind_some]
  | cont a nm t s ks =>
    obtain ⟨h', t', e, i, _, a1, _, v, el⟩ := writeN_ok pretty (h.next + 1) _ lvl h R text e' hv (by omega) hI (by rw [writeG_pretty]; exact hw)
    refine ⟨h', t', ?_, i, a1, v, el⟩
    simp only [HT.body] at hg
    simp only [jsonWrite, hg, e, Option.bind_eq_bind, Option.bind_some]

theorem jsonWriteCompact_ok {t : HT} {h : Heap} {R : Blocks} {text : Bytes} {e' : Elem} (hv : t.Valid) (hI : Is h (t.blocks + R)) (hw : Json.writeCompact t.elem = some (text, e')) :
    ∃ (h' : Heap) (t' : HT), jsonWriteCompact h t.root = some (text, h') ∧ Is h' (t'.blocks + R) ∧ t'.root = t.root ∧ t'.Valid ∧ t'.elem = e' := by
  have hd := hI.depth_le
  obtain ⟨h', t', e, i, _, a1, _, v, el⟩ := writeN_ok compact (h.next + 1) _ 0 h R text e' hv (by omega) hI (by rw [writeG_compact]; exact hw)
  exact ⟨h', t', e, i, a1, v, el⟩

end JsonHeap
