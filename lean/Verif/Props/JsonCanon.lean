import Verif.Props.JsonWrite
/-! # JSON: the text written depends on the document only -/
open JsonSpec Json SeqSpec

namespace Json
variable {okS okK okI okR : Bytes → Prop}

theorem members_iff {ks : List Elem} (hn : (keys ks).Nodup) (k : Bytes) (d : Doc) : members ks k = some d ↔ ∃ e ∈ ks, e.name = some k ∧ doc e = d := by
  induction ks with
  | nil => simp [members]
  | cons e ks ih =>
    rw [keys, List.map_cons, List.nodup_cons] at hn
    simp only [members]
    by_cases h : e.name = some k
    · rw [if_pos h]
      constructor
      · intro e'; exact ⟨e, by simp, h, by simpa using e'⟩
      · rintro ⟨x, hx, h1, h2⟩
        rcases List.mem_cons.1 hx with rfl | hx
        · rw [h2]
        · exact absurd (List.mem_map.2 ⟨x, hx, by rw [h1, h]⟩) hn.1
    · rw [if_neg h, ih hn.2]
      constructor
      · rintro ⟨x, hx, h1⟩; exact ⟨x, List.mem_cons_of_mem _ hx, h1⟩
      · rintro ⟨x, hx, h1⟩
        rcases List.mem_cons.1 hx with rfl | hx
        · exact absurd h1.1 h
        · exact ⟨x, hx, h1⟩

theorem pairs_perm {ks ls : List Elem} (hk : (keys ks).Nodup) (hl : (keys ls).Nodup) (hkn : ∀ k ∈ keys ks, ∃ n, k = some n) (hln : ∀ k ∈ keys ls, ∃ n, k = some n)
    (h : members ks = members ls) (T : Elem → Bytes) (hT : ∀ e ∈ ks, ∀ b ∈ ls, doc e = doc b → T e = T b) :
    (ks.map fun e => (e.name, T e)).Perm (ls.map fun e => (e.name, T e)) := by
  have nd : ∀ {l : List Elem}, (keys l).Nodup → (l.map fun e => (e.name, T e)).Nodup := by
    intro l hl
    rw [keys, List.nodup_iff_pairwise_ne, List.pairwise_map] at hl
    rw [List.nodup_iff_pairwise_ne, List.pairwise_map]
    exact hl.imp fun h e => h (congrArg Prod.fst e)
  rw [List.perm_ext_iff_of_nodup (nd hk) (nd hl)]
  rintro ⟨k, t⟩
  constructor
  · intro hm
    obtain ⟨e, he, heq⟩ := List.mem_map.1 hm
    obtain ⟨n, hn⟩ := hkn e.name (List.mem_map.2 ⟨e, he, rfl⟩)
    have := (members_iff hk n (doc e)).2 ⟨e, he, hn, rfl⟩
    rw [h] at this
    obtain ⟨b, hb, hb1, hb2⟩ := (members_iff hl n (doc e)).1 this
    refine List.mem_map.2 ⟨b, hb, ?_⟩
    rw [← heq, hb1, hn, hT e he b hb hb2.symm]
  · intro hm
    obtain ⟨b, hb, heq⟩ := List.mem_map.1 hm
    obtain ⟨n, hn⟩ := hln b.name (List.mem_map.2 ⟨b, hb, rfl⟩)
    have := (members_iff hl n (doc b)).2 ⟨b, hb, hn, rfl⟩
    rw [← h] at this
    obtain ⟨e, he, he1, he2⟩ := (members_iff hk n (doc b)).1 this
    refine List.mem_map.2 ⟨e, he, ?_⟩
    rw [← heq, he1, hn, hT e he b hb he2]

/-- Sorting makes permuted lists of pairs equal. -/
theorem sorted_eq {r s : List (Bytes × Bytes × Elem)} (hn : (r.map fun x => x.1).Nodup) (h : (r.map fun x => (x.1, x.2.1)).Perm (s.map fun x => (x.1, x.2.1))) :
    ∃ r' s', sortKids r = some r' ∧ sortKids s = some s' ∧ (r'.map fun x => (x.1, x.2.1)) = s'.map fun x => (x.1, x.2.1) := by
  obtain ⟨r', a1, a2, a3⟩ := sortKids_spec r
  obtain ⟨s', b1, b2, b3⟩ := sortKids_spec s
  refine ⟨r', s', a1, b1, ?_⟩
  have hp : (r'.map fun x => (x.1, x.2.1)).Perm (s'.map fun x => (x.1, x.2.1)) := (a2.map _).trans (h.trans (b2.map _).symm)
  refine List.Perm.eq_of_pairwise (le := fun x y => Str.cmpSign id x.1 y.1 ≤ 0) ?_ ?_ ?_ hp
  · rintro ⟨k, t⟩ ⟨k', t'⟩ h1 h2 h3 h4
    have hk : k = k' := by
      simp only at h3 h4
      rcases Str.cmpSign_spec id k k' with ⟨c, c'⟩ | ⟨_, c⟩ | ⟨c, _⟩
      · rcases Str.cmpSign_spec id k' k with ⟨d, d'⟩ | ⟨_, d⟩ | ⟨d, _⟩
        · exact absurd rfl (Str.less_irrefl (Str.less_trans c' d'))
        · simpa using d.symm
        · omega
      · simpa using c
      · omega
    subst hk
    have h2' : (k, t') ∈ r'.map fun x => (x.1, x.2.1) := hp.mem_iff.2 h2
    have hnd : ((r'.map fun x => (x.1, x.2.1)).map Prod.fst).Nodup := by
      rw [List.map_map]
      exact ((a2.map fun x => x.1).nodup_iff).2 hn
    rw [List.nodup_iff_pairwise_ne, List.pairwise_map] at hnd
    have key : ∀ {l : List (Bytes × Bytes)}, l.Pairwise (fun a b => a.1 ≠ b.1) → (k, t) ∈ l → (k, t') ∈ l → t = t' := by
      intro l hl
      induction hl with
      | nil => intro h; cases h
      | @cons a l h1 _ ih =>
        intro m1 m2
        rcases List.mem_cons.1 m1 with e1 | m1 <;> rcases List.mem_cons.1 m2 with e2 | m2
        · rw [← e1] at e2; simpa using e2.symm
        · exact absurd (by rw [← e1]) (h1 _ m2)
        · exact absurd (by rw [← e2]) (h1 _ m1)
        · exact ih m1 m2
    rw [key hnd h1 h2']
  · rw [List.pairwise_map]; exact a3
  · rw [List.pairwise_map]; exact b3

/-- The text of an element. -/
def textAt (lvl : Nat) (e : Elem) : Bytes := ((write lvl e).map Prod.fst).getD []
def textC (e : Elem) : Bytes := ((writeCompact e).map Prod.fst).getD []

theorem prim_text_eq {n n' : Option Bytes} {t t' : PType} {v w : Bytes} (ha : Valid okS okK okI okR (.prim n t v)) (hb : Valid okS okK okI okR (.prim n' t' w))
    (h : doc (.prim n t v) = doc (.prim n' t' w)) : primText t v = primText t' w := by
  cases t <;> cases t' <;> simp only [doc, Doc.string.injEq, Doc.integer.injEq, Doc.real.injEq, Doc.bool.injEq, reduceCtorEq] at h
  · rw [h]
  · rw [h]
  · rw [h]
  · rcases ha with rfl | rfl <;> rcases hb with rfl | rfl <;> first | rfl | simp at h
  · have ha : v = _ := ha
    have hb : w = _ := hb
    rw [ha, hb]

mutual
theorem write_total : ∀ (e : Elem) (lvl : Nat), Valid okS okK okI okR e → ∃ r, write lvl e = some r
  | .prim .., _, _ => ⟨_, rfl⟩
  | .cont n .array ks, lvl, h => by
    obtain ⟨r, e1, _⟩ := writeKids_total ks (lvl + 1) h
    exact ⟨_, by rw [write, e1, Option.bind_some]⟩
  | .cont n .object ks, lvl, h => by
    obtain ⟨r, e1, _⟩ := writeNamed_total ks (lvl + 1) h.1 (fun k hk => (h.2.2 k hk).imp fun _ h => h.1)
    obtain ⟨r', s1, _⟩ := sortKids_spec r
    exact ⟨_, by rw [write, e1, Option.bind_some, s1, Option.bind_some]⟩
theorem writeKids_total : ∀ (es : List Elem) (lvl : Nat), ValidAll okS okK okI okR es → ∃ r, writeKids lvl es = some r ∧ r.map Prod.fst = es.map (textAt lvl)
  | [], _, _ => ⟨[], rfl, rfl⟩
  | e :: es, lvl, h => by
    obtain ⟨x, a⟩ := write_total e lvl h.1
    obtain ⟨r, b, c⟩ := writeKids_total es lvl h.2
    exact ⟨x :: r, by rw [writeKids, a, Option.bind_some, b]; rfl, by rw [List.map_cons, List.map_cons, c, textAt, a]; rfl⟩
theorem writeNamed_total : ∀ (es : List Elem) (lvl : Nat), ValidAll okS okK okI okR es → (∀ k ∈ keys es, ∃ n, k = some n) →
    ∃ r, writeNamed lvl es = some r ∧ r.map (fun x => (some x.1, x.2.1)) = es.map (fun e => (e.name, textAt lvl e))
  | [], _, _, _ => ⟨[], rfl, rfl⟩
  | e :: es, lvl, h, hk => by
    obtain ⟨x, a⟩ := write_total e lvl h.1
    obtain ⟨k, k1⟩ := hk e.name (by simp [keys])
    obtain ⟨r, b, c⟩ := writeNamed_total es lvl h.2 (fun x hx => hk x (by rw [keys] at hx ⊢; exact List.mem_cons_of_mem _ hx))
    exact ⟨(k, x.1, x.2) :: r, by rw [writeNamed, k1, Option.bind_some, a, Option.bind_some, b]; rfl, by rw [List.map_cons, List.map_cons, c, textAt, a, k1]; rfl⟩
end

mutual
theorem compact_total : ∀ (e : Elem), Valid okS okK okI okR e → ∃ r, writeCompact e = some r
  | .prim .., _ => ⟨_, rfl⟩
  | .cont n .array ks, h => by
    obtain ⟨r, e1, _⟩ := compactKids_total ks h
    exact ⟨_, by rw [writeCompact, e1, Option.bind_some]⟩
  | .cont n .object ks, h => by
    obtain ⟨r, e1, _⟩ := compactNamed_total ks h.1 (fun k hk => (h.2.2 k hk).imp fun _ h => h.1)
    obtain ⟨r', s1, _⟩ := sortKids_spec r
    exact ⟨_, by rw [writeCompact, e1, Option.bind_some, s1, Option.bind_some]⟩
theorem compactKids_total : ∀ (es : List Elem), ValidAll okS okK okI okR es → ∃ r, writeCompactKids es = some r ∧ r.map Prod.fst = es.map textC
  | [], _ => ⟨[], rfl, rfl⟩
  | e :: es, h => by
    obtain ⟨x, a⟩ := compact_total e h.1
    obtain ⟨r, b, c⟩ := compactKids_total es h.2
    exact ⟨x :: r, by rw [writeCompactKids, a, Option.bind_some, b]; rfl, by rw [List.map_cons, List.map_cons, c, textC, a]; rfl⟩
theorem compactNamed_total : ∀ (es : List Elem), ValidAll okS okK okI okR es → (∀ k ∈ keys es, ∃ n, k = some n) →
    ∃ r, writeCompactNamed es = some r ∧ r.map (fun x => (some x.1, x.2.1)) = es.map (fun e => (e.name, textC e))
  | [], _, _ => ⟨[], rfl, rfl⟩
  | e :: es, h, hk => by
    obtain ⟨x, a⟩ := compact_total e h.1
    obtain ⟨k, k1⟩ := hk e.name (by simp [keys])
    obtain ⟨r, b, c⟩ := compactNamed_total es h.2 (fun x hx => hk x (by rw [keys] at hx ⊢; exact List.mem_cons_of_mem _ hx))
    exact ⟨(k, x.1, x.2) :: r, by rw [writeCompactNamed, k1, Option.bind_some, a, Option.bind_some, b]; rfl, by rw [List.map_cons, List.map_cons, c, textC, a, k1]; rfl⟩
end

theorem named_perm {r s : List (Bytes × Bytes × Elem)} {ks ls : List Elem} {T : Elem → Bytes} (hr : r.map (fun x => (some x.1, x.2.1)) = ks.map (fun e => (e.name, T e)))
    (hs : s.map (fun x => (some x.1, x.2.1)) = ls.map (fun e => (e.name, T e))) (hk : (keys ks).Nodup)
    (hp : (ks.map fun e => (e.name, T e)).Perm (ls.map fun e => (e.name, T e))) :
    (r.map fun x => x.1).Nodup ∧ (r.map fun x => (x.1, x.2.1)).Perm (s.map fun x => (x.1, x.2.1)) := by
  constructor
  · have : keys ks = r.map fun x => some x.1 := by
      have := congrArg (List.map Prod.fst) hr
      rw [List.map_map, List.map_map] at this
      exact this.symm
    rw [this, List.nodup_iff_pairwise_ne, List.pairwise_map] at hk
    rw [List.nodup_iff_pairwise_ne, List.pairwise_map]
    exact hk.imp fun h e => h (by rw [e])
  · rw [← hr, ← hs] at hp
    have := hp.map fun x : Option Bytes × Bytes => (x.1.getD [], x.2)
    simpa [Function.comp_def] using this

mutual
theorem write_canon : ∀ (a : Elem) (lvl : Nat) (b : Elem), Valid okS okK okI okR a → Valid okS okK okI okR b → doc a = doc b → textAt lvl a = textAt lvl b
  | .prim n t v, lvl, .prim n' t' w, ha, hb, h => by
    rw [textAt, textAt, write, write]; exact prim_text_eq ha hb h
  | .prim n t v, lvl, .cont n' t' w, ha, hb, h => by
    cases t <;> cases t' <;> simp [doc] at h
  | .cont n t v, lvl, .prim n' t' w, ha, hb, h => by
    cases t <;> cases t' <;> simp [doc] at h
  | .cont n .array ks, lvl, .cont n' t' ls, ha, hb, h => by
    cases t' with
    | object => simp [doc] at h
    | array =>
      rw [doc, doc, Doc.array.injEq] at h
      obtain ⟨r, a1, a2⟩ := writeKids_total ks (lvl + 1) ha
      obtain ⟨s, b1, b2⟩ := writeKids_total ls (lvl + 1) hb
      have hc := writeAll_canon ks (lvl + 1) ls ha hb h
      have he : r.map Prod.fst = s.map Prod.fst := by rw [a2, b2, hc]
      have hi : r.isEmpty = s.isEmpty := by
        have := congrArg List.isEmpty he
        simpa using this
      rw [textAt, textAt, write, write, a1, b1]
      simp only [Option.bind_some, Option.map_some, Option.getD_some, he, hi]
  | .cont n .object ks, lvl, .cont n' t' ls, ha, hb, h => by
    cases t' with
    | array => simp [doc] at h
    | object =>
      rw [doc, doc, Doc.object.injEq] at h
      obtain ⟨ha1, ha2, ha3⟩ := ha
      obtain ⟨hb1, hb2, hb3⟩ := hb
      have na : ∀ k ∈ keys ks, ∃ n, k = some n := fun k hk => (ha3 k hk).imp fun _ h => h.1
      have nb : ∀ k ∈ keys ls, ∃ n, k = some n := fun k hk => (hb3 k hk).imp fun _ h => h.1
      obtain ⟨r, a1, a2⟩ := writeNamed_total ks (lvl + 1) ha1 na
      obtain ⟨s, b1, b2⟩ := writeNamed_total ls (lvl + 1) hb1 nb
      have hp := pairs_perm ha2 hb2 na nb h (textAt (lvl + 1))
        (fun e he b hb d => writeEach_canon ks (lvl + 1) ha1 e he b ((validAll_iff ls).1 hb1 b hb) d)
      obtain ⟨p1, p2⟩ := named_perm a2 b2 ha2 hp
      obtain ⟨r', s', c1, c2, c3⟩ := sorted_eq p1 p2
      rw [textAt, textAt, write, write, a1, b1]
      simp only [Option.bind_some, c1, c2, Option.map_some, Option.getD_some, c3]
theorem writeAll_canon : ∀ (ks : List Elem) (lvl : Nat) (ls : List Elem), ValidAll okS okK okI okR ks → ValidAll okS okK okI okR ls → docs ks = docs ls →
    ks.map (textAt lvl) = ls.map (textAt lvl)
  | [], _, [], _, _, _ => rfl
  | [], _, _ :: _, _, _, h => by simp [docs] at h
  | _ :: _, _, [], _, _, h => by simp [docs] at h
  | a :: as, lvl, b :: bs, ha, hb, h => by
    rw [docs, docs, List.cons.injEq] at h
    rw [List.map_cons, List.map_cons, write_canon a lvl b ha.1 hb.1 h.1, writeAll_canon as lvl bs ha.2 hb.2 h.2]
theorem writeEach_canon : ∀ (ks : List Elem) (lvl : Nat), ValidAll okS okK okI okR ks → ∀ e ∈ ks, ∀ b, Valid okS okK okI okR b → doc e = doc b → textAt lvl e = textAt lvl b
  | [], _, _, _, h => by cases h
  | a :: as, lvl, ha, e, he => by
    intro b hb h
    by_cases hea : e = a
    · rw [hea] at h ⊢; exact write_canon a lvl b ha.1 hb h
    · exact writeEach_canon as lvl ha.2 e ((List.mem_cons.1 he).resolve_left hea) b hb h
end

mutual
theorem compact_canon : ∀ (a : Elem) (b : Elem), Valid okS okK okI okR a → Valid okS okK okI okR b → doc a = doc b → textC a = textC b
  | .prim n t v, .prim n' t' w, ha, hb, h => by
    rw [textC, textC, writeCompact, writeCompact]; exact prim_text_eq ha hb h
  | .prim n t v, .cont n' t' w, ha, hb, h => by
    cases t <;> cases t' <;> simp [doc] at h
  | .cont n t v, .prim n' t' w, ha, hb, h => by
    cases t <;> cases t' <;> simp [doc] at h
  | .cont n .array ks, .cont n' t' ls, ha, hb, h => by
    cases t' with
    | object => simp [doc] at h
    | array =>
      rw [doc, doc, Doc.array.injEq] at h
      obtain ⟨r, a1, a2⟩ := compactKids_total ks ha
      obtain ⟨s, b1, b2⟩ := compactKids_total ls hb
      have hc := compactAll_canon ks ls ha hb h
      have he : r.map Prod.fst = s.map Prod.fst := by rw [a2, b2, hc]
      have hi : r.isEmpty = s.isEmpty := by
        have := congrArg List.isEmpty he
        simpa using this
      rw [textC, textC, writeCompact, writeCompact, a1, b1]
      simp only [Option.bind_some, Option.map_some, Option.getD_some, he, hi]
  | .cont n .object ks, .cont n' t' ls, ha, hb, h => by
    cases t' with
    | array => simp [doc] at h
    | object =>
      rw [doc, doc, Doc.object.injEq] at h
      obtain ⟨ha1, ha2, ha3⟩ := ha
      obtain ⟨hb1, hb2, hb3⟩ := hb
      have na : ∀ k ∈ keys ks, ∃ n, k = some n := fun k hk => (ha3 k hk).imp fun _ h => h.1
      have nb : ∀ k ∈ keys ls, ∃ n, k = some n := fun k hk => (hb3 k hk).imp fun _ h => h.1
      obtain ⟨r, a1, a2⟩ := compactNamed_total ks ha1 na
      obtain ⟨s, b1, b2⟩ := compactNamed_total ls hb1 nb
      have hp := pairs_perm ha2 hb2 na nb h textC
        (fun e he b hb d => compactEach_canon ks ha1 e he b ((validAll_iff ls).1 hb1 b hb) d)
      obtain ⟨p1, p2⟩ := named_perm a2 b2 ha2 hp
      obtain ⟨r', s', c1, c2, c3⟩ := sorted_eq p1 p2
      rw [textC, textC, writeCompact, writeCompact, a1, b1]
      simp only [Option.bind_some, c1, c2, Option.map_some, Option.getD_some, c3]
theorem compactAll_canon : ∀ (ks ls : List Elem), ValidAll okS okK okI okR ks → ValidAll okS okK okI okR ls → docs ks = docs ls → ks.map textC = ls.map textC
  | [], [], _, _, _ => rfl
  | [], _ :: _, _, _, h => by simp [docs] at h
  | _ :: _, [], _, _, h => by simp [docs] at h
  | a :: as, b :: bs, ha, hb, h => by
    rw [docs, docs, List.cons.injEq] at h
    rw [List.map_cons, List.map_cons, compact_canon a b ha.1 hb.1 h.1, compactAll_canon as bs ha.2 hb.2 h.2]
theorem compactEach_canon : ∀ (ks : List Elem), ValidAll okS okK okI okR ks → ∀ e ∈ ks, ∀ b, Valid okS okK okI okR b → doc e = doc b → textC e = textC b
  | [], _, _, h => by cases h
  | a :: as, ha, e, he => by
    intro b hb h
    by_cases hea : e = a
    · rw [hea] at h ⊢; exact compact_canon a b ha.1 hb h
    · exact compactEach_canon as ha.2 e ((List.mem_cons.1 he).resolve_left hea) b hb h
end
end Json

/-- C73. Two elements with the same document, whatever the order in which their members were added, are written as the same text (indented or compact);
writing never fails. -/
theorem C73_same_document_same_text (a b : Elem) (lvl : Nat) (okS okK okI okR : Bytes → Prop) (ha : Valid okS okK okI okR a) (hb : Valid okS okK okI okR b)
    (h : doc a = doc b) :
    (∃ t a' b', Json.jsonWrite lvl a = some (t, a') ∧ Json.jsonWrite lvl b = some (t, b')) ∧
    (∃ t a' b', Json.writeCompact a = some (t, a') ∧ Json.writeCompact b = some (t, b')) := by
  constructor
  · obtain ⟨⟨t, a'⟩, e1⟩ := Json.write_total a lvl ha
    obtain ⟨⟨t', b'⟩, e2⟩ := Json.write_total b lvl hb
    have h1 := Json.write_canon a lvl b ha hb h
    rw [Json.textAt, Json.textAt, e1, e2] at h1
    have h1 : t = t' := h1
    subst h1
    cases a with
    | prim n u v => cases b with
      | prim n' u' w =>
        refine ⟨Json.indent lvl ++ Json.primText u v, _, .prim n' u' w, rfl, ?_⟩
        rw [Json.jsonWrite, Json.prim_text_eq ha hb h]
      | cont n' u' w => cases u <;> cases u' <;> simp [doc] at h
    | cont n u v => cases b with
      | prim n' u' w => cases u <;> cases u' <;> simp [doc] at h
      | cont n' u' w => exact ⟨t, a', b', e1, e2⟩
  · obtain ⟨⟨t, a'⟩, e1⟩ := Json.compact_total a ha
    obtain ⟨⟨t', b'⟩, e2⟩ := Json.compact_total b hb
    have h1 := Json.compact_canon a b ha hb h
    rw [Json.textC, Json.textC, e1, e2] at h1
    have h1 : t = t' := h1
    subst h1
    exact ⟨t, a', b', e1, e2⟩

example : ∃ a b : Elem, Valid (fun _ => True) (fun _ => True) (fun _ => True) (fun _ => True) a ∧ Valid (fun _ => True) (fun _ => True) (fun _ => True) (fun _ => True) b ∧
    a ≠ b ∧ doc a = doc b := by
  refine ⟨.cont none .object [.prim (some [98]) .integer [49], .prim (some [97]) .integer [50]],
    .cont none .object [.prim (some [97]) .integer [50], .prim (some [98]) .integer [49]], ?_, ?_, by simp, ?_⟩
  · simp [Valid, ValidAll, keys, Elem.name]
  · simp [Valid, ValidAll, keys, Elem.name]
  · rw [doc, doc]
    congr 1; funext k
    simp only [members, Elem.name, Option.some.injEq]
    by_cases h1 : [98] = k
    · subst h1; simp [doc]
    · by_cases h2 : [97] = k
      · subst h2; simp [doc]
      · simp [h1, h2]
