import Verif.Lemmas.JsonWriteHeap
import Verif.Lemmas.JsonNamed
/-! # C189: writing documents in memory -/
namespace JsonWriteHeap
open Json JsonHeap JsonHeapSpec JsonWriteSpec

/-! ## What writing does to a value -/

theorem names_of (st : Style) (lvl : Nat) : (e : Elem) → ∀ r, writeG st lvl e = some r → r.2.name = e.name
  | .prim .., r, h => by simp only [writeG, Option.some.injEq] at h; subst h; rfl
  | .cont _ .array _, r, h => by
    simp only [writeG, Option.bind_eq_some_iff, Option.some.injEq] at h
    obtain ⟨_, _, rfl⟩ := h; rfl
  | .cont _ .object _, r, h => by
    simp only [writeG, Option.bind_eq_some_iff, Option.some.injEq] at h
    obtain ⟨_, _, _, _, rfl⟩ := h; rfl

theorem named_names (st : Style) (lvl : Nat) : ∀ (es : List Elem) (r : List (Bytes × Bytes × Elem)), writeGNamed st lvl es = some r → ∀ x ∈ r, x.2.2.name = some x.1 := by
  intro es
  induction es with
  | nil => intro r h x hx; simp only [writeGNamed, Option.some.injEq] at h; subst h; simp at hx
  | cons e es ih =>
    intro r h x hx
    simp only [writeGNamed, Option.bind_eq_some_iff, Option.map_eq_some_iff] at h
    obtain ⟨k, hk, y, hy, r', hr', rfl⟩ := h
    rcases List.mem_cons.mp hx with rfl | hx
    · exact (names_of st lvl e y hy).trans hk
    · exact ih r' hr' x hx

mutual
theorem sorts_of (st : Style) : (e : Elem) → ∀ lvl r, writeG st lvl e = some r → Sorts e r.2
  | .prim .., lvl, r, h => by simp only [writeG, Option.some.injEq] at h; subst h; exact .prim ..
  | .cont n .array ks, lvl, r, h => by
    simp only [writeG, Option.bind_eq_some_iff, Option.some.injEq] at h
    obtain ⟨q, hq, rfl⟩ := h
    exact .array n (sortsAll_of st ks _ q hq)
  | .cont n .object ks, lvl, r, h => by
    simp only [writeG, Option.bind_eq_some_iff, Option.some.injEq] at h
    obtain ⟨q, hq, q', hq', rfl⟩ := h
    obtain ⟨l', e, hp, hs⟩ := sortKids_spec q
    rw [hq'] at e
    cases e
    refine .object n (sortsNamed_of st ks _ q hq) (hp.map _) ?_
    rw [List.pairwise_map]
    have hn := named_names st _ ks q hq
    refine List.Pairwise.imp_of_mem (R := fun a b => nameCompare a b ≤ 0) ?_ hs
    intro a b ha hb hab x y hx hy
    rw [hn a (hp.mem_iff.mp ha)] at hx
    rw [hn b (hp.mem_iff.mp hb)] at hy
    cases hx; cases hy
    exact hab
theorem sortsAll_of (st : Style) : (es : List Elem) → ∀ lvl r, writeGKids st lvl es = some r → SortsAll es (r.map Prod.snd)
  | [], lvl, r, h => by simp only [writeGKids, Option.some.injEq] at h; subst h; exact .nil
  | e :: es, lvl, r, h => by
    simp only [writeGKids, Option.bind_eq_some_iff, Option.map_eq_some_iff] at h
    obtain ⟨x, hx, r', hr', rfl⟩ := h
    exact .cons (sorts_of st e _ x hx) (sortsAll_of st es _ r' hr')
theorem sortsNamed_of (st : Style) : (es : List Elem) → ∀ lvl r, writeGNamed st lvl es = some r → SortsAll es (r.map fun x => x.2.2)
  | [], lvl, r, h => by simp only [writeGNamed, Option.some.injEq] at h; subst h; exact .nil
  | e :: es, lvl, r, h => by
    simp only [writeGNamed, Option.bind_eq_some_iff, Option.map_eq_some_iff] at h
    obtain ⟨k, _, x, hx, r', hr', rfl⟩ := h
    exact .cons (sorts_of st e _ x hx) (sortsNamed_of st es _ r' hr')
end

mutual
theorem writes_of (st : Style) : (e : Elem) → ∀ lvl, Named e → ∃ r, writeG st lvl e = some r
  | .prim .., lvl, _ => by simp only [writeG]; exact ⟨_, rfl⟩
  | .cont n .array ks, lvl, h => by
    obtain ⟨q, hq⟩ := (writesAll_of st ks (lvl + 1) h).1
    simp only [writeG, hq, Option.bind_some]; exact ⟨_, rfl⟩
  | .cont n .object ks, lvl, h => by
    obtain ⟨q, hq⟩ := (writesAll_of st ks (lvl + 1) h.1).2 h.2
    obtain ⟨l', e, _⟩ := sortKids_spec q
    simp only [writeG, hq, e, Option.bind_some]; exact ⟨_, rfl⟩
theorem writesAll_of (st : Style) : (es : List Elem) → ∀ lvl, NamedAll es → (∃ r, writeGKids st lvl es = some r) ∧ ((∀ k ∈ es, k.name ≠ none) → ∃ r, writeGNamed st lvl es = some r)
  | [], lvl, _ => ⟨⟨[], by simp only [writeGKids]⟩, fun _ => ⟨[], by simp only [writeGNamed]⟩⟩
  | e :: es, lvl, h => by
    obtain ⟨x, hx⟩ := writes_of st e lvl h.1
    obtain ⟨⟨r, hr⟩, hn⟩ := writesAll_of st es lvl h.2
    refine ⟨⟨x :: r, by simp only [writeGKids, hx, hr, Option.bind_some, Option.map_some]⟩, fun hk => ?_⟩
    obtain ⟨r', hr'⟩ := hn fun k hm => hk k (List.mem_cons_of_mem _ hm)
    obtain ⟨n, he⟩ := Option.ne_none_iff_exists'.mp (hk e (by simp))
    simp only [writeGNamed, he, hx, hr', Option.bind_some, Option.map_some]; exact ⟨_, rfl⟩
end

theorem jsonWrite_snd {lvl : Nat} {e : Elem} {r : Bytes × Elem} (h : Json.jsonWrite lvl e = some r) : ∃ q, writeG pretty lvl e = some q ∧ r.2 = q.2 := by
  cases e with
  | prim n t v =>
    simp only [Json.jsonWrite, Option.some.injEq] at h
    subst h
    exact ⟨(primText t v, .prim n t v), by simp only [writeG], rfl⟩
  | cont n t ks => exact ⟨r, by rw [writeG_pretty]; exact h, rfl⟩

/-- Writing changes a document only in the order of the members of its objects, which is the order of their names then, in both formats; and it succeeds whenever every member of an object has a name. -/
theorem C189_written_document_is_sorted (e : Elem) (lvl : Nat) :
    (∀ text e', Json.jsonWrite lvl e = some (text, e') → Sorts e e') ∧ (∀ text e', Json.writeCompact e = some (text, e') → Sorts e e') ∧
    (Named e → (Json.jsonWrite lvl e).isSome = true ∧ (Json.writeCompact e).isSome = true) := by
  refine ⟨fun text e' h => ?_, fun text e' h => ?_, fun h => ⟨?_, ?_⟩⟩
  · obtain ⟨q, hq, he⟩ := jsonWrite_snd h
    have := sorts_of pretty e lvl q hq
    rw [← he] at this
    exact this
  · exact sorts_of compact e 0 (text, e') (by rw [writeG_compact]; exact h)
  · cases e with
    | prim => rfl
    | cont n t ks =>
      obtain ⟨r, hr⟩ := writes_of pretty _ lvl h
      rw [writeG_pretty] at hr
      simp only [Json.jsonWrite, hr, Option.isSome_some]
  · obtain ⟨r, hr⟩ := writes_of compact _ 0 h
    rw [writeG_compact] at hr
    rw [hr]; rfl

/-! ## Programs -/

theorem call_ok (rt : RealText) {st : State} {vs vs' : Vals} {ts : List (Option HT)} (hr : Rel st vs ts) (c : Call) (out : Option Bytes) (hs : valueCall rt vs c = some (out, vs')) :
    ∃ st' ts', call rt st c = some (out, st') ∧ Rel st' vs' ts' := by
  cases c with
  | api c =>
    simp only [valueCall, Option.map_eq_some_iff, Prod.mk.injEq] at hs
    obtain ⟨v, hv, rfl, rfl⟩ := hs
    obtain ⟨st', ts', e, r⟩ := step_ok rt hr c hv
    exact ⟨st', ts', by simp only [call, e, Option.map_some], r⟩
  | write x lvl =>
    simp only [valueCall, Option.bind_eq_some_iff, Option.map_eq_some_iff, Prod.mk.injEq] at hs
    obtain ⟨e, he, r, hw, v, hu, rfl, rfl⟩ := hs
    obtain ⟨u, C, e1, hp, hf, huv, hb, hval, hrest⟩ := hr.target hu
    rw [he] at hval
    cases hval
    cases hf
    obtain ⟨h', t', e2, i, a1, v1, el⟩ := jsonWrite_ok (lvl := lvl) huv (hr.is.congr hb) hw
    obtain ⟨ts', _, hrel⟩ := hrest t' a1 el v1
    exact ⟨_, ts', by simp only [call, hp, e2, Option.bind_some, Option.map_some], hrel h' i⟩
  | writeCompact x =>
    simp only [valueCall, Option.bind_eq_some_iff, Option.map_eq_some_iff, Prod.mk.injEq] at hs
    obtain ⟨e, he, r, hw, v, hu, rfl, rfl⟩ := hs
    obtain ⟨u, C, e1, hp, hf, huv, hb, hval, hrest⟩ := hr.target hu
    rw [he] at hval
    cases hval
    cases hf
    obtain ⟨h', t', e2, i, a1, v1, el⟩ := jsonWriteCompact_ok huv (hr.is.congr hb) hw
    obtain ⟨ts', _, hrel⟩ := hrest t' a1 el v1
    exact ⟨_, ts', by simp only [call, hp, e2, Option.bind_some, Option.map_some], hrel h' i⟩

theorem run_ok (rt : RealText) : ∀ (cs : List Call) (st : State) (vs vs' : Vals) (ts : List (Option HT)) (out : List (Option Bytes)), Rel st vs ts → JsonWriteSpec.runValues rt cs vs = some (out, vs') →
    ∃ st' ts', JsonWriteSpec.run rt cs st = some (out, st') ∧ Rel st' vs' ts' := by
  intro cs
  induction cs with
  | nil => intro st vs vs' ts out hr h; simp only [JsonWriteSpec.runValues, Option.some.injEq, Prod.mk.injEq] at h; obtain ⟨rfl, rfl⟩ := h; exact ⟨st, ts, rfl, hr⟩
  | cons c cs ih =>
    intro st vs vs' ts out hr h
    simp only [JsonWriteSpec.runValues, Option.bind_eq_some_iff, Option.map_eq_some_iff, Prod.mk.injEq] at h
    obtain ⟨⟨o, v⟩, hv, ⟨os, v'⟩, hv', rfl, rfl⟩ := h
    obtain ⟨st1, ts1, e1, r1⟩ := call_ok rt hr c o hv
    obtain ⟨st2, ts2, e2, r2⟩ := ih st1 v v' ts1 os r1 hv'
    exact ⟨st2, ts2, by simp only [JsonWriteSpec.run, e1, e2, Option.bind_some, Option.map_some], r2⟩

/-- Every program of C133 with writes of its elements (or of any element inside them) anywhere in between, that means something when elements are plain values: no call touches freed memory, the texts written are
those of the plain values, the elements it holds have the values the plain values have, and destroying what it still holds, in any order, leaves no block behind. -/
theorem C189_programs_that_write (rt : RealText) (cs : List Call) (out : List (Option Bytes)) (vs : Vals) (hv : JsonWriteSpec.runValues rt cs [] = some (out, vs)) :
    ∃ st, JsonWriteSpec.run rt cs start = some (out, st) ∧ st.vars.map (Option.map (view st.heap)) = vs.map (Option.map some) ∧
      ∀ order : List Nat, order.Perm (st.vars.filterMap id) → ∃ h, order.foldlM destroy st.heap = some h ∧ ∀ a, h.cell a = none := by
  have h0 : Rel start [] [] := ⟨rfl, rfl, by simp, Is.empty⟩
  obtain ⟨st, ts, e, r⟩ := run_ok rt cs start [] vs [] out h0 hv
  exact ⟨st, e, r.view, r.destroyAll⟩

/-- Characters as bytes. -/
def chars (s : String) : Bytes := s.toList.map fun c => UInt8.ofNat c.toNat

/-- {"b": [true], "a": 1} in an array, written, its copy destroyed, its "b" detached after the write, and written again. -/
def demo : List Call :=
  [.api .object, .api .array, .api (.bool true), .api (.append ⟨1, []⟩ 2), .api (.put ⟨0, []⟩ [98] 1), .api (.integer 1), .api (.put ⟨0, []⟩ [97] 3), .api .array, .api (.append ⟨4, []⟩ 0),
    .api (.copy ⟨4, []⟩), .writeCompact ⟨4, []⟩, .api (.destroy 5), .api (.detach ⟨4, [0]⟩ [98]), .write ⟨4, []⟩ 1, .writeCompact ⟨6, []⟩]

example : (JsonWriteSpec.runValues id demo []).map (fun r => r.1.drop 10) =
    some [some (chars "[{\"a\":1,\"b\":[true]}]"), none, none, some (chars "[\n    {\n      \"a\": 1\n    }\n  ]"), some (chars "[true]")] := by
  decide +kernel

theorem sorts_step {rt : RealText} {vs vs' : Vals} (h : AllRegular vs) {c : Call} {out : Option Bytes} (hs : valueCall rt vs c = some (out, vs')) : AllRegular vs' := by
  have go : ∀ (x : Target) (e e' : Elem), value vs x = some e → Sorts e e' → update vs x (fun _ => some e') = some vs' → AllRegular vs' := by
    intro x e e' he hse hu
    refine allRegular_update h (fun u hu hv => ?_) hu
    rw [he] at hv
    cases hv
    intro y hy
    cases hy
    exact ⟨sorts_regular _ _ hse hu, sorts_name hse⟩
  cases c with
  | api c =>
    simp only [valueCall, Option.map_eq_some_iff, Prod.mk.injEq] at hs
    obtain ⟨v, hv, _, rfl⟩ := hs
    exact allRegular_step rt h c hv
  | write x lvl =>
    simp only [valueCall, Option.bind_eq_some_iff, Option.map_eq_some_iff, Prod.mk.injEq] at hs
    obtain ⟨e, he, r, hw, v, hu, _, rfl⟩ := hs
    exact go x e r.2 he ((C189_written_document_is_sorted e lvl).1 r.1 r.2 hw) hu
  | writeCompact x =>
    simp only [valueCall, Option.bind_eq_some_iff, Option.map_eq_some_iff, Prod.mk.injEq] at hs
    obtain ⟨e, he, r, hw, v, hu, _, rfl⟩ := hs
    exact go x e r.2 he ((C189_written_document_is_sorted e 0).2.1 r.1 r.2 hw) hu

theorem run_regular {rt : RealText} : ∀ (cs : List Call) (vs vs' : Vals) (out : List (Option Bytes)), AllRegular vs → JsonWriteSpec.runValues rt cs vs = some (out, vs') → AllRegular vs' := by
  intro cs
  induction cs with
  | nil => intro vs vs' out h e; simp only [JsonWriteSpec.runValues, Option.some.injEq, Prod.mk.injEq] at e; exact e.2 ▸ h
  | cons c cs ih =>
    intro vs vs' out h e
    simp only [JsonWriteSpec.runValues, Option.bind_eq_some_iff, Option.map_eq_some_iff, Prod.mk.injEq] at e
    obtain ⟨⟨o, v⟩, hv, ⟨os, v'⟩, hv', _, rfl⟩ := e
    exact ih v v' os (sorts_step h hv) hv'

/-- After every program, everything it holds can be written, in both formats and at any level: the assertion that all members have names never fails. -/
theorem C189_writes_never_fail (rt : RealText) (cs : List Call) (out : List (Option Bytes)) (vs : Vals) (hv : JsonWriteSpec.runValues rt cs [] = some (out, vs)) (x : Target) (e : Elem) (hx : value vs x = some e) (lvl : Nat) :
    (∃ text vs', valueCall rt vs (.write x lvl) = some (some text, vs')) ∧ (∃ text vs', valueCall rt vs (.writeCompact x) = some (some text, vs')) := by
  have hn := named_of_regular _ <| allRegular_value (run_regular cs [] vs out (by simp [AllRegular]) hv) hx
  obtain ⟨h1, h2⟩ := (C189_written_document_is_sorted e lvl).2.2 hn
  obtain ⟨r1, h1⟩ := Option.isSome_iff_exists.mp h1
  obtain ⟨r2, h2⟩ := Option.isSome_iff_exists.mp h2
  have up : ∀ e', ∃ vs', update vs x (fun _ => some e') = some vs' := by
    intro e'
    have hx' := hx
    simp only [value] at hx'
    split at hx'
    · rename_i e0 h0
      obtain ⟨r, hr⟩ := modify_of_sub (e' := e') _ _ _ hx'
      exact ⟨_, by simp only [update, h0, hr, Option.map_some]; rfl⟩
    · cases hx'
  obtain ⟨v1, u1⟩ := up r1.2
  obtain ⟨v2, u2⟩ := up r2.2
  exact ⟨⟨r1.1, v1, by simp only [valueCall, hx, h1, u1, Option.bind_some, Option.map_some]⟩, ⟨r2.1, v2, by simp only [valueCall, hx, h2, u2, Option.bind_some, Option.map_some]⟩⟩

/-! ## Memory -/

theorem onlyOrder_refl (h : Heap) : OnlyOrder h h := ⟨rfl, fun _ => .inl rfl⟩

theorem onlyOrder_trans {a b c : Heap} (h1 : OnlyOrder a b) (h2 : OnlyOrder b c) : OnlyOrder a c := by
  refine ⟨h2.1.trans h1.1, fun x => ?_⟩
  rcases h1.2 x with e1 | ⟨xs, ys, e1, e2, p⟩
  · rcases h2.2 x with e3 | ⟨us, ws, e3, e4, q⟩
    · exact .inl (e3.trans e1)
    · exact .inr ⟨us, ws, by rw [← e1]; exact e3, e4, q⟩
  · rcases h2.2 x with e3 | ⟨us, ws, e3, e4, q⟩
    · exact .inr ⟨xs, ys, e1, by rw [e3]; exact e2, p⟩
    · rw [e2] at e3
      cases e3
      exact .inr ⟨xs, ws, e1, e4, q.trans p⟩

theorem named_snd {h : Heap} : ∀ (xs : List Nat) (nx : List (Bytes × Nat)), named h xs = some nx → nx.map Prod.snd = xs := by
  intro xs
  induction xs with
  | nil => intro nx e; simp only [named, Option.some.injEq] at e; subst e; rfl
  | cons x xs ih =>
    intro nx e
    simp only [named, Option.bind_eq_some_iff, Option.map_eq_some_iff] at e
    obtain ⟨k, _, r, hr, rfl⟩ := e
    simp [ih r hr]

theorem pairCmp_order : SeqSpec.TotalPreorder fun a b : Bytes × Nat => Str.cmpSign id a.1 b.1 :=
  ⟨fun a => nameCompare_order.refl (a.1, [], .prim none .null []), fun a b => nameCompare_order.swap (a.1, [], .prim none .null []) (b.1, [], .prim none .null []),
    fun a b c => nameCompare_order.trans (a.1, [], .prim none .null []) (b.1, [], .prim none .null []) (c.1, [], .prim none .null [])⟩

theorem sortChildren_only {h h' : Heap} {s : Nat} (e : sortChildren h s = some h') : OnlyOrder h h' := by
  simp only [sortChildren, Option.bind_eq_bind, Option.bind_eq_some_iff] at e
  obtain ⟨xs, hx, nx, hn, q, hq, ys, hy, hst⟩ := e
  obtain ⟨l', e', hp, _⟩ := Seqn.sorted_spec pairCmp_order nx
  rw [Seqn.sorted, hq, Option.bind_some, hy] at e'
  cases e'
  simp only [store, Option.map_eq_some_iff] at hst
  obtain ⟨c, hc, rfl⟩ := hst
  refine ⟨rfl, fun a => ?_⟩
  by_cases ha : a = s
  · subst ha
    right
    refine ⟨xs, ys.map Prod.snd, ?_, by simp, ?_⟩
    · simp only [getSeq] at hx
      split at hx
      · rename_i z hz; cases hx; exact hz
      · cases hx
    · rw [← named_snd xs nx hn]; exact hp.map _
  · left; simp [ha]

theorem writeEach_only {w : Heap → Nat → Option (Bytes × Heap)} (hw : ∀ h x r, w h x = some r → OnlyOrder h r.2) : ∀ (xs : List Nat) (h : Heap) r, writeEach w h xs = some r → OnlyOrder h r.2 := by
  intro xs
  induction xs with
  | nil => intro h r e; simp only [writeEach, Option.some.injEq] at e; subst e; exact onlyOrder_refl h
  | cons x xs ih =>
    intro h r e
    simp only [writeEach, Option.bind_eq_bind, Option.bind_eq_some_iff, Option.some.injEq] at e
    obtain ⟨y, hy, z, hz, rfl⟩ := e
    exact onlyOrder_trans (hw _ _ _ hy) (ih _ z hz)

theorem writeEachNamed_only {w : Heap → Nat → Option (Bytes × Heap)} (hw : ∀ h x r, w h x = some r → OnlyOrder h r.2) : ∀ (xs : List Nat) (h : Heap) r, writeEachNamed w h xs = some r → OnlyOrder h r.2 := by
  intro xs
  induction xs with
  | nil => intro h r e; simp only [writeEachNamed, Option.some.injEq] at e; subst e; exact onlyOrder_refl h
  | cons x xs ih =>
    intro h r e
    simp only [writeEachNamed, Option.bind_eq_bind, Option.bind_eq_some_iff, Option.some.injEq] at e
    obtain ⟨k, _, y, hy, z, hz, rfl⟩ := e
    exact onlyOrder_trans (hw _ _ _ hy) (ih _ z hz)

theorem writeN_only (st : Style) : ∀ (n lvl : Nat) (h : Heap) (e : Nat) r, writeN st n lvl h e = some r → OnlyOrder h r.2 := by
  intro n
  induction n with
  | zero => intro lvl h e r hr; simp [writeN] at hr
  | succ n ih =>
    intro lvl h e r hr
    simp only [writeN, Option.bind_eq_bind, Option.bind_eq_some_iff] at hr
    obtain ⟨⟨nm, b⟩, hg, hr⟩ := hr
    match b, hr with
    | .prim t v, hr =>
      simp only [Option.map_eq_some_iff] at hr
      obtain ⟨_, _, rfl⟩ := hr
      exact onlyOrder_refl h
    | .cont .array s, hr =>
      simp only [Option.bind_eq_some_iff, Option.some.injEq] at hr
      obtain ⟨xs, _, q, hq, rfl⟩ := hr
      exact writeEach_only (fun h x r => ih _ h x r) xs h q hq
    | .cont .object s, hr =>
      simp only [Option.bind_eq_some_iff, Option.some.injEq] at hr
      obtain ⟨h1, h1e, xs, _, q, hq, rfl⟩ := hr
      exact onlyOrder_trans (sortChildren_only h1e) (writeEachNamed_only (fun h x r => ih _ h x r) xs h1 q hq)

/-- Whatever is in memory: a write that returns has allocated and freed nothing, and has changed nothing but the order of the pointers in arrays of children: no name, text, type or set of children. -/
theorem C189_writes_only_reorder (h : Heap) (e lvl : Nat) :
    (∀ r, JsonHeap.jsonWrite h e lvl = some r → OnlyOrder h r.2) ∧ (∀ r, JsonHeap.jsonWriteCompact h e = some r → OnlyOrder h r.2) := by
  refine ⟨fun r hr => ?_, fun r hr => writeN_only compact _ _ _ _ _ hr⟩
  simp only [JsonHeap.jsonWrite, Option.bind_eq_bind, Option.bind_eq_some_iff] at hr
  obtain ⟨⟨nm, b⟩, _, q, hq, hr⟩ := hr
  have := writeN_only pretty _ _ _ _ _ hq
  cases b with
  | prim => simp only [Option.some.injEq] at hr; subst hr; exact this
  | cont => simp only [Option.some.injEq] at hr; subst hr; exact this

/-! ## Findings -/

/-- {"b": 1, "a": 2}. -/
def twoMembers : List Call := [.api .object, .api (.integer 1), .api (.put ⟨0, []⟩ [98] 1), .api (.integer 2), .api (.put ⟨0, []⟩ [97] 2)]

def nameAt (r : Option (List (Option Bytes) × State)) (i : Nat) : Option Bytes := r.bind fun r => (pointer r.2 ⟨0, [i]⟩).bind fun a => nameOf r.2.heap a

/-- Writing takes a `const` element but reorders it: a loop over the members by index (as `JsonIteratorNextValue` does) that writes the object at its first step (for a log message, say) sees "b" twice and "a" never. -/
theorem C189_write_leaves_order_negated :
    nameAt (JsonWriteSpec.run id twoMembers start) 0 = some [98] ∧ nameAt (JsonWriteSpec.run id twoMembers start) 1 = some [97] ∧
    nameAt (JsonWriteSpec.run id (twoMembers ++ [.writeCompact ⟨0, []⟩]) start) 1 = some [98] := by
  decide +kernel

end JsonWriteHeap
