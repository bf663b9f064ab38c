import Verif.Lemmas.JsonWriteOwn
import Verif.Props.JsonWriteHeap
/-! # C190: threads that write the same document -/
namespace JsonWriteThreads
open Json JsonHeap JsonHeapSpec JsonThreadSpec JsonWriteHeap
open JsonWriteSpec (Call Sorts SortsAll Regular valueCall)

/-! ## What has been written once is in order -/

theorem distinct_order {ks : List Elem} (hn : (ks.map Elem.name).Nodup) (hs : ks.Pairwise fun a b => ∀ x y, a.name = some x → b.name = some y → Str.cmpSign id x y ≤ 0) :
    ks.Pairwise fun a b => ∀ x y, a.name = some x → b.name = some y → Str.cmpSign id x y < 0 := by
  rw [List.nodup_iff_pairwise_ne, List.pairwise_map] at hn
  refine (hn.and hs).imp ?_
  intro a b h x y hx hy
  have h1 := h.2 x y hx hy
  have h2 : Str.cmpSign id x y ≠ 0 := by
    intro h0
    rw [cmp_zero] at h0
    subst h0
    exact h.1 (hx.trans hy.symm)
  omega

mutual
theorem canon_sorts : (e e' : Elem) → Sorts e e' → Regular e → Canon e'
  | .prim .., _, h, _ => by cases h; trivial
  | .cont n .array ks, _, h, hr => by
    cases h with
    | array _ hs =>
      simp only [Canon, canonAll_iff]
      exact canon_sortsAll _ _ hs (regular_array.mp hr)
  | .cont n .object ks, _, h, hr => by
    have hr' := sorts_regular _ _ h hr
    cases h with
    | object _ hs hp ho =>
      have hm := regular_object.mp hr'
      have hk := canon_sortsAll _ _ hs fun k hk => ((regular_object.mp hr).1 k hk).1
      simp only [Canon, canonAll_iff]
      exact ⟨fun k hm' => hk k (hp.mem_iff.mp hm'), fun k hk => (hm.1 k hk).2, distinct_order hm.2 ho⟩
theorem canon_sortsAll : (ks ks' : List Elem) → SortsAll ks ks' → (∀ k ∈ ks, Regular k) → ∀ k ∈ ks', Canon k
  | [], _, h, _ => by cases h; simp
  | k :: ks, _, h, hr => by
    cases h with
    | cons h1 h2 =>
      intro x hx
      rcases List.mem_cons.mp hx with rfl | hx
      · exact canon_sorts _ _ h1 (hr _ (by simp))
      · exact canon_sortsAll _ _ h2 (fun y hy => hr y (List.mem_cons_of_mem _ hy)) x hx
end

theorem canon_sub : ∀ (p : List Nat) (e e' : Elem), Canon e → sub e p = some e' → Canon e' := by
  intro p
  induction p with
  | nil => intro e e' h hs; simp only [sub, Option.some.injEq] at hs; exact hs ▸ h
  | cons i p ih =>
    intro e e' h hs
    cases e with
    | prim => simp [sub] at hs
    | cont n t ks =>
      simp only [sub, Option.bind_eq_some_iff] at hs
      obtain ⟨k, hk, hs⟩ := hs
      refine ih k e' ?_ hs
      cases t with
      | array => simp only [Canon, canonAll_iff] at h; exact h k (List.mem_of_getElem? hk)
      | object => simp only [Canon, canonAll_iff] at h; exact h.1 k (List.mem_of_getElem? hk)

theorem sub_modify {e1 : Elem} : ∀ (p : List Nat) (e e' : Elem), modifyAt (fun _ => some e1) e p = some e' → sub e' p = some e1 := by
  intro p
  induction p with
  | nil => intro e e' h; simp only [modifyAt, Option.some.injEq] at h; subst h; rfl
  | cons i p ih =>
    intro e e' h
    cases e with
    | prim => simp [modifyAt] at h
    | cont n t ks =>
      simp only [modifyAt, Option.bind_eq_some_iff, Option.map_eq_some_iff] at h
      obtain ⟨k, hk, k', hk', rfl⟩ := h
      obtain ⟨hl, _⟩ := List.getElem?_eq_some_iff.mp hk
      simp only [sub, List.getElem?_set_self hl, Option.bind_some, ih k k' hk']

theorem sub_append : ∀ (p q : List Nat) (e : Elem), sub e (p ++ q) = (sub e p).bind fun x => sub x q := by
  intro p
  induction p with
  | nil => intro q e; simp [sub]
  | cons i p ih =>
    intro q e
    cases e with
    | prim => simp [sub]
    | cont n t ks =>
      simp only [List.cons_append, sub]
      cases ks[i]? with
      | none => rfl
      | some k => simp only [Option.bind_some, ih]

theorem value_update {vs vs' : Vals} {x : Target} {e1 : Elem} (h : update vs x (fun _ => some e1) = some vs') (q : List Nat) : value vs' ⟨x.var, x.path ++ q⟩ = sub e1 q := by
  unfold update at h
  split at h
  · rename_i e0 h0
    simp only [Option.map_eq_some_iff] at h
    obtain ⟨e2, he, rfl⟩ := h
    obtain ⟨hl, _⟩ := List.getElem?_eq_some_iff.mp h0
    simp only [value, List.getElem?_set_self hl, sub_append, sub_modify _ _ _ he, Option.bind_some]
  · cases h

/-- What has been written once, and every part of it, is in order, after every program. -/
theorem C190_written_is_in_order (rt : RealText) (cs : List Call) (out : List (Option Bytes)) (vs : Vals) (hv : JsonWriteSpec.runValues rt cs [] = some (out, vs)) (x : Target) (c : Call)
    (hc : c = .writeCompact x ∨ ∃ lvl, c = .write x lvl) (text : Option Bytes) (vs' : Vals) (hw : valueCall rt vs c = some (text, vs')) (q : List Nat) (e : Elem) (he : value vs' ⟨x.var, x.path ++ q⟩ = some e) : Canon e := by
  have hr := run_regular cs [] vs out (by simp [AllRegular]) hv
  have go : ∀ (u u' : Elem), value vs x = some u → Sorts u u' → update vs x (fun _ => some u') = some vs' → Canon e := by
    intro u u' h1 h2 h3
    rw [value_update h3 q] at he
    exact canon_sub q u' e (canon_sorts u u' h2 (allRegular_value hr h1)) he
  rcases hc with rfl | ⟨lvl, rfl⟩
  · simp only [valueCall, Option.bind_eq_some_iff, Option.map_eq_some_iff, Prod.mk.injEq] at hw
    obtain ⟨u, hu, r, hr, v, hup, _, rfl⟩ := hw
    exact go u r.2 hu ((C189_written_document_is_sorted u 0).2.1 r.1 r.2 hr) hup
  · simp only [valueCall, Option.bind_eq_some_iff, Option.map_eq_some_iff, Prod.mk.injEq] at hw
    obtain ⟨u, hu, r, hr, v, hup, _, rfl⟩ := hw
    exact go u r.2 hu ((C189_written_document_is_sorted u lvl).1 r.1 r.2 hr) hup

/-! ## Threads -/

theorem job_ok {st : State} {vs : Vals} {ts : List (Option HT)} (hr : Rel st vs ts) (j : Job) (e : Elem) (hx : value vs j.target = some e) (hc : Canon e) :
    ∃ a text, pointer st j.target = some a ∧ j.text e = some text ∧ Calm st.heap (j.prog st a) text := by
  obtain ⟨u, C, hp, rfl, hb⟩ := hr.value hx
  have hI := hr.is.congr hb
  have hd := hI.depth_le
  have hH : Has st.heap u.blocks := hI.has sub_left
  cases j with
  | writeCompact x =>
    obtain ⟨text, h1, h2⟩ := writeP_ok compact (st.heap.next + 1) u 0 st.heap (by omega) hH hc
    refine ⟨u.root, text, hp, ?_, h1⟩
    rw [writeG_compact] at h2
    simp only [Job.text, h2, Option.map_some]
  | write x lvl =>
    obtain ⟨text, h1, h2⟩ := writeP_ok pretty (st.heap.next + 1) u lvl st.heap (by omega) hH hc
    have h0 : st.heap.cell u.root = some (.elem (u.nm.map (·.1)) u.body) := by
      have := hH
      rw [HT.blocks_eq, has_cons] at this; exact this.1
    cases u with
    | cont a nm t s ks =>
      refine ⟨_, text, hp, ?_, .cell h0 (by simp) h1⟩
      rw [writeG_pretty] at h2
      simp only [Job.text, HT.elem, Json.jsonWrite]
      simp only [HT.elem] at h2
      rw [h2, Option.map_some]
    | prim a nm t p b =>
      refine ⟨_, indent lvl ++ primText t b, hp, rfl, .cell h0 (by simp) ?_⟩
      refine Calm.bind (a := b) ?_ (.ret _)
      cases p with
      | none => exact .ret b
      | some q =>
        have := hH (q, .str b) (by simp [HT.blocks, strBlock])
        exact .cell this (by simp) (.ret b)

theorem jobs_ok {st : State} {vs : Vals} {ts : List (Option HT)} (hr : Rel st vs ts) : ∀ (jobs : List Job), (∀ j ∈ jobs, ∃ e, value vs j.target = some e ∧ Canon e) →
    ∃ (ps : List (Prog Bytes)) (texts : List Bytes) (ns : List Nat), threads st jobs = some ps ∧ ps.length = texts.length ∧ ps.length = ns.length ∧
      (∀ (i : Nat) (j : Job) (t : Bytes), jobs[i]? = some j → texts[i]? = some t → ∃ e, value vs j.target = some e ∧ j.text e = some t) ∧ texts.length = jobs.length ∧
      ∀ (i : Nat) (p : Prog Bytes) (r : Bytes) (n : Nat), ps[i]? = some p → texts[i]? = some r → ns[i]? = some n → Quiet st.heap p r n := by
  intro jobs
  induction jobs with
  | nil => intro _; exact ⟨[], [], [], rfl, rfl, rfl, by simp, rfl, by simp⟩
  | cons j jobs ih =>
    intro h
    obtain ⟨e, he, hc⟩ := h j (by simp)
    obtain ⟨a, text, h1, h2, ⟨n, h3⟩⟩ := job_ok hr j e he hc
    obtain ⟨ps, texts, ns, g1, g2, g3, g4, g5, g6⟩ := ih fun k hk => h k (by simp [hk])
    refine ⟨j.prog st a :: ps, text :: texts, n :: ns, ?_, by simp [g2], by simp [g3], ?_, by simp [g5], ?_⟩
    · simp only [threads, List.mapM_cons, h1, Option.map_some, Option.bind_eq_bind, Option.bind_some]
      simp only [threads] at g1
      rw [g1]; rfl
    · intro i k t hk ht
      cases i with
      | zero => simp only [List.getElem?_cons_zero, Option.some.injEq] at hk ht; subst hk; subst ht; exact ⟨e, he, h2⟩
      | succ i => exact g4 i k t (by simpa using hk) (by simpa using ht)
    · intro i p r m hp hr hm
      cases i with
      | zero => simp only [List.getElem?_cons_zero, Option.some.injEq] at hp hr hm; subst hp; subst hr; subst hm; exact h3
      | succ i => exact g6 i p r m (by simpa using hp) (by simpa using hr) (by simpa using hm)

/-- After every program, any number of threads may write, at the same time, elements whose objects are in order (as after a write, C190_written_is_in_order): whatever the order of their steps, nothing undefined happens and memory stays
exactly as it is at every moment; and each thread ends after a number of its own steps that no other thread can change, with the text that the plain value has. -/
theorem C190_threads_write_at_the_same_time (rt : RealText) (cs : List Call) (out : List (Option Bytes)) (vs : Vals) (hv : JsonWriteSpec.runValues rt cs [] = some (out, vs)) (jobs : List Job)
    (hj : ∀ j ∈ jobs, ∃ e, value vs j.target = some e ∧ Canon e) :
    ∃ st ps, JsonWriteSpec.run rt cs start = some (out, st) ∧ threads st jobs = some ps ∧ ∃ steps : List Nat, steps.length = jobs.length ∧ ∀ sched : List Nat, ∃ ps', runThreads sched st.heap ps = some (st.heap, ps') ∧
      ∀ (i : Nat) (j : Job) (n : Nat), jobs[i]? = some j → steps[i]? = some n → ∃ e text, value vs j.target = some e ∧ j.text e = some text ∧ (n ≤ sched.count i → ps'[i]? = some (.ret text)) ∧ ∀ t, ps'[i]? = some (.ret t) → t = text := by
  have h0 : Rel start [] [] := ⟨rfl, rfl, by simp, Is.empty⟩
  obtain ⟨st, ts, e, r⟩ := JsonWriteHeap.run_ok rt cs start [] vs [] out h0 hv
  obtain ⟨ps, texts, ns, g1, g2, g3, g4, g5, g6⟩ := jobs_ok r jobs hj
  refine ⟨st, ps, e, g1, ns, by omega, fun sched => ?_⟩
  obtain ⟨ps', e', hl, hq⟩ := runThreads_ok st.heap sched ps texts ns g2 g3 g6
  refine ⟨ps', e', fun i j n hij hn => ?_⟩
  have hi : i < jobs.length := (List.getElem?_eq_some_iff.mp hij).1
  have ht : texts[i]? = some (texts[i]'(by omega)) := by simp
  have hp : ps'[i]? = some (ps'[i]'(by omega)) := by simp
  obtain ⟨v, hv1, hv2⟩ := g4 i j _ hij ht
  have q := hq i _ _ n hp ht hn
  refine ⟨v, _, hv1, hv2, fun hc => ?_, fun t h => ?_⟩
  · rw [hp, quiet_done q (by omega)]
  · rw [hp] at h
    simp only [Option.some.injEq] at h
    rw [h] at q
    exact quiet_ret q

theorem job_writes {vs : Vals} (hr : AllRegular vs) (j : Job) {e : Elem} (he : value vs j.target = some e) : ∃ text, j.text e = some text := by
  have hn := named_of_regular e (allRegular_value hr he)
  cases j with
  | write x lvl => obtain ⟨q, hq⟩ := Option.isSome_iff_exists.mp ((C189_written_document_is_sorted e lvl).2.2 hn).1; exact ⟨q.1, by simp only [Job.text, hq, Option.map_some]⟩
  | writeCompact x => obtain ⟨q, hq⟩ := Option.isSome_iff_exists.mp ((C189_written_document_is_sorted e 0).2.2 hn).2; exact ⟨q.1, by simp only [Job.text, hq, Option.map_some]⟩

theorem jobs_good {st : State} {vs : Vals} {ts : List (Option HT)} (hr : Rel st vs ts) (hreg : AllRegular vs) : ∀ (jobs : List Job), (∀ j ∈ jobs, ∃ e, value vs j.target = some e) →
    ∃ ths : List Th, threads st jobs = some (ths.map Th.p) ∧ List.Forall₂ (Good st ts) jobs ths := by
  intro jobs
  induction jobs with
  | nil => intro _; exact ⟨[], rfl, .nil⟩
  | cons j jobs ih =>
    intro h
    obtain ⟨e, he⟩ := h j (by simp)
    obtain ⟨u, hu, rfl⟩ := Rel.located hr he
    obtain ⟨text, ht⟩ := job_writes hreg j he
    obtain ⟨x, hg, hp, hx, _⟩ := good_of hr j hu ht
    obtain ⟨ths, e1, e2⟩ := ih fun k hk => h k (by simp [hk])
    refine ⟨x :: ths, ?_, .cons hg e2⟩
    simp only [threads] at e1
    simp only [threads, List.mapM_cons, hp, Option.map_some, Option.bind_eq_bind, Option.bind_some, e1, List.map_cons, hx]
    rfl

theorem value_located {st : State} {vs : Vals} {ts : List (Option HT)} (hr : Rel st vs ts) {x : Target} {u : HT} (hu : Located ts x u) : value vs x = some u.elem := by
  obtain ⟨t, ht, hat⟩ := hu
  simp only [value, hr.vals, List.getElem?_map, ht, Option.map_some]
  exact sub_of_at x.path t u hat

/-- After every program, any number of threads may write at the same time, for the first time or not, provided that of each two elements neither is (inside) the other, or both are in order. Whatever the order of their steps, nothing undefined
happens; each thread ends after a number of its own steps that no other thread can change, with the text of the plain value; and when all have ended, memory is exactly what the same calls made one after the other leave, and the texts are theirs. -/
theorem C190_threads_write_apart (rt : RealText) (cs : List Call) (out : List (Option Bytes)) (vs : Vals) (hv : JsonWriteSpec.runValues rt cs [] = some (out, vs)) (jobs : List Job)
    (hj : ∀ j ∈ jobs, ∃ e, value vs j.target = some e)
    (hp : ∀ (i k : Nat) (a b : Job), i ≠ k → jobs[i]? = some a → jobs[k]? = some b → Apart a.target b.target ∨ ((∀ e, value vs a.target = some e → Canon e) ∧ ∀ e, value vs b.target = some e → Canon e)) :
    ∃ (st : State) (ps : List (Prog Bytes)) (texts : List Bytes) (st' : State), JsonWriteSpec.run rt cs start = some (out, st) ∧ threads st jobs = some ps ∧ JsonWriteSpec.run rt (jobs.map Job.call) st = some (texts.map some, st') ∧
      (∀ (i : Nat) (j : Job), jobs[i]? = some j → ∃ e t, value vs j.target = some e ∧ j.text e = some t ∧ texts[i]? = some t) ∧
      ∃ steps : List Nat, steps.length = jobs.length ∧ ∀ sched : List Nat, ∃ h ps', runThreads sched st.heap ps = some (h, ps') ∧
        (∀ (i : Nat) (t : Bytes) (n : Nat), texts[i]? = some t → steps[i]? = some n → (n ≤ sched.count i → ps'[i]? = some (.ret t)) ∧ ∀ t', ps'[i]? = some (.ret t') → t' = t) ∧
        ((∀ (i n : Nat), steps[i]? = some n → n ≤ sched.count i) → h = st'.heap) := by
  have h0 : Rel start [] [] := ⟨rfl, rfl, by simp, Is.empty⟩
  have hreg := run_regular cs [] vs out (by simp [AllRegular]) hv
  obtain ⟨st, ts, e, r⟩ := JsonWriteHeap.run_ok rt cs start [] vs [] out h0 hv
  obtain ⟨ths, g1, g2⟩ := jobs_good r hreg jobs hj
  have hpairs : PairsOk jobs ths := by
    intro i k a b x y hik ha hb hx hy
    rcases hp i k a b hik ha hb with h | ⟨h1, h2⟩
    · exact .inl h
    · obtain ⟨a', ha', u, hu, _, _, _, hs, _⟩ := forall2_at g2 hx
      obtain ⟨b', hb', w, hw, _, _, _, hs', _⟩ := forall2_at g2 hy
      rw [ha] at ha'; cases ha'
      rw [hb] at hb'; cases hb'
      exact .inr ⟨hs.mpr (h1 _ (value_located r hu)), hs'.mpr (h2 _ (value_located r hw))⟩
  obtain ⟨st', e2, hend⟩ := in_turn rt jobs ths st vs ts r g2 hpairs
  have hok : ∀ x ∈ ths, x.Ok ∧ Part x.g st.heap := by
    intro x hx
    obtain ⟨i, hi⟩ := List.getElem?_of_mem hx
    obtain ⟨_, _, hg⟩ := forall2_at g2 hi
    exact good_part hg
  have hlen := g2.length_eq
  refine ⟨st, ths.map Th.p, ths.map Th.r, st', e, g1, by rw [e2, List.map_map]; rfl, fun i j hij => ?_, ths.map Th.n, by simp [hlen], fun sched => ?_⟩
  · have hi : i < ths.length := by rw [← hlen]; exact (List.getElem?_eq_some_iff.mp hij).1
    obtain ⟨j', hj', u, hu, _, _, ht, _⟩ := forall2_at g2 (List.getElem?_eq_getElem hi)
    rw [hij] at hj'; cases hj'
    exact ⟨u.elem, ths[i].r, value_located r hu, ht, by simp [hi]⟩
  · obtain ⟨h, ps', e3, h1, h2⟩ := runApart_end (sched := sched) (H := st.heap) (fun x hx => (hok x hx).1) (fun x hx => (hok x hx).2) (all_apart r g2 hpairs)
    refine ⟨h, ps', e3, fun i t n ht hn => ?_, fun hall => ?_⟩
    · simp only [List.getElem?_map, Option.map_eq_some_iff] at ht hn
      obtain ⟨x, hx, rfl⟩ := ht
      obtain ⟨y, hy, rfl⟩ := hn
      rw [hx] at hy; cases hy
      exact h1 i x hx
    · exact AtEnd.unique (fun x hx => (hok x hx).1) (h2 fun i x hx => hall i x.n (by rw [List.getElem?_map, hx]; rfl)) hend

theorem runValues_snoc (rt : RealText) (c : Call) : ∀ (cs : List Call) (vs : Vals), JsonWriteSpec.runValues rt (cs ++ [c]) vs =
    (JsonWriteSpec.runValues rt cs vs).bind fun r => (valueCall rt r.2 c).map fun q => (r.1 ++ [q.1], q.2) := by
  intro cs
  induction cs with
  | nil =>
    intro vs
    simp only [List.nil_append, JsonWriteSpec.runValues, Option.bind_some]
    cases valueCall rt vs c <;> rfl
  | cons d cs ih =>
    intro vs
    simp only [List.cons_append, JsonWriteSpec.runValues]
    cases hd : valueCall rt vs d with
    | none => rfl
    | some r =>
      simp only [Option.bind_some, ih]
      cases JsonWriteSpec.runValues rt cs r.2 with
      | none => rfl
      | some q =>
        simp only [Option.bind_some, Option.map_some]
        cases valueCall rt q.2 c <;> simp

/-- {"b": [{"d": 1, "c": null}], "a": "x"}, written once. -/
def writtenOnce : List Call :=
  [.api .object, .api .array, .api .object, .api (.integer 1), .api (.put ⟨2, []⟩ [100] 3), .api .null, .api (.put ⟨2, []⟩ [99] 4), .api (.append ⟨1, []⟩ 2), .api (.put ⟨0, []⟩ [98] 1), .api (.string [120]),
    .api (.put ⟨0, []⟩ [97] 5), .writeCompact ⟨0, []⟩]

/-- Two threads write the whole, in different formats, a third a part. -/
def threeJobs : List Job := [.write ⟨0, []⟩ 0, .writeCompact ⟨0, []⟩, .writeCompact ⟨0, [1]⟩]

example : ∃ out vs, JsonWriteSpec.runValues id writtenOnce [] = some (out, vs) ∧ (∀ j ∈ threeJobs, ∃ e, value vs j.target = some e ∧ Canon e) ∧
    (threeJobs.mapM fun j => (value vs j.target).bind (Job.text · j)).map (·.drop 1) = some [chars "{\"a\":\"x\",\"b\":[{\"c\":null,\"d\":1}]}", chars "[{\"c\":null,\"d\":1}]"] := by
  obtain ⟨⟨out, vs⟩, h⟩ := Option.isSome_iff_exists.mp (show (JsonWriteSpec.runValues id writtenOnce []).isSome = true by decide +kernel)
  obtain ⟨⟨o, vs0⟩, h0⟩ := Option.isSome_iff_exists.mp (show (JsonWriteSpec.runValues id (writtenOnce.take 11) []).isSome = true by decide +kernel)
  obtain ⟨⟨t, vs1⟩, h1⟩ := Option.isSome_iff_exists.mp (show ((JsonWriteSpec.runValues id (writtenOnce.take 11) []).bind fun r => valueCall id r.2 (.writeCompact ⟨0, []⟩)).isSome = true by decide +kernel)
  rw [h0, Option.bind_some] at h1
  have hvs : vs1 = vs := by
    have e := runValues_snoc id (.writeCompact ⟨0, []⟩) (writtenOnce.take 11) []
    rw [h0, Option.bind_some, h1, Option.map_some] at e
    have e2 : writtenOnce.take 11 ++ [.writeCompact ⟨0, []⟩] = writtenOnce := rfl
    rw [e2, h] at e
    simp only [Option.some.injEq, Prod.mk.injEq] at e
    exact e.2.symm
  subst hvs
  have hin := C190_written_is_in_order id (writtenOnce.take 11) o vs0 h0 ⟨0, []⟩ (.writeCompact ⟨0, []⟩) (.inl rfl) t vs1 h1
  have hsome : ∀ p, ((JsonWriteSpec.runValues id writtenOnce []).bind fun r => value r.2 ⟨0, p⟩).isSome = true → ∃ e, value vs1 ⟨0, p⟩ = some e ∧ Canon e := by
    intro p hp
    rw [h, Option.bind_some] at hp
    obtain ⟨e, he⟩ := Option.isSome_iff_exists.mp hp
    exact ⟨e, he, hin p e he⟩
  refine ⟨out, vs1, h, ?_, ?_⟩
  · intro j hj
    simp only [threeJobs, List.mem_cons, List.not_mem_nil, or_false] at hj
    rcases hj with rfl | rfl | rfl
    · exact hsome [] (by decide +kernel)
    · exact hsome [] (by decide +kernel)
    · exact hsome [1] (by decide +kernel)
  · have : ((JsonWriteSpec.runValues id writtenOnce []).bind fun r => (threeJobs.mapM fun j => (value r.2 j.target).bind (Job.text · j)).map (·.drop 1)) = some [chars "{\"a\":\"x\",\"b\":[{\"c\":null,\"d\":1}]}", chars "[{\"c\":null,\"d\":1}]"] := by
      decide +kernel
    rw [h, Option.bind_some] at this
    exact this

/-- [{"b": null, "a": 1}, {"d": null, "c": 1}], not written before. -/
def notWritten : List Call :=
  [.api .array, .api .object, .api .null, .api (.put ⟨1, []⟩ [98] 2), .api (.integer 1), .api (.put ⟨1, []⟩ [97] 3), .api .object, .api .null, .api (.put ⟨4, []⟩ [100] 5), .api (.integer 1), .api (.put ⟨4, []⟩ [99] 6),
    .api (.append ⟨0, []⟩ 1), .api (.append ⟨0, []⟩ 4)]

/-- One thread for each of the objects in it. -/
def twoJobs : List Job := [.writeCompact ⟨0, [0]⟩, .writeCompact ⟨0, [1]⟩]

/-- The threads may start on objects that are not in order; each sorts its own. -/
example : (∃ out vs, JsonWriteSpec.runValues id notWritten [] = some (out, vs) ∧ ∀ j ∈ twoJobs, ∃ e, value vs j.target = some e) ∧
    (∀ (i k : Nat) (a b : Job), i ≠ k → twoJobs[i]? = some a → twoJobs[k]? = some b → Apart a.target b.target) ∧
    ((JsonWriteSpec.runValues id notWritten []).bind fun r => twoJobs.mapM fun j => (value r.2 j.target).bind (Job.text · j)) = some [chars "{\"a\":1,\"b\":null}", chars "{\"c\":1,\"d\":null}"] := by
  refine ⟨?_, ?_, by decide +kernel⟩
  · obtain ⟨⟨out, vs⟩, h⟩ := Option.isSome_iff_exists.mp (show (JsonWriteSpec.runValues id notWritten []).isSome = true by decide +kernel)
    have hs : ∀ p, ((JsonWriteSpec.runValues id notWritten []).bind fun r => value r.2 ⟨0, p⟩).isSome = true → ∃ e, value vs ⟨0, p⟩ = some e := by
      intro p hp
      rw [h, Option.bind_some] at hp
      exact Option.isSome_iff_exists.mp hp
    refine ⟨out, vs, h, fun j hj => ?_⟩
    simp only [twoJobs, List.mem_cons, List.not_mem_nil, or_false] at hj
    rcases hj with rfl | rfl
    · exact hs [0] (by decide +kernel)
    · exact hs [1] (by decide +kernel)
  · intro i k a b hik ha hb
    have hab : (a = .writeCompact ⟨0, [0]⟩ ∧ b = .writeCompact ⟨0, [1]⟩) ∨ (a = .writeCompact ⟨0, [1]⟩ ∧ b = .writeCompact ⟨0, [0]⟩) := by
      rcases i with _ | _ | i <;> rcases k with _ | _ | k <;> simp [twoJobs] at ha hb hik ⊢ <;> subst ha <;> subst hb <;> simp
    rcases hab with ⟨rfl, rfl⟩ | ⟨rfl, rfl⟩
    · exact .inr ⟨by decide, by decide⟩
    · exact .inr ⟨by decide, by decide⟩

/-! ## Findings -/

/-- The pointers to the children of variable 0 after threads that write it, and what destroying it does then. -/
def outcome (jobs : List Job) (sched : List Nat) : Option (List Nat × Bool) :=
  (JsonWriteSpec.run id twoMembers start).bind fun r => (threads r.2 jobs).bind fun ps => (runThreads sched r.2.heap ps).bind fun q =>
    (pointer r.2 ⟨0, []⟩).bind fun a => (container q.1 a).map fun c => (c.2, (destroy q.1 a).isSome)

/-- A new document {"b": 1, "a": 2}, not written before: two threads that write it at the same time, and both come to their end, leave "b" in it twice and "a" nowhere, so that destroying it frees memory twice. One after the other they do not. -/
theorem C190_first_writes_negated :
    outcome [.writeCompact ⟨0, []⟩, .writeCompact ⟨0, []⟩] (List.replicate 60 0 ++ List.replicate 60 1) = some ([6, 3], true) ∧
    outcome [.writeCompact ⟨0, []⟩, .writeCompact ⟨0, []⟩] (List.replicate 14 0 ++ List.replicate 60 1 ++ List.replicate 60 0) = some ([3, 3], false) := by
  decide +kernel

/-- Three threads that write a new document for the first time, with steps in this order: is something undefined done? -/
def undefined (sched : List Nat) : Option Bool :=
  (JsonWriteSpec.run id twoMembers start).bind fun r => (threads r.2 [.writeCompact ⟨0, []⟩, .writeCompact ⟨0, []⟩, .writeCompact ⟨0, []⟩]).map fun ps => (runThreads sched r.2.heap ps).isNone

/-- Three threads that write it for the first time: one of them reads outside the array of children. One after the other they do not. -/
theorem C190_three_first_writes_negated :
    undefined (List.replicate 3 0 ++ List.replicate 14 1 ++ List.replicate 60 2 ++ List.replicate 60 1 ++ List.replicate 60 0) = some true ∧
    undefined (List.replicate 60 0 ++ List.replicate 60 1 ++ List.replicate 60 2) = some false := by
  decide +kernel

end JsonWriteThreads
