import Verif.Lemmas.JsonWriteTrees
/-! # Threads that write elements of which neither is inside the other -/
namespace JsonHeap
open Json JsonHeapSpec JsonThreadSpec
open JsonWriteSpec (call run)

/-- The function that a thread calls. -/
def Job.fn (h : Heap) (a : Nat) : Job → Option (Bytes × Heap)
  | .write _ lvl => JsonHeap.jsonWrite h a lvl
  | .writeCompact _ => JsonHeap.jsonWriteCompact h a

theorem call_fn (rt : RealText) {st : State} {j : Job} {a : Nat} {text : Bytes} {h' : Heap} (hp : pointer st j.target = some a) (hf : Job.fn st.heap a j = some (text, h')) : call rt st j.call = some (some text, ⟨h', st.vars⟩) := by
  cases j with
  | write x lvl => simp only [Job.target] at hp; simp only [Job.fn] at hf; simp only [Job.call, call, hp, Option.bind_some, hf, Option.map_some]
  | writeCompact x => simp only [Job.target] at hp; simp only [Job.fn] at hf; simp only [Job.call, call, hp, Option.bind_some, hf, Option.map_some]

/-- A thread alone does what the function does. -/
theorem job_alone (st : State) {g : Heap} {u : HT} {R : Blocks} (hn : st.heap.next = g.next) (hI : Is g (u.blocks + R)) (hv : u.Valid) (j : Job) {text : Bytes} (ht : j.text u.elem = some text) :
    ∃ (F : Heap) (u' : HT), Job.fn g u.root j = some (text, F) ∧ Does g (j.prog st u.root) text F ∧ Is F (u'.blocks + R) ∧ u'.root = u.root ∧ u'.Valid := by
  have hg := (hI.has (m' := u.blocks) sub_left).elem
  have hd := hI.depth_le
  cases j with
  | writeCompact x =>
    simp only [Job.text, Option.map_eq_some_iff] at ht
    obtain ⟨⟨_, e'⟩, hw, rfl⟩ := ht
    obtain ⟨F, u', e, i, r, v, _⟩ := jsonWriteCompact_ok hv hI hw
    refine ⟨F, u', e, ?_, i, r, v⟩
    simp only [Job.prog, jsonWriteCompactP, hn]
    exact writeP_does compact _ u 0 g R _ e' hv (by omega) hI (by rw [writeG_compact]; exact hw) _ F e
  | write x lvl =>
    simp only [Job.text, Option.map_eq_some_iff] at ht
    obtain ⟨⟨_, e'⟩, hw, rfl⟩ := ht
    obtain ⟨F, u', e, i, r, v, _⟩ := jsonWrite_ok (lvl := lvl) hv hI hw
    refine ⟨F, u', e, ?_, i, r, v⟩
    simp only [Job.prog, jsonWriteP, hn]
    refine .cell (elem_cell hg) (by simp) ?_
    simp only [jsonWrite, hg, Option.bind_eq_bind, Option.bind_some, Option.bind_eq_some_iff] at e
    obtain ⟨⟨x1, F1⟩, e1, e2⟩ := e
    cases u with
    | prim a nm t p b =>
      simp only [HT.body, Option.some.injEq, Prod.mk.injEq] at e2 hg ⊢
      simp only [writeN, hg, Option.bind_eq_bind, Option.bind_some, Option.map_eq_some_iff, Prod.mk.injEq] at e1
      obtain ⟨c, hc, rfl, rfl⟩ := e1
      obtain ⟨e2, rfl⟩ := e2
      rw [← e2]
      exact (textP_does hc).bind (.ret _ _)
    | cont a nm t s ks =>
      simp only [HT.body, Option.some.injEq, Prod.mk.injEq] at e2 ⊢
      obtain ⟨rfl, rfl⟩ := e2
      exact writeP_does pretty _ _ lvl g R x1 e' hv (by omega) hI (by rw [writeG_pretty]; exact hw) _ _ e1

/-- A thread that writes what is in order leaves memory as it is. -/
theorem job_calm (st : State) {g : Heap} {u : HT} (hH : Has g u.blocks) (hd : u.depth ≤ st.heap.next) (hc : Canon u.elem) (j : Job) : ∃ text, j.text u.elem = some text ∧ Calm g (j.prog st u.root) text := by
  cases j with
  | writeCompact x =>
    obtain ⟨text, h1, h2⟩ := writeP_ok compact (st.heap.next + 1) u 0 g (by omega) hH hc
    refine ⟨text, ?_, h1⟩
    rw [writeG_compact] at h2
    simp only [Job.text, h2, Option.map_some]
  | write x lvl =>
    obtain ⟨text, h1, h2⟩ := writeP_ok pretty (st.heap.next + 1) u lvl g (by omega) hH hc
    have h0 : g.cell u.root = some (.elem (u.nm.map (·.1)) u.body) := by
      have := hH
      rw [HT.blocks_eq, has_cons] at this; exact this.1
    cases u with
    | cont a nm t s ks =>
      refine ⟨text, ?_, .cell h0 (by simp) h1⟩
      rw [writeG_pretty] at h2
      simp only [Job.text, HT.elem, Json.jsonWrite]
      simp only [HT.elem] at h2
      rw [h2, Option.map_some]
    | prim a nm t p b =>
      refine ⟨indent lvl ++ primText t b, rfl, .cell h0 (by simp) ?_⟩
      refine Calm.bind (a := b) ?_ (.ret _)
      cases p with
      | none => exact .ret b
      | some q =>
        have := hH (q, .str b) (by simp [HT.blocks, strBlock])
        exact .cell this (by simp) (.ret b)

/-- A thread that writes the tree at its target in these variables. -/
def Good (st : State) (ts : List (Option HT)) (j : Job) (x : Th) : Prop :=
  ∃ u, Located ts j.target u ∧ x.g = restrict st.heap u.blocks ∧ x.p = j.prog st u.root ∧ j.text u.elem = some x.r ∧ (x.shared = true ↔ Canon u.elem) ∧ x.Ok

theorem located_le {ts : List (Option HT)} {x : Target} {u : HT} (hx : Located ts x u) : ∃ C, varBlocks ts = u.blocks + C := by
  obtain ⟨t, ht, hat⟩ := hx
  obtain ⟨_, C, c1, _⟩ := replace_ok x.path t u hat
  exact ⟨C + varBlocks (ts.set x.var none), by rw [(varBlocks_take ht).1, c1]; abel⟩

theorem good_of {st : State} {vs : Vals} {ts : List (Option HT)} (hr : Rel st vs ts) (j : Job) {u : HT} (hu : Located ts j.target u) {text : Bytes} (ht : j.text u.elem = some text) :
    ∃ x, Good st ts j x ∧ pointer st j.target = some u.root ∧ x.p = j.prog st u.root ∧ x.r = text := by
  obtain ⟨C, hC⟩ := located_le hu
  have hI := hr.is.congr hC
  obtain ⟨hp, hv⟩ := hr.at_pointer hu
  have hg := restrict_is hI
  by_cases hc : Canon u.elem
  · obtain ⟨text', ht', n, hq⟩ := job_calm st (g := restrict st.heap u.blocks) (fun q hq => (hg.mem q.1 q.2).mpr hq) hI.depth_le hc j
    rw [ht] at ht'
    cases ht'
    exact ⟨⟨restrict st.heap u.blocks, j.prog st u.root, text, restrict st.heap u.blocks, n, true⟩, ⟨u, hu, rfl, rfl, ht, by simp [hc], hq.ends, fun _ => hq⟩, hp, rfl, rfl⟩
  · obtain ⟨F, u', _, ⟨n, hn⟩, _⟩ := job_alone st (R := 0) (g := restrict st.heap u.blocks) rfl (by simpa using hg) hv j ht
    exact ⟨⟨restrict st.heap u.blocks, j.prog st u.root, text, F, n, false⟩, ⟨u, hu, rfl, rfl, ht, by simp [hc], hn, by simp⟩, hp, rfl, rfl⟩

/-- Each two apart, or both leaving memory as it is. -/
def PairsOk (jobs : List Job) (ths : List Th) : Prop := ∀ (i k : Nat) (a b : Job) (x y : Th), i ≠ k → jobs[i]? = some a → jobs[k]? = some b → ths[i]? = some x → ths[k]? = some y →
  JsonThreadSpec.Apart a.target b.target ∨ (x.shared = true ∧ y.shared = true)

theorem good_apart {st : State} {vs : Vals} {ts : List (Option HT)} (hr : Rel st vs ts) {a b : Job} {x y : Th} (hx : Good st ts a x) (hy : Good st ts b y) (h : JsonThreadSpec.Apart a.target b.target ∨ (x.shared = true ∧ y.shared = true)) : x.Apart y := by
  rcases h with h | h
  · obtain ⟨u, hu, e1, _⟩ := hx
    obtain ⟨w, hw, e2, _⟩ := hy
    left
    rw [e1, e2]
    exact restrict_apart hr.is (located_apart h hu hw)
  · exact .inr h

theorem forall2_at {α β : Type} {R : α → β → Prop} {l : List α} {r : List β} (h : List.Forall₂ R l r) : ∀ {i : Nat} {y : β}, r[i]? = some y → ∃ x, l[i]? = some x ∧ R x y := by
  induction h with
  | nil => intro i y hy; simp at hy
  | cons h1 _ ih =>
    intro i y hy
    cases i with
    | zero => simp only [List.getElem?_cons_zero, Option.some.injEq] at hy; subst hy; exact ⟨_, rfl, h1⟩
    | succ i => exact ih (by simpa using hy)

theorem all_apart {st : State} {vs : Vals} {ts : List (Option HT)} (hr : Rel st vs ts) {jobs : List Job} {ths : List Th} (hg : List.Forall₂ (Good st ts) jobs ths) (hp : PairsOk jobs ths) : AllApart ths := by
  intro i k x y hik hx hy
  obtain ⟨a, ha, ga⟩ := forall2_at hg hx
  obtain ⟨b, hb, gb⟩ := forall2_at hg hy
  exact good_apart hr ga gb (hp i k a b x y hik ha hb hx hy)

theorem good_part {st : State} {ts : List (Option HT)} {j : Job} {x : Th} (h : Good st ts j x) : x.Ok ∧ Part x.g st.heap := by
  obtain ⟨u, _, e, _, _, _, ho⟩ := h
  exact ⟨ho, e ▸ restrict_part _ _⟩

/-- One call, made alone. -/
theorem one_call (rt : RealText) {st : State} {vs : Vals} {ts : List (Option HT)} (hr : Rel st vs ts) {j : Job} {x : Th} (hg : Good st ts j x) : ∃ H1, call rt st j.call = some (some x.r, ⟨H1, st.vars⟩) ∧ Part x.F H1 ∧
    (∀ a, x.g.cell a = none → H1.cell a = st.heap.cell a) ∧ H1.next = st.heap.next ∧ (x.shared = true → H1 = st.heap) ∧
    ∃ vs' ts', Rel ⟨H1, st.vars⟩ vs' ts' ∧ ∀ (k : Job) (y : Th), (JsonThreadSpec.Apart j.target k.target ∨ (x.shared = true ∧ y.shared = true)) → Good st ts k y → Good ⟨H1, st.vars⟩ ts' k y := by
  have hpart := (good_part hg).2
  obtain ⟨u, hu, eg, ep, et, es, ho⟩ := hg
  obtain ⟨hp, hv⟩ := hr.at_pointer hu
  obtain ⟨C, c1, c2⟩ := Rel.replace hr hu
  obtain ⟨H1, u', e1, ⟨n, d1⟩, i1, r1, v1⟩ := job_alone st rfl (hr.is.congr c1) hv j et
  rw [← ep] at d1
  obtain ⟨H2, d2, p2, f2, n2⟩ := ho.1.frame hpart
  obtain ⟨_, rfl⟩ := d1.unique d2
  have hsame : x.shared = true → H1 = st.heap := by
    intro hs
    have hF : x.F = x.g := (ho.1.unique (ho.2 hs).ends).2
    have hc : H1.cell = st.heap.cell := by
      funext a
      cases ha : x.g.cell a with
      | none => exact f2 a ha
      | some c => rw [p2.cell a c (by rw [hF]; exact ha), hpart.cell a c ha]
    cases H1
    cases hh : st.heap
    rw [hh] at hc n2
    simp only [Heap.mk.injEq]
    exact ⟨hc, n2⟩
  refine ⟨H1, call_fn rt hp e1, p2, f2, n2, hsame, ?_⟩
  by_cases hs : x.shared = true
  · have hh := hsame hs
    subst hh
    exact ⟨vs, ts, hr, fun k y _ hy => hy⟩
  · obtain ⟨vs', ts', hr', hloc⟩ := c2 u' r1 v1 H1 i1
    refine ⟨vs', ts', hr', fun k y hk hy => ?_⟩
    rcases hk with hk | hk
    · obtain ⟨w, hw, g1, g2, g3, g4, g5⟩ := hy
      refine ⟨w, hloc _ w hk hw, ?_, ?_, g3, g4, g5⟩
      · rw [g1]
        have hap := restrict_apart hr.is (located_apart hk hu hw)
        simp only [restrict, Heap.mk.injEq]
        refine ⟨funext fun a => ?_, n2.symm⟩
        split
        · rename_i hm
          obtain ⟨D, hD⟩ := located_le hw
          rcases hap a with h0 | h0
          · exact (f2 a (by rw [eg]; exact h0)).symm
          · exact absurd hm ((restrict_none (hr.is.congr hD) a).mp h0)
        · rfl
      · rw [g2]
        cases k with
        | write => simp only [Job.prog, n2]
        | writeCompact => simp only [Job.prog, n2]
    · exact absurd hk.1 hs

/-- One call after the other. -/
theorem in_turn (rt : RealText) : ∀ (jobs : List Job) (ths : List Th) (st : State) (vs : Vals) (ts : List (Option HT)), Rel st vs ts → List.Forall₂ (Good st ts) jobs ths → PairsOk jobs ths →
    ∃ st', run rt (jobs.map Job.call) st = some (ths.map fun x => some x.r, st') ∧ AtEnd st.heap ths st'.heap := by
  intro jobs
  induction jobs with
  | nil =>
    intro ths st vs ts hr hg _
    cases hg
    exact ⟨st, rfl, by simp, fun _ _ => rfl, rfl⟩
  | cons j jobs ih =>
    intro ths st vs ts hr hg hp
    cases hg with
    | @cons _ x _ ths hx hg =>
      have hap := all_apart hr (.cons hx hg) hp
      obtain ⟨H1, e1, p1, f1, n1, _, vs', ts', hr', hgood⟩ := one_call rt hr hx
      have hg' : List.Forall₂ (Good ⟨H1, st.vars⟩ ts') jobs ths := by
        rw [List.forall₂_iff_get] at hg ⊢
        refine ⟨hg.1, fun i h1 h2 => hgood _ _ (hp 0 (i + 1) j _ x _ (by omega) rfl ?_ rfl ?_) (hg.2 i h1 h2)⟩
        · simp
        · simp
      obtain ⟨st', e2, hend⟩ := ih ths ⟨H1, st.vars⟩ vs' ts' hr' hg' (fun i k a b y z hik ha hb hy hz => hp (i + 1) (k + 1) a b y z (by omega) (by simpa using ha) (by simpa using hb) (by simpa using hy) (by simpa using hz))
      refine ⟨st', by simp only [List.map_cons, JsonWriteSpec.run, e1, Option.bind_some, e2, Option.map_some], ?_, ?_, hend.next.trans n1⟩
      · intro y hy
        rcases List.mem_cons.mp hy with rfl | hy
        · refine ⟨fun a c hc => ?_, p1.next.trans hend.next.symm⟩
          by_cases hA : ∀ z ∈ ths, z.g.cell a = none
          · rw [hend.rest a hA]; exact p1.cell a c hc
          · push Not at hA
            obtain ⟨z, hz, hza⟩ := hA
            obtain ⟨i, hi⟩ := List.getElem?_of_mem hz
            rcases hap 0 (i + 1) _ z (by omega) rfl (by simpa using hi) with hd | ⟨hs1, hs2⟩
            · rcases hd a with h0 | h0
              · rw [(hx.choose_spec.2.2.2.2.2.1.dom a).mpr h0] at hc; cases hc
              · exact absurd h0 hza
            · obtain ⟨b, _, gz⟩ := forall2_at hg hi
              have oz := good_part gz
              have ox := good_part hx
              have hF : y.F = y.g := (ox.1.1.unique (ox.1.2 hs1).ends).2
              have hF2 : z.F = z.g := (oz.1.1.unique (oz.1.2 hs2).ends).2
              obtain ⟨d, hd⟩ := Option.ne_none_iff_exists'.mp hza
              have e3 := oz.2.cell a d hd
              have e4 := ox.2.cell a c (by rw [← hF]; exact hc)
              rw [e3] at e4
              cases e4
              exact (hend.part z hz).cell a _ (by rw [hF2]; exact hd)
        · exact hend.part y hy
      · intro a hA
        rw [hend.rest a fun z hz => hA z (by simp [hz])]
        exact f1 a (hA x (by simp))

end JsonHeap
