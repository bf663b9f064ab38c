import Verif.Model.PassFile
/-! # Properties of passing open files over a local socket -/
namespace PassFile
open PassFileSpec

/-- What a put leaves in the socket. -/
def enc (p : Nat × Option Text) : Msg := ⟨match p.2 with | some t => t ++ [0] | none => nullMsg, [p.1]⟩

/-- Fits as said of what is in the channel. -/
def FitsText : Option Text → Prop
  | some t => 0 ∉ t ∧ t.length ≤ 1023
  | none => True

theorem takeWhile_zero (t : List UInt8) (h : 0 ∉ t) (n : Nat) (r : List UInt8) (hn : 0 < n) :
    (t ++ (List.replicate n 0 ++ r)).takeWhile (· ≠ 0) = t := by
  induction t with
  | nil =>
    cases n with
    | zero => omega
    | succ n => simp [List.replicate_succ]
  | cons b t ih =>
    simp at h
    rw [List.cons_append, List.takeWhile_cons_of_pos (by simp; exact fun e => h.1 e.symm), ih h.2]

theorem buffer_text (t : List UInt8) (hl : t.length ≤ 1023) : buffer (t ++ [0]) = t ++ List.replicate (1024 - t.length) 0 := by
  rw [buffer, List.append_assoc]
  congr 1
  have : 1024 - t.length = (1023 - t.length) + 1 := by omega
  rw [this, List.replicate_succ, List.length_append, List.length_singleton]
  rw [show maxMessage - (t.length + 1) = 1023 - t.length by simp [maxMessage]]
  rfl

theorem textOf_text (v : Bool) (t : List UInt8) (h0 : 0 ∉ t) (hl : t.length ≤ 1023) :
    textOf v (buffer (t ++ [0])) = some (some t) := by
  have hb := buffer_text t hl
  have hc : (buffer (t ++ [0])).contains 0 = true := by
    rw [buffer]; simp
  have htw : (buffer (t ++ [0])).takeWhile (· ≠ 0) = t := by
    rw [hb]
    have := takeWhile_zero t h0 (1024 - t.length) [] (by omega)
    rwa [List.append_nil] at this
  rw [textOf, htw]
  cases t with
  | nil =>
    have e : (buffer ([] ++ [0]))[0]? = some 0 := by simp [buffer]
    have e1 : (buffer ([] ++ [0]))[1]? = some 0 := by
      rw [hb, List.nil_append, List.getElem?_replicate]; rfl
    simp only [e]
    rw [if_neg (by simp), strNe, e1]
    simp only [hc]
    simp
  | cons b t =>
    have e : (buffer (b :: t ++ [0]))[0]? = some b := by simp [buffer]
    simp only [e]
    have hb0 : b ≠ 0 := by intro h; apply h0; simp [h]
    rw [if_pos hb0, hc]
    simp

theorem textOf_null (v : Bool) : textOf v (buffer nullMsg) = some none := by
  rw [textOf]
  have : buffer nullMsg = nullMsg ++ List.replicate 1018 0 := rfl
  rw [this]
  rfl

theorem recv_enc (c : Bool) (p : Nat × Option Text) (q : List Msg) (h : FitsText p.2) :
    recv c (enc p :: q) maxMessage [] = .data (enc p).bytes [p.1] q := by
  have hlen : (enc p).bytes.length ≤ 1024 := by
    obtain ⟨f, t⟩ := p
    cases t with
    | none => exact (by decide : (6:Nat) ≤ 1024)
    | some t => simp only [enc, List.length_append, List.length_singleton]; have := h.2; omega
  rw [recv, if_neg (by rw [maxMessage]; omega), if_pos (by simp [enc])]
  simp [enc]

theorem textOf_enc (v : Bool) (p : Nat × Option Text) (h : FitsText p.2) : textOf v (buffer (enc p).bytes) = some p.2 := by
  obtain ⟨f, t⟩ := p
  cases t with
  | none => exact textOf_null v
  | some t => exact textOf_text v t h.1 h.2

/-- Files of the results. -/
def gotFiles : List Out → List Nat
  | [] => []
  | .got f _ :: os => f :: gotFiles os
  | _ :: os => gotFiles os

/-- C118: whatever is put, got and closed, in whatever order, with texts of at most 1023 bytes: the receiver gets the open files in the
order they were put, each with exactly the text it was put with (NULL for NULL, an empty text for an empty text); it waits when
there is nothing and fails when there never will be anything; and a descriptor is opened in the receiving process
for exactly the files that were returned (nothing leaks), at every log level. -/
theorem C118_channel (verbose : Bool) (ops : List Op) (hfit : ∀ o ∈ ops, Fits o) :
    ∃ s, run verbose ⟨[], false, []⟩ ops = some (s, PassFileSpec.run ⟨[], false⟩ ops) ∧
      s.opened = gotFiles (PassFileSpec.run ⟨[], false⟩ ops) := by
  have gen : ∀ (ops : List Op) (c : Chan) (opened : List Nat), (∀ o ∈ ops, Fits o) → (∀ p ∈ c.items, FitsText p.2) →
      ∃ s, run verbose ⟨c.items.map enc, c.closed, opened⟩ ops = some (s, PassFileSpec.run c ops) ∧
        s.opened = opened ++ gotFiles (PassFileSpec.run c ops) := by
    intro ops
    induction ops with
    | nil => intro c opened _ _; exact ⟨_, rfl, by simp [PassFileSpec.run, gotFiles]⟩
    | cons o os ih =>
      intro c opened hf hc
      have hos : ∀ o ∈ os, Fits o := fun o h => hf o (List.mem_cons_of_mem _ h)
      have ho := hf o (List.mem_cons_self ..)
      have fin : ∀ (c' : Chan) (opened' : List Nat) (r : Out), (∀ p ∈ c'.items, FitsText p.2) →
          step verbose ⟨c.items.map enc, c.closed, opened⟩ o = some (⟨c'.items.map enc, c'.closed, opened'⟩, r) →
          PassFileSpec.step c o = (c', r) → opened' = opened ++ gotFiles [r] →
          ∃ s, run verbose ⟨c.items.map enc, c.closed, opened⟩ (o :: os) = some (s, PassFileSpec.run c (o :: os)) ∧
            s.opened = opened ++ gotFiles (PassFileSpec.run c (o :: os)) := by
        intro c' opened' r hc' hst hsp hop
        obtain ⟨s, hs, hso⟩ := ih c' opened' hos hc'
        refine ⟨s, ?_, ?_⟩
        · rw [run, hst]; simp only [hs, PassFileSpec.run, hsp]
        · rw [hso, hop, PassFileSpec.run, hsp]
          cases r <;> simp [gotFiles]
      cases o with
      | close => exact fin ⟨c.items, true⟩ opened .closed hc rfl rfl (by simp [gotFiles])
      | put f t sent =>
        by_cases hcl : c.closed = true
        · exact fin c opened (.put false) hc (by simp [step, put, hcl]) (by simp [PassFileSpec.step, hcl]) (by simp [gotFiles])
        · cases sent with
          | false => exact fin c opened (.put false) hc (by simp [step, put, hcl]) (by simp [PassFileSpec.step, hcl]) (by simp [gotFiles])
          | true =>
            refine fin ⟨c.items ++ [(f, t)], c.closed⟩ opened (.put true) ?_ ?_ ?_ (by simp [gotFiles])
            · intro p hp
              rcases List.mem_append.1 hp with hp | hp
              · exact hc p hp
              · simp at hp; subst hp
                cases t with
                | none => trivial
                | some t => exact ho
            · simp [step, put, hcl, enc]
              cases t <;> rfl
            · simp [PassFileSpec.step, hcl]
      | get free =>
        obtain ⟨items, closed⟩ := c
        cases items with
        | nil =>
          cases closed with
          | true => exact fin ⟨[], true⟩ opened .failed hc (by simp [step, get, recv, delivered]) rfl (by simp [gotFiles])
          | false => exact fin ⟨[], false⟩ opened .waits hc (by simp [step, get, recv]) rfl (by simp [gotFiles])
        | cons p rest =>
          have hp := hc p (List.mem_cons_self ..)
          have hrest : ∀ p ∈ rest, FitsText p.2 := fun q h => hc q (List.mem_cons_of_mem _ h)
          cases free with
          | false =>
            refine fin ⟨rest, closed⟩ opened .failed hrest ?_ (by simp [PassFileSpec.step]) (by simp [gotFiles])
            simp only [step, get, List.map_cons, recv_enc closed p _ hp]
            rfl
          | true =>
            refine fin ⟨rest, closed⟩ (opened ++ [p.1]) (.got p.1 p.2) hrest ?_ (by simp [PassFileSpec.step]) (by simp [gotFiles])
            simp only [step, get, List.map_cons, recv_enc closed p _ hp, textOf_enc verbose p hp]
            rfl
  obtain ⟨s, hs, ho⟩ := gen ops ⟨[], false⟩ [] hfit (by simp)
  exact ⟨s, hs, by simpa using ho⟩

example : PassFileSpec.run ⟨[], false⟩ [.put 7 none true, .put 8 (some []) true, .get true, .put 9 (some [104, 105]) true, .get true, .get false,
    .get true, .close, .get true] =
    [.put true, .put true, .got 7 none, .put true, .got 8 (some []), .failed, .waits, .closed, .failed] := by decide
example : ∀ o ∈ [Op.put 7 none true, .put 9 (some [104, 105]) true, .get true], Fits o := by
  intro o ho; simp at ho; rcases ho with rfl | rfl | rfl <;> simp [Fits]

theorem recv_files (closed : Bool) : ∀ (q : List Msg) (want : Nat) (acc b : List UInt8) (fs : List Nat) (rest : List Msg),
    recv closed q want acc = .data b fs rest → b.length ≤ acc.length + want ∧ ∀ f ∈ fs, ∃ m ∈ q, f ∈ m.files := by
  intro q
  induction q with
  | nil =>
    intro want acc b fs rest h
    rw [recv] at h
    split at h
    · cases h; simp
    · cases h
  | cons m q ih =>
    intro want acc b fs rest h
    rw [recv] at h
    split at h
    · cases h
      refine ⟨by simp; omega, fun f hf => ⟨m, List.mem_cons_self .., hf⟩⟩
    · split at h
      · cases h
        exact ⟨by simp; omega, fun f hf => ⟨m, List.mem_cons_self .., hf⟩⟩
      · split at h
        · cases h; exact ⟨by simp; omega, by simp⟩
        · obtain ⟨h1, h2⟩ := ih _ _ _ _ _ h
          refine ⟨by simp at h1; omega, fun f hf => ?_⟩
          obtain ⟨m', hm, hf'⟩ := h2 f hf
          exact ⟨m', List.mem_cons_of_mem _ hm, hf'⟩

theorem textOf_defined (bytes : List UInt8) (hl : bytes.length ≤ 1024) :
    ∃ t, textOf false (buffer bytes) = some t ∧ ∀ x, t = some x → x.length ≤ 1024 ∧ 0 ∉ x := by
  have hlen : (buffer bytes).length = 1024 := by simp [buffer, maxMessage]; omega
  have hget : ∀ i, i < 1024 → ∃ b, (buffer bytes)[i]? = some b := fun i hi => ⟨_, List.getElem?_eq_getElem (by omega)⟩
  have htext : ((buffer bytes).takeWhile (· ≠ 0)).length ≤ 1024 ∧ 0 ∉ (buffer bytes).takeWhile (· ≠ 0) := by
    refine ⟨by rw [← hlen]; exact (List.takeWhile_sublist _).length_le, fun h => ?_⟩
    have := List.all_eq_true.1 (List.all_takeWhile (p := (· ≠ (0 : UInt8))) (l := buffer bytes)) 0 h
    simp at this
  obtain ⟨b0, e0⟩ := hget 0 (by omega)
  have hne : ∃ r, strNe (buffer bytes) 1 [78, 85, 76, 76, 0] = some r := by
    obtain ⟨b1, e1⟩ := hget 1 (by omega)
    obtain ⟨b2, e2⟩ := hget 2 (by omega)
    obtain ⟨b3, e3⟩ := hget 3 (by omega)
    obtain ⟨b4, e4⟩ := hget 4 (by omega)
    obtain ⟨b5, e5⟩ := hget 5 (by omega)
    simp only [strNe, e1, e2, e3, e4, e5]
    repeat' split
    all_goals first | exact ⟨_, rfl⟩ | contradiction
  obtain ⟨r, hr⟩ := hne
  rw [textOf, e0]
  simp only [hr, Bool.false_and, Bool.false_eq_true, if_false]
  by_cases h : b0 ≠ 0
  · rw [if_pos h]; exact ⟨_, rfl, fun x hx => by cases hx; exact htext⟩
  · rw [if_neg h]
    cases r
    · exact ⟨_, rfl, fun x hx => by cases hx⟩
    · exact ⟨_, rfl, fun x hx => by cases hx; exact htext⟩

/-- C118, against any peer (release build, below verbose level): whatever is in the socket, receiving is defined; a returned descriptor is
for a file that some message in the socket carried; the text is a C string of at most 1024 bytes; and when it fails or waits no
descriptor is left open. -/
theorem C118_any_peer_partial (s : Sock) (slots : Nat) :
    ∃ s' r, get false s slots = some (s', r) ∧
      (∀ f t, r = .got f t → (∃ m ∈ s.queue, f ∈ m.files) ∧ ∀ x, t = some x → x.length ≤ 1024 ∧ 0 ∉ x) ∧
      ((∀ f t, r ≠ .got f t) → s'.opened = s.opened) := by
  rw [get]
  cases hr : recv s.closed s.queue maxMessage [] with
  | waits => exact ⟨s, .waits, rfl, (fun f t h => by cases h), fun _ => rfl⟩
  | data bytes files rest =>
    obtain ⟨hb, hf⟩ := recv_files _ _ _ _ _ _ _ hr
    simp only
    cases hd : delivered files slots with
    | nil => exact ⟨_, .failed, rfl, (fun f t h => by cases h), fun _ => rfl⟩
    | cons f fs =>
      obtain ⟨t, ht, hx⟩ := textOf_defined bytes (by simpa [maxMessage] using hb)
      simp only [ht]
      refine ⟨_, _, rfl, ?_, fun h => absurd rfl (h f t)⟩
      intro f' t' e
      cases e
      have : f ∈ files := by
        have : f ∈ delivered files slots := by rw [hd]; exact List.mem_cons_self ..
        exact List.mem_of_mem_take (List.mem_of_mem_take this)
      exact ⟨hf f this, hx⟩

example : ∃ s' , get false ⟨[⟨List.replicate 2000 65, [4]⟩], false, []⟩ 5 = some (s', .got 4 (some (List.replicate 1024 65))) := by
  exact ⟨⟨[⟨List.replicate 976 65, []⟩], false, [4]⟩, by decide +kernel⟩

/-- Finding: a peer that attaches two files to its message leaves the receiver with a descriptor it does not know of
(with assertions on, the receiver aborts instead; passopenfile.c:483-487). -/
theorem C118_second_descriptor_leaks_negated :
    ¬ ∀ (s : Sock) (slots : Nat) (s' : Sock) (f : Nat) (t : Option Text), get false s slots = some (s', .got f t) →
      s'.opened = s.opened ++ [f] := by
  intro h
  have := h ⟨[⟨[104, 105, 0], [4, 5]⟩], false, []⟩ 5 ⟨[], false, [4, 5]⟩ 4 (some [104, 105]) (by rfl)
  simp at this

/-- Finding: a text of more than 1023 bytes is not truncated as documented (passopenfile.h:42): what does not fit in the receiver's
buffer is received as the beginning of the text of the next file. -/
theorem C118_long_text_negated :
    ¬ ∀ (ops : List Op) (s : Sock) (rs : List Out), run false ⟨[], false, []⟩ ops = some (s, rs) →
      ∀ f t, Out.got f (some t) ∈ rs → t.length ≤ 1023 ∧ ∃ u sent, Op.put f (some u) sent ∈ ops ∧ t = u.take 1023 := by
  intro h
  have := h [.put 1 (some (List.replicate 1026 65)) true, .put 2 (some [66]) true, .get true, .get true] ⟨[], false, [1, 2]⟩
    [.put true, .put true, .got 1 (some (List.replicate 1024 65)), .got 2 (some [65, 65])] (by decide +kernel) 2 [65, 65] (by decide +kernel)
  obtain ⟨_, u, sent, hm, ht⟩ := this
  rcases List.mem_cons.1 hm with hm | hm
  · injection hm with h1; cases h1
  · rcases List.mem_cons.1 hm with hm | hm
    · injection hm with h1 h2
      injection h2 with h2
      subst h2
      exact absurd ht (by decide)
    · rcases List.mem_cons.1 hm with hm | hm
      · cases hm
      · rcases List.mem_cons.1 hm with hm | hm <;> cases hm

/-- Finding: at verbose level a message without a terminator makes the receiver read past its buffer while logging it
(passopenfile.c:505-507). A text of 1024 bytes or more put by the other end is enough. -/
theorem C118_verbose_overread_negated :
    ¬ ∀ (s : Sock) (slots : Nat), get true s slots ≠ none := by
  intro h
  exact h ⟨[⟨List.replicate 1025 65, [4]⟩], false, []⟩ 1 (by decide +kernel)

end PassFile
