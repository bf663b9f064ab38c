import Mathlib.Data.List.Nodup
import Mathlib.Data.List.Perm.Subperm
import Mathlib.Tactic.NormNum
import Verif.Spec.AddrInfo
import Verif.Props.CloseFrom
/-! # C139: getaddrinfo and getnameinfo -/
namespace AddrInfo
open AddrInfoSpec

/-- Names of blocks not yet given out are free. -/
def Wf (h : Heap) : Prop := ∀ i, h.calls ≤ i → h.blocks i = none

theorem Wf.lt {h : Heap} (hw : Wf h) {i : Nat} {b : Block} (hb : h.blocks i = some b) : i < h.calls := by
  by_contra hn
  rw [hw i (by omega)] at hb
  simp at hb

theorem alloc_wf {h : Heap} (hw : Wf h) (b : Block) : Wf (h.alloc b).2 ∧ (h.alloc b).2.calls = h.calls + 1 ∧ (h.alloc b).2.grant = h.grant := by
  unfold Heap.alloc
  split
  · refine ⟨fun i hi => ?_, rfl, rfl⟩
    simp only at hi ⊢
    rw [if_neg (by omega), hw i (by omega)]
  · exact ⟨fun i hi => hw i (by simp only at hi; omega), rfl, rfl⟩

/-- What alloc_entry leaves. -/
theorem allocEntry_ok {h : Heap} (hw : Wf h) (hints : Hints) (ip : Bytes) (port : Nat) : ∃ a h', allocEntry hints ip port h = some (a, h') ∧ Wf h' ∧ h'.grant = h.grant ∧
    ((a = none ∧ h'.blocks = h.blocks ∧ ¬∀ i, h.grant i = true) ∨
      (∃ a' s, a = some a' ∧ a' ≠ s ∧ h.blocks a' = none ∧ h.blocks s = none ∧ h'.blocks = fun i => if i = a' then some (.ai hints.socktype hints.protocol s none none) else if i = s then some (.sin port ip) else h.blocks i)) := by
  unfold allocEntry
  by_cases h1 : h.grant h.calls = true
  · by_cases h2 : h.grant (h.calls + 1) = true
    · simp only [Heap.alloc, h1, h2, if_true]
      refine ⟨_, _, rfl, ?_, rfl, Or.inr ⟨h.calls, h.calls + 1, rfl, by omega, hw _ (by omega), hw _ (by omega), ?_⟩⟩
      · intro i hi
        simp only [Heap.store] at hi ⊢
        rw [if_neg (by omega), if_neg (by omega), if_neg (by omega), hw i (by omega)]
      · funext i
        simp only [Heap.store]
        split
        · rfl
        · split <;> rfl
    · have h2' : h.grant (h.calls + 1) = false := by simpa using h2
      simp only [Heap.alloc, h1, h2', if_true, Bool.false_eq_true, if_false, Heap.free, Option.map_some]
      refine ⟨_, _, rfl, ?_, rfl, Or.inl ⟨rfl, ?_, fun hg => h2 (hg _)⟩⟩
      · intro i hi
        simp only at hi ⊢
        rw [if_neg (by omega), if_neg (by omega), hw i (by omega)]
      · funext i
        simp only
        by_cases hi : i = h.calls
        · rw [if_pos hi, hw i (by omega)]
        · rw [if_neg hi, if_neg hi]
  · have h1' : h.grant h.calls = false := by simpa using h1
    simp only [Heap.alloc, h1', Bool.false_eq_true, if_false]
    exact ⟨_, _, rfl, fun i hi => hw i (by simp only at hi; omega), rfl, Or.inl ⟨rfl, rfl, fun hg => h1 (hg _)⟩⟩

/-! ## Chains -/

theorem _root_.AddrInfoSpec.Canon.congr {b b' : Nat → Option Block} {c : Option Nat} {t : Option Bytes} {cs : List Nat} (h : Canon b c t cs) (he : ∀ i ∈ cs, b' i = b i) : Canon b' c t cs := by
  cases h with
  | none => exact .none
  | some hp => exact .some (by rw [he _ (by simp), hp])

theorem _root_.AddrInfoSpec.Chain.congr {b b' : Nat → Option Block} {p : Option Nat} {es : List Entry} {ids : List Nat} (h : Chain b p es ids) (he : ∀ i ∈ ids, b' i = b i) : Chain b' p es ids := by
  induction h with
  | nil => exact .nil
  | cons h1 h2 h3 _ ih =>
    refine .cons (by rw [he _ (by simp), h1]) (by rw [he _ (by simp), h2]) (h3.congr fun i hi => he i (by simp [hi])) (ih fun i hi => he i (by simp [hi]))

theorem _root_.AddrInfoSpec.Chain.len {b : Nat → Option Block} {p : Option Nat} {es : List Entry} {ids : List Nat} (h : Chain b p es ids) : es.length ≤ ids.length ∧ ∀ i ∈ ids, ∃ x, b i = some x := by
  induction h with
  | nil => simp
  | cons h1 h2 h3 _ ih =>
    refine ⟨by simp; omega, ?_⟩
    intro i hi
    simp only [List.cons_append, List.mem_cons, List.mem_append] at hi
    rcases hi with rfl | rfl | hi | hi
    · exact ⟨_, h1⟩
    · exact ⟨_, h2⟩
    · cases h3 with
      | none => simp at hi
      | some hp => simp at hi; subst hi; exact ⟨_, hp⟩
    · exact ih.2 i hi

theorem freeLoop_ok {b : Nat → Option Block} {p : Option Nat} {es : List Entry} {ids : List Nat} (hc : Chain b p es ids) : ids.Nodup → ∀ (fuel : Nat) (h : Heap), es.length < fuel → (∀ i ∈ ids, h.blocks i = b i) →
    freeLoop fuel p h = some { h with blocks := fun i => if i ∈ ids then none else h.blocks i } := by
  induction hc with
  | nil =>
    intro _ fuel h hf _
    cases fuel with
    | zero => simp at hf
    | succ n => simp [freeLoop]
  | @cons p s st pr c nx port ip t cs es ids h1 h2 h3 h4 ih =>
    intro hnd fuel h hf he
    cases fuel with
    | zero => simp at hf
    | succ n =>
      have hp := he p (by simp)
      have hs := he s (by simp)
      rw [h1] at hp
      rw [h2] at hs
      simp only [List.cons_append, List.nodup_cons, List.mem_cons, List.mem_append, not_or] at hnd
      obtain ⟨⟨hps, hpc, hpi⟩, ⟨hsc, hsi⟩, hnd⟩ := hnd
      have hnd' := (List.nodup_append.1 hnd)
      rw [freeLoop, hp]
      simp only [Option.bind_eq_bind]
      cases h3 with
      | none =>
        simp only [Option.bind_some, Heap.free, hs, hp, if_neg hps]
        rw [ih hnd'.2.1 n _ (by simp at hf; omega) ?_]
        · congr 2
          funext i
          simp only [List.cons_append, List.nil_append, List.mem_cons]
          by_cases e1 : i ∈ ids
          · simp [e1]
          · by_cases e2 : i = p
            · simp [e2]
            · by_cases e3 : i = s
              · simp [e3]
              · simp [e1, e2, e3]
        · intro i hi
          have e1 : i ≠ p := fun e => hpi (e ▸ hi)
          have e2 : i ≠ s := fun e => hsi (e ▸ hi)
          simp only [if_neg e1, if_neg e2]
          exact he i (by simp [hi])
      | @some k u hk =>
        have hk' := he k (by simp)
        rw [hk] at hk'
        have a1 : p ≠ k := by simpa using hpc
        have a2 : s ≠ k := by simpa using hsc
        simp only [Option.bind_some, Heap.free, hk', hs, hp, if_neg hps, if_neg a1, if_neg a2]
        rw [ih hnd'.2.1 n _ (by simp at hf; omega) ?_]
        · congr 2
          funext i
          simp only [List.cons_append, List.nil_append, List.mem_cons]
          by_cases e1 : i ∈ ids
          · simp [e1]
          · by_cases e2 : i = p
            · simp [e2]
            · by_cases e3 : i = s
              · simp [e3]
              · by_cases e4 : i = k
                · simp [e4]
                · simp [e1, e2, e3, e4]
        · intro i hi
          have e1 : i ≠ p := fun e => hpi (e ▸ hi)
          have e2 : i ≠ s := fun e => hsi (e ▸ hi)
          have e3 : i ≠ k := fun e => hnd'.2.2 k (by simp) i hi e.symm
          simp only [if_neg e1, if_neg e2, if_neg e3]
          exact he i (by simp [hi])

/-- What was returned can be freed, and memory is as before. -/
theorem returned_free {b0 : Nat → Option Block} {h : Heap} (hw : Wf h) {p : Option Nat} {es : List Entry} (hr : Returned b0 h.blocks p es) : ∃ h', freeaddrinfo p h = some h' ∧ h'.blocks = b0 ∧ h'.calls = h.calls ∧ h'.grant = h.grant := by
  obtain ⟨ids, hc, hnd, h0, hrest⟩ := hr
  have hlt : ids.length ≤ h.calls := by
    have := (hnd.subperm (l₂ := List.range h.calls) fun i hi => by
      obtain ⟨x, hx⟩ := hc.len.2 i hi
      exact List.mem_range.2 (hw.lt hx)).length_le
    simpa using this
  refine ⟨_, freeLoop_ok hc hnd (h.calls + 1) h (by have := hc.len.1; omega) (fun _ _ => rfl), ?_, rfl, rfl⟩
  funext i
  simp only
  split
  · rename_i hi; exact (h0 i hi).symm
  · rename_i hi; exact hrest i hi

/-- A chain that is not empty, with its last entry. -/
inductive Seg (b : Nat → Option Block) : Nat → Nat → List Entry → List Nat → Prop
  | one {p s : Nat} {st pr : Int} {c : Option Nat} {port : Nat} {ip : Bytes} {t : Option Bytes} {cs : List Nat} :
      b p = some (.ai st pr s c none) → b s = some (.sin port ip) → Canon b c t cs → Seg b p p [⟨ip, port, st, pr, t⟩] (p :: s :: cs)
  | cons {p s q nx : Nat} {st pr : Int} {c : Option Nat} {port : Nat} {ip : Bytes} {t : Option Bytes} {cs : List Nat} {es : List Entry} {ids : List Nat} :
      b p = some (.ai st pr s c (some nx)) → b s = some (.sin port ip) → Canon b c t cs → Seg b nx q es ids → Seg b p q (⟨ip, port, st, pr, t⟩ :: es) (p :: s :: cs ++ ids)

theorem Seg.chain {b : Nat → Option Block} {p q : Nat} {es : List Entry} {ids : List Nat} (h : Seg b p q es ids) : Chain b (some p) es ids ∧ q ∈ ids ∧ ∃ st pr s c, b q = some (.ai st pr s c none) := by
  induction h with
  | one h1 h2 h3 => exact ⟨by simpa using Chain.cons h1 h2 h3 .nil, by simp, _, _, _, _, h1⟩
  | cons h1 h2 h3 _ ih => exact ⟨.cons h1 h2 h3 ih.1, by simp [ih.2.1], ih.2.2⟩

theorem Seg.congr {b b' : Nat → Option Block} {p q : Nat} {es : List Entry} {ids : List Nat} (h : Seg b p q es ids) (he : ∀ i ∈ ids, b' i = b i) : Seg b' p q es ids := by
  induction h with
  | one h1 h2 h3 => exact .one (by rw [he _ (by simp), h1]) (by rw [he _ (by simp), h2]) (h3.congr fun i hi => he i (by simp [hi]))
  | cons h1 h2 h3 _ ih => exact .cons (by rw [he _ (by simp), h1]) (by rw [he _ (by simp), h2]) (h3.congr fun i hi => he i (by simp [hi])) (ih fun i hi => he i (by simp [hi]))

/-- `prevp->ai_next = ai`. -/
theorem Seg.append {b : Nat → Option Block} {p q : Nat} {es : List Entry} {ids : List Nat} (h : Seg b p q es ids) (hnd : ids.Nodup) {a s : Nat} {st pr : Int} {port : Nat} {ip : Bytes}
    (ha : b a = some (.ai st pr s none none)) (hs : b s = some (.sin port ip)) (ha' : a ∉ ids) (hs' : s ∉ ids)
    {st' pr' : Int} {s' : Nat} {c' nx' : Option Nat} (hq : b q = some (.ai st' pr' s' c' nx')) {b' : Nat → Option Block} (hb : b' = fun i => if i = q then some (.ai st' pr' s' c' (some a)) else b i) :
    Seg b' p a (es ++ [⟨ip, port, st, pr, none⟩]) (ids ++ [a, s]) := by
  have hne : ∀ i, i ≠ q → b' i = b i := fun i hi => by simp [hb, hi]
  have hnew : ∀ q', q' = q → q' ∈ ids → Seg b' a a [⟨ip, port, st, pr, none⟩] [a, s] := by
    intro q' e hq'
    refine .one (by rw [hne a (fun e' => ha' (e' ▸ e ▸ hq')), ha]) (by rw [hne s (fun e' => hs' (e' ▸ e ▸ hq')), hs]) .none
  induction h with
  | @one p s1 st1 pr1 c port1 ip1 t cs h1 h2 h3 =>
    rw [h1] at hq
    simp only [Option.some.injEq, Block.ai.injEq] at hq
    obtain ⟨rfl, rfl, rfl, rfl, _⟩ := hq
    simp only [List.nodup_cons, List.mem_cons, not_or] at hnd
    have := hnew p rfl (by simp)
    refine .cons (cs := cs) (ids := [a, s]) (by simp [hb]) (by rw [hne s1 (Ne.symm hnd.1.1), h2]) (h3.congr fun i hi => hne i ?_) this
    exact fun e => hnd.1.2 (e ▸ hi)
  | @cons p s1 q nx st1 pr1 c port1 ip1 t cs es ids h1 h2 h3 h4 ih =>
    have hqi := h4.chain.2.1
    simp only [List.cons_append, List.nodup_cons, List.mem_cons, List.mem_append, not_or] at hnd ha' hs'
    obtain ⟨⟨n1, n2, n3⟩, ⟨n4, n5⟩, n6⟩ := hnd
    have n6' := List.nodup_append.1 n6
    have hpq : p ≠ q := fun e => n3 (e ▸ hqi)
    have hsq : s1 ≠ q := fun e => n5 (e ▸ hqi)
    have := ih n6'.2.1 ha'.2.2.2 hs'.2.2.2 hq hb hne (fun q' e hq' => hnew q' e (by simp [hq']))
    have hcons := Seg.cons (cs := cs) (ids := ids ++ [a, s]) (by rw [hne p hpq, h1]) (by rw [hne s1 hsq, h2]) (h3.congr fun i hi => hne i (fun e => n6'.2.2 i hi q hqi e)) this
    simpa using hcons

/-! ## The functions -/

/-- Outcome of a call: an error and memory as before, or the list. -/
def Outcome (h0 : Heap) (r : Res) (P : List Entry → Prop) : Prop :=
  ∃ code res h', r = some (code, res, h') ∧ Wf h' ∧
    ((code ≠ .ok ∧ res = none ∧ h'.blocks = h0.blocks ∧ (code = .memory → ¬∀ i, h0.grant i = true)) ∨ (code = .ok ∧ ∃ p es, res = some p ∧ Returned h0.blocks h'.blocks p es ∧ P es))

/-- One more entry of the list. -/
def entry (hints : Hints) (port : Nat) (c : Option Bytes) (ip : Bytes) : Entry := ⟨ip, port, hints.socktype, hints.protocol, c⟩

theorem free_wf {h h' : Heap} (hw : Wf h) {b0 : Heap} (hb : h'.blocks = b0.blocks) (hc : h'.calls = h.calls) (hle : b0.calls ≤ h.calls) (hw0 : Wf b0) : Wf h' := fun i hi => by rw [hb]; exact hw0 i (by omega)

theorem nameLoop_ok (h0 : Heap) (hints : Hints) (port : Nat) (name : Bytes) : ∀ (ips : List Bytes) (l q : Nat) (es : List Entry) (ids : List Nat) (h : Heap), Wf h → h.grant = h0.grant →
    Seg h.blocks l q es ids → ids.Nodup → (∀ i ∈ ids, h0.blocks i = none) → (∀ i, i ∉ ids → h.blocks i = h0.blocks i) →
    Outcome h0 (nameLoop hints port name ips (some l) (some q) h) (fun r => r = es ++ ips.map (entry hints port none)) := by
  intro ips
  induction ips with
  | nil =>
    intro l q es ids h hw hg hs hnd h1 h2
    exact ⟨_, _, _, rfl, hw, Or.inr ⟨rfl, some l, es, rfl, ⟨ids, hs.chain.1, hnd, h1, h2⟩, by simp⟩⟩
  | cons ip ips ih =>
    intro l q es ids h hw hg hs hnd h1 h2
    obtain ⟨a, h', e, hw', hg', hcase⟩ := allocEntry_ok hw hints ip port
    rw [nameLoop, e]
    simp only [Option.bind_eq_bind, Option.bind_some]
    rcases hcase with ⟨rfl, hb, hng⟩ | ⟨a', s, rfl, hne, ha0, hs0, hb⟩
    · simp only
      obtain ⟨h'', e2, hb2, hc2, _⟩ := returned_free hw' (b0 := h0.blocks) (p := some l) (es := es) ⟨ids, by rw [hb]; exact hs.chain.1, hnd, h1, by rw [hb]; exact h2⟩
      rw [e2]
      refine ⟨_, _, _, rfl, fun i hi => ?_, Or.inl ⟨by simp, rfl, hb2, fun _ => by rw [← hg]; exact hng⟩⟩
      by_cases hi' : i ∈ ids
      · rw [hb2]; exact h1 i hi'
      · rw [hb2, ← h2 i hi', ← hb]; exact hw' i (by omega)
    · simp only
      have hai : a' ∉ ids := fun hi => by obtain ⟨x, hx⟩ := hs.chain.1.len.2 _ hi; rw [ha0] at hx; simp at hx
      have hsi : s ∉ ids := fun hi => by obtain ⟨x, hx⟩ := hs.chain.1.len.2 _ hi; rw [hs0] at hx; simp at hx
      have hs1 : Seg h'.blocks l q es ids := hs.congr fun i hi => by
        have n1 : i ≠ a' := by rintro rfl; exact hai hi
        have n2 : i ≠ s := by rintro rfl; exact hsi hi
        rw [hb]; simp only; rw [if_neg n1, if_neg n2]
      obtain ⟨st, pr, s1, c, hq⟩ := hs1.chain.2.2
      simp only [hq]
      have hA : h'.blocks a' = some (.ai hints.socktype hints.protocol s none none) := by rw [hb]; simp
      have hS : h'.blocks s = some (.sin port ip) := by rw [hb]; simp [Ne.symm hne]
      have := hs1.append hnd hA hS hai hsi hq (b' := (h'.store q (.ai st pr s1 c (some a'))).blocks) rfl
      have hwf : Wf (h'.store q (.ai st pr s1 c (some a'))) := by
        intro i hi
        have hql := hw'.lt hq
        show (if i = q then _ else h'.blocks i) = none
        rw [if_neg (by have : h'.calls ≤ i := hi; omega)]
        exact hw' i hi
      obtain ⟨code, res, h3, e3, hw3, hr⟩ := ih l a' _ _ _ hwf (by rw [← hg, ← hg']; rfl) this (by
          rw [List.nodup_append]
          refine ⟨hnd, by simp [hne], ?_⟩
          intro x hx y hy hxy
          rw [hxy] at hx
          simp only [List.mem_cons, List.not_mem_nil, or_false] at hy
          rcases hy with rfl | rfl
          · exact hai hx
          · exact hsi hx) (by
          intro i hi
          simp only [List.mem_append, List.mem_cons, List.not_mem_nil, or_false] at hi
          rcases hi with hi | rfl | rfl
          · exact h1 i hi
          · rw [← h2 _ hai]; exact ha0
          · rw [← h2 _ hsi]; exact hs0) (by
          intro i hi
          simp only [List.mem_append, List.mem_cons, List.not_mem_nil, or_false, not_or] at hi
          have n1 : i ≠ q := by rintro rfl; exact hi.1 hs1.chain.2.1
          show (if i = q then _ else h'.blocks i) = _
          rw [if_neg n1, hb]
          simp only
          rw [if_neg hi.2.1, if_neg hi.2.2]
          exact h2 i hi.1)
      refine ⟨code, res, h3, e3, hw3, ?_⟩
      rcases hr with hr | ⟨r1, p, es', r2, r3, r4⟩
      · exact Or.inl hr
      · exact Or.inr ⟨r1, p, es', r2, r3, by rw [r4]; simp [entry]⟩

/-- The entries getaddrinfo makes of a host's addresses: the first has the canonical name. -/
def hostEntries (hints : Hints) (port : Nat) (name : Bytes) : List Bytes → List Entry
  | [] => []
  | ip :: ips => entry hints port (some name) ip :: ips.map (entry hints port none)

theorem alloc_cases {h : Heap} (hw : Wf h) (b : Block) : (∃ h', h.alloc b = (none, h') ∧ Wf h' ∧ h'.grant = h.grant ∧ h'.blocks = h.blocks ∧ ¬∀ i, h.grant i = true) ∨
    (∃ c h', h.alloc b = (some c, h') ∧ Wf h' ∧ h'.grant = h.grant ∧ h.blocks c = none ∧ h'.blocks = fun i => if i = c then some b else h.blocks i) := by
  have := alloc_wf hw b
  unfold Heap.alloc at this ⊢
  split at this
  · rename_i hg
    rw [if_pos hg]
    exact Or.inr ⟨_, _, rfl, this.1, rfl, hw _ (by omega), rfl⟩
  · rename_i hg
    rw [if_neg hg]
    exact Or.inl ⟨_, rfl, this.1, rfl, rfl, fun h => hg (h _)⟩

theorem nameLoop_start (h0 : Heap) (hw : Wf h0) (hints : Hints) (port : Nat) (name : Bytes) (ips : List Bytes) :
    Outcome h0 (nameLoop hints port name ips none none h0) (fun r => r = hostEntries hints port name ips) := by
  cases ips with
  | nil => exact ⟨_, _, _, rfl, hw, Or.inr ⟨rfl, none, [], rfl, ⟨[], .nil, by simp, by simp, by simp⟩, rfl⟩⟩
  | cons ip ips =>
    obtain ⟨a, h', e, hw', hg', hcase⟩ := allocEntry_ok hw hints ip port
    rw [nameLoop, e]
    simp only [Option.bind_eq_bind, Option.bind_some]
    rcases hcase with ⟨rfl, hb, hng⟩ | ⟨a', s, rfl, hne, ha0, hs0, hb⟩
    · simp only [freeaddrinfo, freeLoop, Option.map_some]
      exact ⟨_, _, _, rfl, hw', Or.inl ⟨by simp, rfl, hb, fun _ => hng⟩⟩
    · simp only
      have hA : h'.blocks a' = some (.ai hints.socktype hints.protocol s none none) := by rw [hb]; simp
      have hS : h'.blocks s = some (.sin port ip) := by rw [hb]; simp [Ne.symm hne]
      have hother : ∀ i, i ≠ a' → i ≠ s → h'.blocks i = h0.blocks i := fun i h1 h2 => by rw [hb]; simp [h1, h2]
      rcases alloc_cases hw' (.str name) with ⟨h2, e2, hw2, hg2, hb2, hng⟩ | ⟨c, h2, e2, hw2, hg2, hc0, hb2⟩
      · simp only [e2]
        obtain ⟨h3, e3, hb3, hc3, _⟩ := returned_free hw2 (b0 := h0.blocks) (p := some a') (es := [⟨ip, port, hints.socktype, hints.protocol, none⟩])
          ⟨[a', s], by rw [hb2]; exact Chain.cons hA hS .none .nil, by simp [hne], by simp [ha0, hs0], by
            intro i hi
            simp only [List.mem_cons, List.not_mem_nil, or_false, not_or] at hi
            rw [hb2]; exact hother i hi.1 hi.2⟩
        rw [e3]
        refine ⟨_, _, _, rfl, fun i hi => ?_, Or.inl ⟨by simp, rfl, hb3, fun _ => by rw [← hg']; exact hng⟩⟩
        rw [hb3]
        by_cases h1 : i = a'
        · rw [h1]; exact ha0
        · by_cases h2' : i = s
          · rw [h2']; exact hs0
          · rw [← hother i h1 h2', ← hb2]; exact hw2 i (by omega)
      · have hca : c ≠ a' := fun e => by rw [e, hA] at hc0; simp at hc0
        have hcs : c ≠ s := fun e => by rw [e, hS] at hc0; simp at hc0
        have hA2 : h2.blocks a' = some (.ai hints.socktype hints.protocol s none none) := by rw [hb2]; simp only; rw [if_neg (Ne.symm hca), hA]
        simp only [e2, hA2]
        have hseg : Seg (h2.store a' (.ai hints.socktype hints.protocol s (some c) none)).blocks a' a' [entry hints port (some name) ip] [a', s, c] := by
          refine .one (cs := [c]) (s := s) (by simp [Heap.store]) ?_ (.some ?_)
          · simp only [Heap.store, if_neg (Ne.symm hne), hb2, if_neg (Ne.symm hcs), hS]
          · simp only [Heap.store, if_neg hca, hb2, if_true]
        have hwf : Wf (h2.store a' (.ai hints.socktype hints.protocol s (some c) none)) := by
          intro i hi
          have hql := hw2.lt hA2
          show (if i = a' then _ else h2.blocks i) = none
          rw [if_neg (by have : h2.calls ≤ i := hi; omega)]
          exact hw2 i hi
        have hc00 : h0.blocks c = none := by rw [← hother c hca hcs]; exact hc0
        obtain ⟨code, res, h3, e3, hw3, hr⟩ := nameLoop_ok h0 hints port name ips a' a' _ _ _ hwf (by rw [← hg', ← hg2]; rfl) hseg (by simp [hne, Ne.symm hca, Ne.symm hcs]) (by simp [ha0, hs0, hc00]) (by
          intro i hi
          simp only [List.mem_cons, List.not_mem_nil, or_false, not_or] at hi
          simp only [Heap.store, if_neg hi.1, hb2, if_neg hi.2.2]
          exact hother i hi.1 hi.2.1)
        exact ⟨code, res, h3, e3, hw3, hr⟩

/-- The canonical name asked for, for one address: that of the host itself for the wildcard and loopback addresses. -/
def canonSource (net : Net) (addr : Nat) : Option (Except HErr Hostent) :=
  if addr = INADDR_LOOPBACK ∨ addr = INADDR_ANY then net.hostname.map fun n => net.byName (n.take 255) else some (net.byAddr (htonl addr))

theorem check_ok {hp : Except HErr Hostent} (h : checkHostent hp = .ok) : ∃ e n, hp = .ok e ∧ e.name = some n ∧ e.addrtype = AF_INET := by
  unfold checkHostent at h
  split at h
  · simp at h
  · simp at h
  · simp at h
  · simp at h
  · rename_i e
    split at h
    · simp at h
    · rename_i hn
      simp only [not_or, not_not] at hn
      obtain ⟨n, hn1⟩ := Option.ne_none_iff_exists'.1 hn.1
      exact ⟨e, n, rfl, hn1, hn.2⟩

theorem canonName_ok {h : Heap} (hw : Wf h) (hp : Except HErr Hostent) :
    (∃ c h', canonName hp h = (.error c, h') ∧ Wf h' ∧ h'.grant = h.grant ∧ h'.blocks = h.blocks ∧ c ≠ .ok ∧ (c = .memory → ¬∀ i, h.grant i = true)) ∨
    (∃ p h' e n, canonName hp h = (.ok p, h') ∧ hp = .ok e ∧ e.name = some n ∧ Wf h' ∧ h'.grant = h.grant ∧ h.blocks p = none ∧ h'.blocks = fun i => if i = p then some (.str n) else h.blocks i) := by
  by_cases hc : checkHostent hp = .ok
  · obtain ⟨e, n, rfl, hn, _⟩ := check_ok hc
    unfold canonName
    rw [hc]
    simp only [hn, Option.getD_some]
    rcases alloc_cases hw (.str n) with ⟨h', e1, e2, e3, e4, e5⟩ | ⟨c, h', e1, e2, e3, e4, e5⟩
    · rw [e1]
      exact Or.inl ⟨_, _, rfl, e2, e3, e4, by simp, fun _ => e5⟩
    · rw [e1]
      exact Or.inr ⟨_, _, e, n, rfl, rfl, hn, e2, e3, e4, e5⟩
  · refine Or.inl ⟨checkHostent hp, h, ?_, hw, rfl, rfl, hc, ?_⟩
    · unfold canonName
      split
      · rename_i h1; exact absurd h1 hc
      · rename_i h1 ; exact absurd h1 hc
      · rfl
    · intro hm
      exfalso
      unfold checkHostent at hm
      split at hm <;> first | (simp at hm; done) | (split at hm <;> simp at hm)

theorem single_ok (h0 : Heap) (hw : Wf h0) (net : Net) (service : Option Bytes) (addr : Nat) (hints : Hints) :
    Outcome h0 (single net service addr hints h0) (fun r => ∃ c, r = [entry hints (portOf service) c (htonl addr)] ∧
      (if hints.numericserv = false ∧ hints.canonname = true then ∃ e n, canonSource net addr = some (.ok e) ∧ e.name = some n ∧ c = some n else c = none)) := by
  obtain ⟨a, h', e, hw', hg', hcase⟩ := allocEntry_ok hw hints (htonl addr) (portOf service)
  unfold single
  rw [e]
  simp only [Option.bind_eq_bind, Option.bind_some]
  rcases hcase with ⟨rfl, hb, hng⟩ | ⟨a', s, rfl, hne, ha0, hs0, hb⟩
  · exact ⟨_, _, _, rfl, hw', Or.inl ⟨by simp, rfl, hb, fun _ => hng⟩⟩
  · simp only
    have hA : h'.blocks a' = some (.ai hints.socktype hints.protocol s none none) := by rw [hb]; simp
    have hS : h'.blocks s = some (.sin (portOf service) (htonl addr)) := by rw [hb]; simp [Ne.symm hne]
    have hother : ∀ i, i ≠ a' → i ≠ s → h'.blocks i = h0.blocks i := fun i h1 h2 => by rw [hb]; simp [h1, h2]
    by_cases hcond : hints.numericserv = false ∧ hints.canonname = true
    · simp only [hcond, and_self, if_true]
      have herr : ∀ c h2, Wf h2 → h2.blocks = h'.blocks → c ≠ Code.ok → (c = .memory → ¬∀ i, h0.grant i = true) →
          ∀ P, Outcome h0 ((freeaddrinfo (some a') h2).map fun h => (c, none, h)) P := by
        intro c h2 hw2 hb2 hc hng P
        obtain ⟨h3, e3, hb3, hc3, _⟩ := returned_free hw2 (b0 := h0.blocks) (p := some a') (es := [entry hints (portOf service) none (htonl addr)])
          ⟨[a', s], by rw [hb2]; exact Chain.cons hA hS .none .nil, by simp [hne], by simp [ha0, hs0], by
            intro i hi
            simp only [List.mem_cons, List.not_mem_nil, or_false, not_or] at hi
            rw [hb2]; exact hother i hi.1 hi.2⟩
        rw [e3]
        refine ⟨_, _, _, rfl, fun i hi => ?_, Or.inl ⟨hc, rfl, hb3, hng⟩⟩
        rw [hb3]
        by_cases h1 : i = a'
        · rw [h1]; exact ha0
        · by_cases h2' : i = s
          · rw [h2']; exact hs0
          · rw [← hother i h1 h2', ← hb2]; exact hw2 i (by omega)
      have hmain : ∀ hp, canonSource net addr = some hp → Outcome h0 (match canonName hp h' with
          | (.ok c, h) =>
            match h.blocks a' with
            | some (.ai st pr s _ nx) => some (Code.ok, some (some a'), h.store a' (.ai st pr s (some c) nx))
            | _ => none
          | (.error e, h) => (freeaddrinfo (some a') h).map fun h => (e, none, h)) (fun r => ∃ c, r = [entry hints (portOf service) c (htonl addr)] ∧ ∃ e n, canonSource net addr = some (.ok e) ∧ e.name = some n ∧ c = some n) := by
        intro hp hsrc
        rcases canonName_ok hw' hp with ⟨c, h2, e1, e2, e3, e4, e5, e6⟩ | ⟨p, h2, en, n, e1, rfl, e3, e4, e5, e6, e7⟩
        · rw [e1]
          exact herr c h2 e2 e4 e5 (fun hm => by rw [← hg']; exact e6 hm) _
        · rw [e1]
          have hpa : p ≠ a' := fun e => by rw [e, hA] at e6; simp at e6
          have hps : p ≠ s := fun e => by rw [e, hS] at e6; simp at e6
          have hA2 : h2.blocks a' = some (.ai hints.socktype hints.protocol s none none) := by rw [e7]; simp only; rw [if_neg (Ne.symm hpa), hA]
          simp only [hA2]
          refine ⟨_, _, _, rfl, ?_, Or.inr ⟨rfl, some a', _, rfl, ⟨[a', s, p], ?_, by simp [hne, Ne.symm hpa, Ne.symm hps], ?_, ?_⟩, some n, rfl, en, n, hsrc, e3, rfl⟩⟩
          · intro i hi
            have hql := e4.lt hA2
            show (if i = a' then _ else h2.blocks i) = none
            rw [if_neg (by have : h2.calls ≤ i := hi; omega)]
            exact e4 i hi
          · refine Chain.cons (cs := [p]) (ids := []) (s := s) (nx := none) (c := some p) (by simp [Heap.store]) ?_ (.some ?_) .nil
            · simp only [Heap.store, if_neg (Ne.symm hne), e7, if_neg (Ne.symm hps), hS]
            · simp only [Heap.store, if_neg hpa, e7, if_true]
          · have : h0.blocks p = none := by rw [← hother p hpa hps]; exact e6
            simp [ha0, hs0, this]
          · intro i hi
            simp only [List.mem_cons, List.not_mem_nil, or_false, not_or] at hi
            simp only [Heap.store, if_neg hi.1, e7, if_neg hi.2.2]
            exact hother i hi.1 hi.2.1
      by_cases hl : addr = INADDR_LOOPBACK ∨ addr = INADDR_ANY
      · rw [if_pos hl]
        unfold myCanonName
        cases hh : net.hostname with
        | none =>
          simp only
          exact herr .fail h' hw' rfl (by simp) (by simp) _
        | some n =>
          simp only
          exact hmain _ (by simp [canonSource, hl, hh])
      · rw [if_neg hl]
        exact hmain _ (by simp [canonSource, hl])
    · simp only [hcond, if_false]
      refine ⟨_, _, _, rfl, hw', Or.inr ⟨rfl, some a', _, rfl, ⟨[a', s], Chain.cons hA hS .none .nil, by simp [hne], by simp [ha0, hs0], ?_⟩, none, rfl, rfl⟩⟩
      intro i hi
      simp only [List.mem_cons, List.not_mem_nil, or_false, not_or] at hi
      exact hother i hi.1 hi.2

theorem ofNat_mod (a : UInt8) {n : Nat} (h : n = a.toNat) : UInt8.ofNat n = a := by subst h; simp

theorem htonl_ntohl (b : Bytes) (hb : b.length = 4) : htonl (ntohl b) = b := by
  match b, hb with
  | [x, y, z, w], _ =>
    have hx := x.toNat_lt; have hy := y.toNat_lt; have hz := z.toNat_lt; have hw := w.toNat_lt
    simp only [ntohl, htonl, List.foldl_cons, List.foldl_nil]
    rw [ofNat_mod x (by omega), ofNat_mod y (by omega), ofNat_mod z (by omega), ofNat_mod w (by omega)]

theorem Outcome.mono {h0 : Heap} {r : Res} {P Q : List Entry → Prop} (h : Outcome h0 r P) (hPQ : ∀ es, P es → Q es) : Outcome h0 r Q := by
  obtain ⟨code, res, h', e, hw, hc⟩ := h
  exact ⟨code, res, h', e, hw, hc.imp id fun ⟨h1, p, es, h2, h3, h4⟩ => ⟨h1, p, es, h2, h3, hPQ es h4⟩⟩

/-- The port, socket type and protocol of every entry. -/
def Uniform (hints : Hints) (port : Nat) (es : List Entry) : Prop := ∀ e ∈ es, e.port = port ∧ e.socktype = (if hints.socktype = 0 then SOCK_STREAM else hints.socktype) ∧ e.protocol = hints.protocol

/-- Whatever fails, memory included: an error and no trace in memory, or a list of all the addresses asked for, in order, with the port, type and protocol asked for, which freeaddrinfo returns to the last block. -/
theorem C139_getaddrinfo (net : Net) (hp : ∀ n ip, net.pton n = some ip → ip.length = 4) (node service : Option Bytes) (hints : Hints) (h : Heap) (hw : Wf h) :
    ∃ code res h', getaddrinfo net node service (some hints) h = some (code, res, h') ∧ Wf h' ∧
      ((code ≠ .ok ∧ res = none ∧ h'.blocks = h.blocks ∧ (code = .memory → ¬∀ i, h.grant i = true)) ∨
        (code = .ok ∧ ∃ p es ips, res = some p ∧ Asked net hints.passive hints.numerichost node ips ∧ es.map (·.ip) = ips ∧ Uniform hints (portOf service) es ∧ Returned h.blocks h'.blocks p es ∧
          ∃ h'', freeaddrinfo p h' = some h'' ∧ h''.blocks = h.blocks)) := by
  have key : Outcome h (getaddrinfo net node service (some hints) h) (fun es => ∃ ips, Asked net hints.passive hints.numerichost node ips ∧ es.map (·.ip) = ips ∧ Uniform hints (portOf service) es) := by
    have herr : ∀ c, c ≠ Code.ok → c ≠ Code.memory → ∀ P, Outcome h (some (c, none, h)) P := fun c hc hm P => ⟨_, _, _, rfl, hw, Or.inl ⟨hc, rfl, rfl, fun e => absurd e hm⟩⟩
    unfold getaddrinfo
    simp only [Option.getD_some]
    split
    · exact herr _ (by simp) (by simp) _
    · generalize hh : (if hints.socktype = 0 then { hints with socktype := SOCK_STREAM } else hints) = hints'
      have e1 : hints'.socktype = (if hints.socktype = 0 then SOCK_STREAM else hints.socktype) := by rw [← hh]; split <;> rfl
      have e2 : hints'.protocol = hints.protocol := by rw [← hh]; split <;> rfl
      have e3 : hints'.passive = hints.passive := by rw [← hh]; split <;> rfl
      have e4 : hints'.numerichost = hints.numerichost := by rw [← hh]; split <;> rfl
      have hs : ∀ addr ip, htonl addr = ip → Asked net hints.passive hints.numerichost node [ip] → Outcome h (single net service addr hints' h) (fun es => ∃ ips, Asked net hints.passive hints.numerichost node ips ∧ es.map (·.ip) = ips ∧ Uniform hints (portOf service) es) := by
        rintro addr ip rfl ha
        refine (single_ok h hw net service addr hints').mono ?_
        rintro es ⟨c, rfl, _⟩
        refine ⟨_, ha, rfl, ?_⟩
        intro e he
        rw [List.mem_singleton] at he
        subst he
        exact ⟨rfl, e1, e2⟩
      cases node with
      | none =>
        simp only
        split
        · exact herr _ (by simp) (by simp) _
        · split
          · rename_i hpas
            exact hs _ _ (by decide) (.wildcard (by rw [← e3]; exact hpas))
          · rename_i hpas
            exact hs _ _ (by decide) (.loopback (by rw [← e3]; simpa using hpas))
      | some n =>
        simp only
        split
        · rename_i hn
          subst hn
          exact hs _ _ (by decide) .empty
        · rename_i hn
          split
          · rename_i hnum
            cases hpt : net.pton n with
            | none => exact herr _ (by simp) (by simp) _
            | some ip => exact hs _ _ (htonl_ntohl ip (hp n ip hpt)) (.number hn (by rw [← e4]; exact hnum) hpt)
          · rename_i hnum
            unfold byName
            by_cases hc : checkHostent (net.byName n) = .ok
            · obtain ⟨e, nm, he, hname, _⟩ := check_ok hc
              rw [he] at hc ⊢
              rw [hc]
              simp only
              refine (nameLoop_start h hw hints' (portOf service) _ e.addrs).mono ?_
              rintro es rfl
              refine ⟨_, .host hn (by rw [← e4]; simpa using hnum) he, ?_, ?_⟩
              · cases e.addrs with
                | nil => rfl
                | cons ip ips => simp [hostEntries, entry, Function.comp_def]
              · intro x hx
                cases haddr : e.addrs with
                | nil => rw [haddr] at hx; simp [hostEntries] at hx
                | cons ip ips =>
                  rw [haddr] at hx
                  simp only [hostEntries, List.mem_cons, List.mem_map] at hx
                  rcases hx with rfl | ⟨y, _, rfl⟩ <;> exact ⟨rfl, e1, e2⟩
            · have hm : checkHostent (net.byName n) ≠ .memory := by
                intro hm
                unfold checkHostent at hm
                split at hm <;> first | (simp at hm; done) | (split at hm <;> simp at hm)
              split
              · exact absurd (by assumption) hc
              · exact absurd (by assumption) hc
              · exact herr _ hc hm _
  obtain ⟨code, res, h', e, hw', hc⟩ := key
  refine ⟨code, res, h', e, hw', hc.imp id ?_⟩
  rintro ⟨h1, p, es, h2, h3, ips, h4, h5, h6⟩
  obtain ⟨h'', e2, hb, _⟩ := returned_free hw' h3
  exact ⟨h1, p, es, ips, h2, h4, h5, h6, h3, h'', e2, hb⟩

theorem nameLoop_code (hints : Hints) (port : Nat) (name : Bytes) : ∀ ips l q h c res h', nameLoop hints port name ips l q h = some (c, res, h') → c = .ok ∨ c = .memory := by
  intro ips
  induction ips with
  | nil => intro l q h c res h' e; simp [nameLoop] at e; exact Or.inl e.1.symm
  | cons ip ips ih =>
    intro l q h c res h' e
    rw [nameLoop] at e
    simp only [Option.bind_eq_bind, Option.bind_eq_some_iff] at e
    obtain ⟨⟨a, h1⟩, _, e⟩ := e
    cases a with
    | none =>
      simp only [Option.map_eq_some_iff, Prod.mk.injEq] at e
      obtain ⟨_, _, e, _⟩ := e
      exact Or.inr e.symm
    | some a =>
      simp only at e
      cases l with
      | none =>
        simp only at e
        split at e
        · simp only [Option.map_eq_some_iff, Prod.mk.injEq] at e
          obtain ⟨_, _, e, _⟩ := e
          exact Or.inr e.symm
        · split at e
          · exact ih _ _ _ _ _ _ e
          · simp at e
      | some l =>
        simp only at e
        cases q with
        | none => simp at e
        | some q =>
          simp only at e
          split at e
          · exact ih _ _ _ _ _ _ e
          · simp at e

/-- A known host is found when memory suffices: the list of all its addresses, the first with its canonical name. -/
theorem C139_known_host (net : Net) (node : Bytes) (hn : node ≠ []) (service : Option Bytes) (hints : Hints) (hf : hints.family = AF_INET ∨ hints.family = AF_UNSPEC) (hnum : hints.numerichost = false)
    (e : Hostent) (nm : Bytes) (he : net.byName node = .ok e) (hname : e.name = some nm) (ht : e.addrtype = AF_INET) (h : Heap) (hw : Wf h) (hg : ∀ i, h.grant i = true) :
    ∃ p es h', getaddrinfo net (some node) service (some hints) h = some (.ok, some p, h') ∧ Returned h.blocks h'.blocks p es ∧ es.map (·.ip) = e.addrs ∧ Uniform hints (portOf service) es ∧
      ∀ i x, es[i]? = some x → x.canon = if i = 0 then some nm else none := by
  have hff : ¬(hints.family ≠ AF_INET ∧ hints.family ≠ AF_UNSPEC) := by tauto
  have hck : checkHostent (net.byName node) = .ok := by rw [he]; simp [checkHostent, hname, ht]
  unfold getaddrinfo
  simp only [Option.getD_some, if_neg hff]
  generalize hh : (if hints.socktype = 0 then { hints with socktype := SOCK_STREAM } else hints) = hints'
  have e1 : hints'.socktype = (if hints.socktype = 0 then SOCK_STREAM else hints.socktype) := by rw [← hh]; split <;> rfl
  have e2 : hints'.protocol = hints.protocol := by rw [← hh]; split <;> rfl
  have e4 : hints'.numerichost = false := by rw [← hh, ← hnum]; split <;> rfl
  simp only [if_neg hn, e4, Bool.false_eq_true, if_false]
  have hb : byName net node service hints' h = nameLoop hints' (portOf service) nm e.addrs none none h := by
    unfold byName
    rw [hck, he]
    simp [hname]
  rw [hb]
  obtain ⟨code, res, h', r1, r2, r3⟩ := nameLoop_start h hw hints' (portOf service) nm e.addrs
  rcases r3 with ⟨r4, _, _, r5⟩ | ⟨rfl, p, es, rfl, r5, rfl⟩
  · rcases nameLoop_code _ _ _ _ _ _ _ _ _ _ r1 with r6 | r6
    · exact absurd r6 r4
    · exact absurd hg (r5 r6)
  · refine ⟨p, _, h', r1, r5, ?_, ?_, ?_⟩
    · cases e.addrs with
      | nil => rfl
      | cons ip ips => simp [hostEntries, entry, Function.comp_def]
    · intro x hx
      cases haddr : e.addrs with
      | nil => rw [haddr] at hx; simp [hostEntries] at hx
      | cons ip ips =>
        rw [haddr] at hx
        simp only [hostEntries, List.mem_cons, List.mem_map] at hx
        rcases hx with rfl | ⟨y, _, rfl⟩ <;> exact ⟨rfl, e1, e2⟩
    · intro i x hx
      cases haddr : e.addrs with
      | nil => rw [haddr] at hx; simp [hostEntries] at hx
      | cons ip ips =>
        rw [haddr] at hx
        cases i with
        | zero => simp [hostEntries] at hx; rw [← hx]; rfl
        | succ i =>
          simp only [hostEntries, List.getElem?_cons_succ, List.getElem?_map, Option.map_eq_some_iff] at hx
          obtain ⟨y, _, rfl⟩ := hx
          rfl

theorem single_code {net : Net} {service : Option Bytes} {addr : Nat} {hints : Hints} {h : Heap} (hw : Wf h) (hg : ∀ i, h.grant i = true) (hc : hints.canonname = false)
    {code : Code} {res : Option (Option Nat)} {h' : Heap} (hr : single net service addr hints h = some (code, res, h')) : code = .ok := by
  obtain ⟨a, h1, e, -, -, hcase⟩ := allocEntry_ok hw hints (htonl addr) (portOf service)
  unfold single at hr
  rw [e] at hr
  simp only [Option.bind_eq_bind, Option.bind_some] at hr
  rcases hcase with ⟨rfl, -, hng⟩ | ⟨a', s, rfl, -, -, -, -⟩
  · exact absurd hg hng
  · simp only at hr
    rw [if_neg (by simp [hc])] at hr
    simp only [Option.some.injEq, Prod.mk.injEq] at hr
    exact hr.1.symm

/-- **C139.** What needs no lookup is found, while there is memory: no node but a service gives the wildcard address for a server (AI_PASSIVE) and the loopback address for a client, an empty node
gives the wildcard, a number with AI_NUMERICHOST itself, each as one entry. (Without AI_CANONNAME.) -/
theorem C139_without_lookup (net : Net) (hp : ∀ n ip, net.pton n = some ip → ip.length = 4) (node service : Option Bytes) (ip : Bytes) (hints : Hints)
    (hf : hints.family = AF_INET ∨ hints.family = AF_UNSPEC) (hc : hints.canonname = false)
    (hask : (node = none ∧ service ≠ none ∧ ip = if hints.passive then [0, 0, 0, 0] else [127, 0, 0, 1]) ∨ (node = some [] ∧ ip = [0, 0, 0, 0]) ∨
      (∃ n, n ≠ [] ∧ node = some n ∧ hints.numerichost = true ∧ net.pton n = some ip)) (h : Heap) (hw : Wf h) (hg : ∀ i, h.grant i = true) :
    ∃ p es h', getaddrinfo net node service (some hints) h = some (.ok, some p, h') ∧ Returned h.blocks h'.blocks p es ∧ es.map (·.ip) = [ip] ∧ Uniform hints (portOf service) es := by
  have hff : ¬(hints.family ≠ AF_INET ∧ hints.family ≠ AF_UNSPEC) := by tauto
  obtain ⟨code, res, h', e, -, hcase⟩ := C139_getaddrinfo net hp node service hints h hw
  have hcode : code = .ok := by
    unfold getaddrinfo at e
    simp only [Option.getD_some, if_neg hff] at e
    generalize hh : (if hints.socktype = 0 then { hints with socktype := SOCK_STREAM } else hints) = hints' at e
    have e3 : hints'.canonname = false := by rw [← hh, ← hc]; split <;> rfl
    have e4 : hints'.numerichost = hints.numerichost := by rw [← hh]; split <;> rfl
    rcases hask with ⟨rfl, hs, -⟩ | ⟨rfl, -⟩ | ⟨n, hn, rfl, hnum, hpt⟩
    · simp only [if_neg hs] at e
      split at e
      · exact single_code hw hg e3 e
      · exact single_code hw hg e3 e
    · simp only [if_true] at e; exact single_code hw hg e3 e
    · simp only [if_neg hn, e4, hnum, if_true, hpt] at e
      exact single_code hw hg e3 e
  rcases hcase with ⟨hne, -⟩ | ⟨-, p, es, ips, rfl, ha, hips, hu, hr, -⟩
  · exact absurd hcode hne
  · subst hcode
    refine ⟨p, es, h', e, hr, ?_, hu⟩
    rw [hips]
    rcases hask with ⟨rfl, hs, rfl⟩ | ⟨rfl, rfl⟩ | ⟨n, hn, rfl, hnum, hpt⟩
    · cases ha with
      | wildcard hp => rw [hp]; rfl
      | loopback hp => rw [hp]; rfl
    · cases ha with
      | empty => rfl
      | number hne => exact absurd rfl hne
      | _ => simp_all
    · cases ha with
      | empty => exact absurd rfl hn
      | number _ _ h2 => rw [hpt] at h2; cases h2; rfl
      | _ => simp_all

/-- No node, service "80", no AI_PASSIVE: the loopback address. -/
example : ((getaddrinfo ⟨fun _ => .error .noData, fun _ => .error .noData, none, fun _ => none⟩ none (some [56, 48]) (some ⟨AF_INET, SOCK_STREAM, 0, false, false, false, false⟩) ⟨fun _ => none, 0, fun _ => true⟩).map
    fun r => (r.1, r.2.1.isSome, r.2.2.blocks 1)) = some (.ok, true, some (.sin 80 [127, 0, 0, 1])) := by decide +kernel

/-- **C139.** Refused without touching memory: another family, neither node nor service, text that is no number where a number is asked for. -/
theorem C139_refused (net : Net) (node service : Option Bytes) (hints : Hints) (h : Heap) :
    (hints.family ≠ AF_INET → hints.family ≠ AF_UNSPEC → getaddrinfo net node service (some hints) h = some (.family, none, h)) ∧
    (hints.family = AF_INET ∨ hints.family = AF_UNSPEC → getaddrinfo net none none (some hints) h = some (.noname, none, h) ∧
      ∀ n, n ≠ [] → hints.numerichost = true → net.pton n = none → getaddrinfo net (some n) service (some hints) h = some (.fail, none, h)) := by
  constructor
  · intro h1 h2
    unfold getaddrinfo
    simp only [Option.getD_some, if_pos (And.intro h1 h2)]
  · intro hf
    have hff : ¬(hints.family ≠ AF_INET ∧ hints.family ≠ AF_UNSPEC) := by tauto
    refine ⟨?_, fun n hn hnum hpt => ?_⟩
    · unfold getaddrinfo
      simp only [Option.getD_some, if_neg hff, if_true]
    · unfold getaddrinfo
      simp only [Option.getD_some, if_neg hff]
      have e4 : (if hints.socktype = 0 then { hints with socktype := SOCK_STREAM } else hints).numerichost = true := by rw [← hnum]; split <;> rfl
      simp only [if_neg hn, e4, if_true, hpt]

/-- A decimal service is that port. -/
theorem C139_port (n : Nat) (hn : n < 65536) : portOf (some (CloseFromSpec.decimal n)) = n := by
  obtain ⟨h1, h2, h3⟩ := CloseFrom.decimal_digits n
  have hdig : ∀ c ∈ CloseFromSpec.decimal n, (48 ≤ c && c ≤ 57) = true ∧ ((c.toNat : Int) - 48) = (CloseFrom.digit c : Int) ∧ c ≠ 45 ∧ c ≠ 43 := by
    intro c hc
    have hd := h1 c hc
    unfold CloseFrom.digit at hd
    have hc48 : 48 ≤ c ∧ c ≤ 57 := by
      by_contra hh
      rw [if_neg hh] at hd
      split at hd
      · rename_i h'; have := UInt8.le_iff_toNat_le.1 h'.1; have e : (97 : UInt8).toNat = 97 := rfl; omega
      · split at hd
        · rename_i h'; have := UInt8.le_iff_toNat_le.1 h'.1; have e : (65 : UInt8).toNat = 65 := rfl; omega
        · omega
    have a1 := UInt8.le_iff_toNat_le.1 hc48.1
    have e48 : (48 : UInt8).toNat = 48 := rfl
    refine ⟨by simp [hc48], ?_, ?_, ?_⟩
    · rw [CloseFrom.digit, if_pos hc48]; omega
    · rintro rfl; exact absurd hc48.1 (by decide)
    · rintro rfl; exact absurd hc48.1 (by decide)
  have htw : (CloseFromSpec.decimal n).takeWhile (fun c => 48 ≤ c && c ≤ 57) = CloseFromSpec.decimal n := by
    have := List.takeWhile_append_of_pos (p := fun c : UInt8 => 48 ≤ c && c ≤ 57) (l₁ := CloseFromSpec.decimal n) (l₂ := []) (fun c hc => (hdig c hc).1)
    simpa using this
  have hfold : ∀ (l : List UInt8) (m : Nat), (∀ c ∈ l, ((c.toNat : Int) - 48) = (CloseFrom.digit c : Int)) → l.foldl (fun (n : Int) c => 10 * n + ((c.toNat : Int) - 48)) (m : Int) = ((l.foldl (fun m c => 10 * m + CloseFrom.digit c) m : Nat) : Int) := by
    intro l
    induction l with
    | nil => intro m _; rfl
    | cons c l ih =>
      intro m h
      simp only [List.foldl_cons]
      rw [h c (by simp)]
      have := ih (10 * m + CloseFrom.digit c) (fun c hc => h c (by simp [hc]))
      rw [← this]
      congr 1
  have hf := hfold (CloseFromSpec.decimal n) 0 (fun c hc => (hdig c hc).2.1)
  rw [h2] at hf
  have hv : (CloseFromSpec.decimal n).foldl (fun (n : Int) c => 10 * n + ((c.toNat : Int) - 48)) 0 = (n : Int) := hf
  unfold portOf
  simp only
  obtain ⟨c, t, hct⟩ := List.exists_cons_of_ne_nil h3
  have hc := hdig c (by rw [hct]; simp)
  split
  · rename_i heq; rw [hct] at heq; exact absurd (List.cons.inj heq).1 hc.2.2.1
  · rename_i heq; rw [hct] at heq; exact absurd (List.cons.inj heq).1 hc.2.2.2
  · rw [htw, hv]; omega

/-- A host with two addresses, port 80, when memory suffices, when the third allocation fails and when the last does. -/
def exampleNet : Net := ⟨fun n => if n = [104] then .ok ⟨some [72], AF_INET, [[10, 0, 0, 1], [10, 0, 0, 2]]⟩ else .error .hostNotFound, fun _ => .error .noData, some [104], fun _ => none⟩

example : ((getaddrinfo exampleNet (some [104]) (some [56, 48]) (some ⟨AF_INET, 0, 6, false, false, false, false⟩) ⟨fun _ => none, 0, fun _ => true⟩).map fun r => (r.1, r.2.1)) = some (.ok, some (some 0)) ∧
    ((getaddrinfo exampleNet (some [104]) (some [56, 48]) (some ⟨AF_INET, 0, 6, false, false, false, false⟩) ⟨fun _ => none, 0, fun i => i != 4⟩).map fun r => (r.1, r.2.1, (List.range 10).map fun i => r.2.2.blocks i)) = some (.memory, none, List.replicate 10 none) ∧
    Wf ⟨fun _ => none, 0, fun _ => true⟩ := by
  refine ⟨by decide +kernel, by decide +kernel, fun _ _ => rfl⟩

/-! ## Findings -/

/-- A host without addresses is success with an empty list. -/
theorem C139_empty_list_negated : ((getaddrinfo ⟨fun _ => .ok ⟨some [72], AF_INET, []⟩, fun _ => .error .noData, none, fun _ => none⟩ (some [104]) none none ⟨fun _ => none, 0, fun _ => true⟩).map fun r => (r.1, r.2.1)) = some (.ok, some none) := by
  decide +kernel

/-- A service by name is port 0 ("http"), and 65616 is port 80. -/
theorem C139_service_name_negated : portOf (some "http".toUTF8.data.toList) = 0 ∧ portOf (some "65616".toUTF8.data.toList) = 80 := by decide +kernel

/-- With AI_NUMERICSERV the canonical name asked for is not given, and the call succeeds. -/
theorem C139_canonname_negated (net : Net) (addr : Nat) (service : Option Bytes) (hints : Hints) (hs : hints.numericserv = true) (h : Heap) (hw : Wf h) :
    Outcome h (single net service addr hints h) fun es => ∀ e ∈ es, e.canon = none := by
  refine (single_ok h hw net service addr hints).mono ?_
  rintro es ⟨c, rfl, hc⟩
  rw [if_neg (by simp [hs])] at hc
  intro e he
  rw [List.mem_singleton] at he
  rw [he]; exact hc

/-! ## getnameinfo -/

theorem fits_some {s t : Bytes} {len : Nat} (h : fits s len = some t) : t = s ∧ t.length < len := by
  unfold fits at h
  split at h
  · simp at h
  · simp at h; exact ⟨h.symm, by rw [← h]; omega⟩

theorem serviceName_ne_ok (serv : Nat → Bool → Option Bytes) (dec : Nat → Bytes) (port len : Nat) (f : NFlags) : serviceName serv dec port len f ≠ .error .ok := by
  unfold serviceName
  simp only
  split
  · split
    · split <;> simp
    · split <;> simp
  · split <;> simp

theorem hostName_ne_ok (net : Net) (ntoa : Bytes → Bytes) (ip : Bytes) (len : Nat) (f : NFlags) : hostName net ntoa ip len f ≠ .error .ok := by
  unfold hostName
  simp only
  split
  · by_cases hck : checkHostent (net.byAddr ip) = .ok
    · obtain ⟨e, n, he, hn, _⟩ := check_ok hck
      rw [hck, he]
      simp only
      split <;> simp
    · split
      · exact absurd (by assumption) hck
      · split
        · simpa using hck
        · split <;> simp
  · split <;> simp

/-- Texts are stored completely or an error is reported: the numeric text, the host's name, or the part of it before the first dot. -/
theorem C139_getnameinfo (net : Net) (ntoa : Bytes → Bytes) (serv : Nat → Bool → Option Bytes) (dec : Nat → Bytes) (ip : Bytes) (port : Nat) (node service : Option Nat) (f : NFlags) {a b : Option Bytes}
    (h : getnameinfo net ntoa serv dec ip port node service f = (.ok, a, b)) :
    (∀ len, node = some len → ∃ t, a = some t ∧ t.length < len ∧ ((t = ntoa ip ∧ (f.numerichost = true ∨ (f.namereqd = false ∧ checkHostent (net.byAddr ip) ≠ .ok))) ∨
      ∃ e n, f.numerichost = false ∧ net.byAddr ip = .ok e ∧ e.name = some n ∧ t = if f.nofqdn then n.takeWhile (· != 46) else n)) ∧
    (∀ len, service = some len → ∃ t, b = some t ∧ t.length < len ∧ (t = dec port ∨ (f.numericserv = false ∧ serv port f.dgram = some t))) := by
  unfold getnameinfo at h
  split at h
  · simp at h
  · rename_i hboth
    have hserv : ∀ len s, serviceName serv dec port len f = .ok s → s.length < len ∧ (s = dec port ∨ (f.numericserv = false ∧ serv port f.dgram = some s)) := by
      intro len s hs
      have hnum : ∀ s, (match fits (dec port) len with | some t => (.ok t : Except Code Bytes) | none => .error .memory) = .ok s → s.length < len ∧ s = dec port := by
        intro s hs
        cases hft : fits (dec port) len with
        | none => rw [hft] at hs; simp at hs
        | some t =>
          rw [hft] at hs
          simp at hs
          subst hs
          exact ⟨(fits_some hft).2, (fits_some hft).1⟩
      unfold serviceName at hs
      simp only at hs
      split at hs
      · rename_i hns
        cases hsv : serv port f.dgram with
        | none =>
          rw [hsv] at hs
          exact ⟨(hnum s hs).1, Or.inl (hnum s hs).2⟩
        | some n =>
          rw [hsv] at hs
          simp only at hs
          cases hft : fits n len with
          | none => rw [hft] at hs; simp at hs
          | some t =>
            rw [hft] at hs
            simp at hs
            subst hs
            exact ⟨(fits_some hft).2, Or.inr ⟨hns, by rw [(fits_some hft).1]⟩⟩
      · exact ⟨(hnum s hs).1, Or.inl (hnum s hs).2⟩
    have hhost : ∀ len t, hostName net ntoa ip len f = .ok t → t.length < len ∧ ((t = ntoa ip ∧ (f.numerichost = true ∨ (f.namereqd = false ∧ checkHostent (net.byAddr ip) ≠ .ok))) ∨
        ∃ e n, f.numerichost = false ∧ net.byAddr ip = .ok e ∧ e.name = some n ∧ t = if f.nofqdn then n.takeWhile (· != 46) else n) := by
      intro len t ht
      have hnum : ∀ s, (match fits (ntoa ip) len with | some t => (.ok t : Except Code Bytes) | none => .error .memory) = .ok s → s.length < len ∧ s = ntoa ip := by
        intro s hs
        cases hft : fits (ntoa ip) len with
        | none => rw [hft] at hs; simp at hs
        | some t =>
          rw [hft] at hs
          simp at hs
          subst hs
          exact ⟨(fits_some hft).2, (fits_some hft).1⟩
      unfold hostName at ht
      simp only at ht
      split at ht
      · rename_i hnh
        by_cases hck : checkHostent (net.byAddr ip) = .ok
        · obtain ⟨e, n, he, hn, _⟩ := check_ok hck
          rw [hck, he] at ht
          simp only [hn, Option.getD_some] at ht
          cases hft : fits n len with
          | none => rw [hft] at ht; simp at ht
          | some u =>
            rw [hft] at ht
            simp only [Except.ok.injEq] at ht
            obtain ⟨h1, h2⟩ := fits_some hft
            subst h1
            subst ht
            refine ⟨?_, Or.inr ⟨e, u, hnh, he, hn, rfl⟩⟩
            split
            · exact Nat.lt_of_le_of_lt (List.takeWhile_prefix _).length_le h2
            · exact h2
        · split at ht
          · exact absurd (by assumption) hck
          · split at ht
            · simp at ht
            · rename_i hreq
              exact ⟨(hnum t ht).1, Or.inl ⟨(hnum t ht).2, Or.inr ⟨by simpa using hreq, hck⟩⟩⟩
      · rename_i hnh
        exact ⟨(hnum t ht).1, Or.inl ⟨(hnum t ht).2, Or.inl (by simpa using hnh)⟩⟩
    cases node with
    | none =>
      simp only at h
      refine ⟨fun len hl => by simp at hl, ?_⟩
      intro len hl
      subst hl
      simp only at h
      cases hs : serviceName serv dec port len f with
      | error c => rw [hs] at h; simp at h; obtain ⟨hc, _⟩ := h; subst hc; exact absurd hs (serviceName_ne_ok serv dec port len f)
      | ok s =>
        rw [hs] at h
        simp only [Prod.mk.injEq, true_and] at h
        exact ⟨s, h.2.symm, hserv len s hs⟩
    | some nlen =>
      simp only at h
      cases hh : hostName net ntoa ip nlen f with
      | error c => rw [hh] at h; simp [Except.map] at h; exact absurd (h.1 ▸ hh) (hostName_ne_ok net ntoa ip nlen f)
      | ok t =>
        rw [hh] at h
        simp only [Except.map] at h
        cases service with
        | none =>
          simp only [Prod.mk.injEq, true_and] at h
          refine ⟨fun len hl => ?_, fun len hl => by simp at hl⟩
          simp at hl
          subst hl
          exact ⟨t, h.1.symm, hhost _ t hh⟩
        | some slen =>
          simp only at h
          cases hs : serviceName serv dec port slen f with
          | error c => rw [hs] at h; simp at h; obtain ⟨hc, _⟩ := h; subst hc; exact absurd hs (serviceName_ne_ok serv dec port slen f)
          | ok s =>
            rw [hs] at h
            simp only [Prod.mk.injEq, true_and] at h
            refine ⟨fun len hl => ?_, fun len hl => ?_⟩
            · simp at hl
              subst hl
              exact ⟨t, h.1.symm, hhost _ t hh⟩
            · simp at hl
              subst hl
              exact ⟨s, h.2.symm, hserv _ s hs⟩

/-- On a little-endian machine getservbyport, which takes the port in network order, is asked for the port with its bytes exchanged: port 80 is not called "http" but port 20480 is. -/
theorem C139_swapped_port_negated (db : Nat → Option Bytes) (dec : Nat → Bytes) (hdb : ∀ n, db n = if n = 80 then some [104] else none) (f : NFlags) (hf : f.numericserv = false) :
    serviceName (fun p _ => db (swap p)) dec 80 100 f = (if (dec 80).length ≥ 100 then .error .memory else .ok (dec 80)) ∧ serviceName (fun p _ => db (swap p)) dec 20480 100 f = .ok [104] := by
  constructor
  · simp only [serviceName, hf, if_true, swap, hdb]
    rw [if_neg (by decide)]
    simp only [fits]
    by_cases hl : (dec 80).length ≥ 100
    · simp only [hl, if_true]
    · simp only [hl, if_false]
  · simp [serviceName, hf, swap, hdb, fits]

end AddrInfo
