import Verif.Spec.BufHeap
import Verif.Lemmas.Buffer
/-! # Memory of buffers: the invariant and each call -/
namespace BufHeap
open Buffer (Buf Mode)

inductive Obj
  | gone
  | buf (p a : Nat) (b : Buf)
  | ptr (a : Nat)
  | str (a : Nat) (cells : List (Option UInt8))

def Obj.blocks : Obj → List Nat
  | .gone => []
  | .buf p a _ => [p, a]
  | .ptr _ => []
  | .str a _ => [a]

def Good (m : Nat → Option Block) : Obj → Prop
  | .gone => True
  | .buf p a b => m p = some (.buf a b.capacity b.used b.mode) ∧ m a = some (.arr b.mem)
  | .ptr _ => True
  | .str a c => m a = some (.arr c)

def blocks (os : List Obj) : List Nat := os.flatMap Obj.blocks

@[simp] theorem blocks_nil : blocks [] = [] := rfl
@[simp] theorem blocks_cons (o : Obj) (os : List Obj) : blocks (o :: os) = o.blocks ++ blocks os := rfl
@[simp] theorem blocks_append (a b : List Obj) : blocks (a ++ b) = blocks a ++ blocks b := by simp [blocks]

structure Inv (h : Heap) (os : List Obj) : Prop where
  good : ∀ o ∈ os, Good h.mem o
  nodup : (blocks os).Nodup
  only : ∀ a, h.mem a ≠ none → a ∈ blocks os
  lt : ∀ a ∈ blocks os, a < h.next

theorem Good.congr {m m' : Nat → Option Block} {o : Obj} (h : ∀ a ∈ o.blocks, m' a = m a) (g : Good m o) : Good m' o := by
  cases o with
  | gone => trivial
  | buf p a b => exact ⟨by rw [h p (by simp [Obj.blocks])]; exact g.1, by rw [h a (by simp [Obj.blocks])]; exact g.2⟩
  | ptr a => trivial
  | str a c => exact (h a (by simp [Obj.blocks])).trans g

theorem Good.alloc {m : Nat → Option Block} {o : Obj} (g : Good m o) : ∀ a ∈ o.blocks, m a ≠ none := by
  intro x hx
  cases o with
  | gone => simp [Obj.blocks] at hx
  | ptr a => simp [Obj.blocks] at hx
  | buf p a b => simp only [Obj.blocks, List.mem_cons, List.not_mem_nil, or_false] at hx; rcases hx with rfl | rfl <;> simp [g.1, g.2]
  | str a c =>
    simp only [Obj.blocks, List.mem_cons, List.not_mem_nil, or_false] at hx
    subst hx
    have : m x = some (.arr c) := g
    rw [this]; simp

theorem mem_blocks {os : List Obj} {o : Obj} (h : o ∈ os) {a : Nat} (ha : a ∈ o.blocks) : a ∈ blocks os := List.mem_flatMap.mpr ⟨o, h, ha⟩

/-- Allocated is exactly what the objects are made of. -/
theorem Inv.iff {h : Heap} {os : List Obj} (i : Inv h os) (a : Nat) : h.mem a ≠ none ↔ a ∈ blocks os := by
  refine ⟨i.only a, fun ha => ?_⟩
  obtain ⟨o, ho, ha⟩ := List.mem_flatMap.mp ha
  exact (i.good o ho).alloc a ha

theorem Inv.perm {h : Heap} {a b : List Obj} (i : Inv h a) (e : a.Perm b) : Inv h b where
  good o ho := i.good o (e.mem_iff.mpr ho)
  nodup := (e.flatMap_right Obj.blocks).nodup_iff.mp i.nodup
  only x hx := (e.flatMap_right Obj.blocks).mem_iff.mp (i.only x hx)
  lt x hx := i.lt x ((e.flatMap_right Obj.blocks).mem_iff.mpr hx)

/-- Some objects are replaced by others. -/
theorem Inv.change {h : Heap} {A r : List Obj} (i : Inv h (A ++ r)) (B : List Obj) (m : Nat → Option Block) (n : Nat)
    (hm : ∀ a, a ∉ blocks A → a < h.next → m a = h.mem a) (hn : h.next ≤ n) (hg : ∀ o ∈ B, Good m o) (hnd : (blocks B).Nodup)
    (hb : ∀ a ∈ blocks B, a < n ∧ (a ∈ blocks A ∨ h.next ≤ a)) (ho : ∀ a, m a ≠ none → a ∈ blocks B ∨ (a ∉ blocks A ∧ a < h.next)) : Inv ⟨m, n⟩ (B ++ r) := by
  have hnd' := i.nodup
  rw [blocks_append, List.nodup_append] at hnd'
  have hr : ∀ a ∈ blocks r, a ∉ blocks A ∧ a < h.next := fun a ha => ⟨fun hA => hnd'.2.2 a hA a ha rfl, i.lt a (by simp [ha])⟩
  refine ⟨?_, ?_, ?_, ?_⟩
  · intro o hoB
    rcases List.mem_append.mp hoB with h1 | h1
    · exact hg o h1
    · exact (i.good o (by simp [h1])).congr fun a ha => hm a (hr a (mem_blocks h1 ha)).1 (hr a (mem_blocks h1 ha)).2
  · rw [blocks_append, List.nodup_append]
    refine ⟨hnd, hnd'.2.1, ?_⟩
    rintro a ha b hb' rfl
    rcases (hb a ha).2 with h1 | h1
    · exact (hr a hb').1 h1
    · have := (hr a hb').2; omega
  · intro a ha
    rw [blocks_append, List.mem_append]
    rcases ho a ha with h1 | ⟨h1, h2⟩
    · exact .inl h1
    · have : a ∈ blocks (A ++ r) := i.only a (by rw [← hm a h1 h2]; exact ha)
      rw [blocks_append, List.mem_append] at this
      exact .inr (this.resolve_left h1)
  · intro a ha
    rw [blocks_append, List.mem_append] at ha
    rcases ha with h1 | h1
    · exact (hb a h1).1
    · exact Nat.lt_of_lt_of_le (hr a h1).2 hn

theorem store_eq {h : Heap} {a : Nat} {x : Block} (e : h.mem a = some x) (b : Block) : store h a b = some { h with mem := upd h.mem a (some b) } := by simp [store, e]
theorem free_eq {h : Heap} {a : Nat} {x : Block} (e : h.mem a = some x) : free h a = some { h with mem := upd h.mem a none } := by simp [free, e]

/-- The two blocks of a buffer. -/
theorem Inv.two {h : Heap} {p a : Nat} {b : Buf} {r : List Obj} (i : Inv h (.buf p a b :: r)) :
    p ≠ a ∧ p < h.next ∧ a < h.next ∧ h.mem p = some (.buf a b.capacity b.used b.mode) ∧ h.mem a = some (.arr b.mem) ∧ p ∉ blocks r ∧ a ∉ blocks r := by
  have h1 := i.nodup
  have h2 := i.lt p (by simp [Obj.blocks])
  have h3 := i.lt a (by simp [Obj.blocks])
  have g := i.good _ (List.mem_cons_self)
  simp only [blocks_cons, Obj.blocks, List.cons_append, List.nil_append, List.nodup_cons, List.mem_cons, not_or] at h1
  exact ⟨h1.1.1, h2, h3, g.1, g.2, h1.1.2, h1.2.1⟩

theorem load_eq {h : Heap} {p a : Nat} {b : Buf} {r : List Obj} (i : Inv h (.buf p a b :: r)) : load h p = some (a, b) := by
  obtain ⟨-, -, -, e1, e2, -, -⟩ := i.two
  simp [load, e1, e2]

/-- The memory outside a buffer is as it was. -/
def Same (h h' : Heap) (r : List Obj) : Prop := ∀ x ∈ blocks r, h'.mem x = h.mem x

theorem save_eq {h : Heap} {p a : Nat} {b : Buf} {r : List Obj} (i : Inv h (.buf p a b :: r)) (b' : Buf) :
    ∃ h', save h p a b' = some h' ∧ Inv h' (.buf p a b' :: r) ∧ Same h h' r := by
  obtain ⟨h1, h2, h3, e1, e2, n1, n2⟩ := i.two
  refine ⟨⟨upd (upd h.mem a (some (.arr b'.mem))) p (some (.buf a b'.capacity b'.used b'.mode)), h.next⟩, ?_, ?_, ?_⟩
  · rw [save, store_eq e2]
    simp only [Option.bind_eq_bind, Option.bind_some]
    rw [store_eq (x := .buf a b.capacity b.used b.mode) (by simp [upd, h1, e1])]
  · refine Inv.change (A := [.buf p a b]) (r := r) (h := h) i [.buf p a b'] _ h.next ?_ (Nat.le_refl _) ?_ ?_ ?_ ?_
    · intro x hx _
      simp only [blocks_cons, blocks_nil, List.append_nil, Obj.blocks, List.mem_cons, List.not_mem_nil, or_false, not_or] at hx
      simp [upd, hx.1, hx.2]
    · intro o ho
      rw [List.mem_singleton] at ho
      subst ho
      exact ⟨by simp [upd], by simp [upd, h1.symm]⟩
    · simp [Obj.blocks, h1]
    · intro x hx
      simp only [blocks_cons, blocks_nil, List.append_nil, Obj.blocks, List.mem_cons, List.not_mem_nil, or_false] at hx ⊢
      rcases hx with rfl | rfl <;> simp [h2, h3]
    · intro x hx
      by_cases h4 : x = p
      · left; simp [Obj.blocks, h4]
      · by_cases h5 : x = a
        · left; simp [Obj.blocks, h5]
        · right
          simp only [upd, h4, h5, if_false] at hx
          exact ⟨by simp [Obj.blocks, h4, h5], i.lt x (i.only x hx)⟩
  · intro x hx
    have h4 : x ≠ p := fun e => n1 (e ▸ hx)
    have h5 : x ≠ a := fun e => n2 (e ▸ hx)
    simp [upd, h4, h5]

theorem move_eq {h : Heap} {p a : Nat} {b : Buf} {r : List Obj} (i : Inv h (.buf p a b :: r)) (b' : Buf) :
    ∃ h' a', move h p a b' = some h' ∧ Inv h' (.buf p a' b' :: r) ∧ Same h h' r ∧ h.next ≤ a' := by
  obtain ⟨h1, h2, h3, e1, e2, n1, n2⟩ := i.two
  refine ⟨⟨upd (upd (upd h.mem h.next (some (.arr b'.mem))) a none) p (some (.buf h.next b'.capacity b'.used b'.mode)), h.next + 1⟩, h.next, ?_, ?_, ?_, Nat.le_refl _⟩
  · simp only [move, alloc]
    rw [free_eq (x := .arr b.mem) (by simp [upd, e2, show a ≠ h.next by omega])]
    simp only [Option.bind_eq_bind, Option.bind_some]
    rw [store_eq (x := .buf a b.capacity b.used b.mode) (by simp [upd, h1, e1, show p ≠ h.next by omega])]
  · refine Inv.change (A := [.buf p a b]) (r := r) (h := h) i [.buf p h.next b'] _ (h.next + 1) ?_ (by omega) ?_ ?_ ?_ ?_
    · intro x hx hlt
      simp only [blocks_cons, blocks_nil, List.append_nil, Obj.blocks, List.mem_cons, List.not_mem_nil, or_false, not_or] at hx
      simp [upd, hx.1, hx.2, show x ≠ h.next by omega]
    · intro o ho
      rw [List.mem_singleton] at ho
      subst ho
      exact ⟨by simp [upd], by simp [upd, show h.next ≠ p by omega, show h.next ≠ a by omega]⟩
    · simp [Obj.blocks]; omega
    · intro x hx
      simp only [blocks_cons, blocks_nil, List.append_nil, Obj.blocks, List.mem_cons, List.not_mem_nil, or_false] at hx ⊢
      rcases hx with rfl | rfl
      · exact ⟨by omega, .inl (.inl rfl)⟩
      · exact ⟨by omega, .inr (Nat.le_refl _)⟩
    · intro x hx
      by_cases h4 : x = p
      · left; simp [Obj.blocks, h4]
      · by_cases h5 : x = a
        · exfalso; subst h5; simp [upd, h4] at hx
        · by_cases h6 : x = h.next
          · left; simp [Obj.blocks, h6]
          · right
            simp only [upd, h4, h5, h6, if_false] at hx
            exact ⟨by simp [Obj.blocks, h4, h5], i.lt x (i.only x hx)⟩
  · intro x hx
    have h4 : x ≠ p := fun e => n1 (e ▸ hx)
    have h5 : x ≠ a := fun e => n2 (e ▸ hx)
    have h6 : x < h.next := i.lt x (by simp [hx])
    simp [upd, h4, h5, show x ≠ h.next by omega]

theorem own_eq {h : Heap} {p a : Nat} {b b' : Buf} {r : List Obj} (i : Inv h (.buf p a b :: r)) {f : Buf → Option Buf} (e : f b = some b') :
    ∃ h' a', own h p f = some h' ∧ Inv h' (.buf p a' b' :: r) ∧ Same h h' r := by
  simp only [own, load_eq i, Option.bind_eq_bind, Option.bind_some, e]
  by_cases hc : b'.capacity = b.capacity
  · rw [if_pos hc]
    obtain ⟨h', e1, e2, e3⟩ := save_eq i b'
    exact ⟨h', a, e1, e2, e3⟩
  · rw [if_neg hc]
    obtain ⟨h', a', e1, e2, e3, -⟩ := move_eq i b'
    exact ⟨h', a', e1, e2, e3⟩

theorem expand_eq {h : Heap} {p a : Nat} {b : Buf} {r : List Obj} (i : Inv h (.buf p a b :: r)) (n : Nat) :
    ∃ h' a', expand h p n = some h' ∧ Inv h' (.buf p a' (Buffer.expandIfNeeded b n) :: r) ∧ Same h h' r := by
  simp only [expand, load_eq i, Option.bind_eq_bind, Option.bind_some, Buffer.expandIfNeeded]
  by_cases hc : n ≥ b.capacity
  · rw [if_pos hc, if_pos hc]
    obtain ⟨h', a', e1, e2, e3, -⟩ := move_eq i { b with mem := CMem.realloc b.mem (Misc.upperPowerOfTwo (BitVec.ofNat 64 (n + 1))).toNat, capacity := (Misc.upperPowerOfTwo (BitVec.ofNat 64 (n + 1))).toNat }
    exact ⟨h', a', e1, e2, e3⟩
  · rw [if_neg hc, if_neg hc]
    exact ⟨h, a, rfl, i, fun _ _ => rfl⟩

theorem strnlenAt_eq {cells : List (Option UInt8)} : ∀ (n off : Nat) (t : List UInt8) (rest : List (Option UInt8)) (k : Nat),
    cells.drop off = t.map some ++ rest → Buffer.strnlen t n = some k → strnlenAt cells off n = some k := by
  intro n
  induction n with
  | zero => intro off t rest k _ h; simpa [Buffer.strnlen, strnlenAt] using h
  | succ n ih =>
    intro off t rest k hd h
    cases t with
    | nil => simp [Buffer.strnlen] at h
    | cons c t =>
      have hg : CMem.get cells off = some c := by
        have : cells[off]? = some (some c) := by
          have := congrArg (fun l => l[0]?) hd
          simpa using this
        simp [CMem.get, this]
      have hd' : cells.drop (off + 1) = t.map some ++ rest := by
        have := congrArg (List.drop 1) hd
        simpa [List.drop_drop] using this
      simp only [strnlenAt, hg, Option.bind_eq_bind, Option.bind_some]
      simp only [Buffer.strnlen] at h
      by_cases hc : c = 0
      · rw [if_pos hc] at h ⊢; exact h
      · rw [if_neg hc] at h ⊢
        cases hk : Buffer.strnlen t n with
        | none => simp [hk] at h
        | some k' =>
          rw [hk] at h
          rw [ih (off + 1) t rest k' hd' hk]
          simpa using h

theorem memcpy_src {d cells : List (Option UInt8)} {off : Nat} {t : List UInt8} {rest : List (Option UInt8)} (hd : cells.drop off = t.map some ++ rest) {n at' : Nat} (hn : n ≤ t.length)
    (hoff : off ≤ cells.length) : CMem.memcpy d at' cells off n = CMem.memcpy d at' (t.map some) 0 n := by
  have hl : cells.length - off = t.length + rest.length := by
    have := congrArg List.length hd
    simpa using this
  simp only [CMem.memcpy]
  have e : (cells.drop off).take n = ((t.map some).drop 0).take n := by
    rw [hd, List.drop_zero, List.take_append_of_le_length (by simpa using hn)]
  rw [e]
  simp only [List.length_map]
  by_cases h : at' + n ≤ d.length
  · rw [if_pos ⟨h, by omega⟩, if_pos ⟨h, by omega⟩]
  · rw [if_neg (fun x => h x.1), if_neg (fun x => h x.1)]

/-- Appending bytes from an array that is not the buffer's own. -/
theorem append_eq {h : Heap} {p a q : Nat} {b b' : Buf} {r : List Obj} (i : Inv h (.buf p a b :: r)) {cells : List (Option UInt8)} (hq : q ∈ blocks r) (hc : h.mem q = some (.arr cells))
    {off len : Nat} {t : List UInt8} {rest : List (Option UInt8)} (hd : cells.drop off = t.map some ++ rest) (hoff : off ≤ cells.length) (hlen : len ≤ t.length ∨ 0 ∈ t ∧ b.mode = .cstring)
    (e : Buffer.append b t len = some b') : ∃ h' a', append h p q off len = some h' ∧ Inv h' (.buf p a' b' :: r) ∧ Same h h' r := by
  simp only [append, load_eq i, Option.bind_eq_bind, Option.bind_some]
  simp only [Buffer.append] at e
  by_cases hl : len = 0
  · rw [if_pos hl] at e ⊢
    cases e
    exact ⟨h, a, rfl, i, fun _ _ => rfl⟩
  · rw [if_neg hl] at e ⊢
    have hne : ∀ {h1 : Heap} {a1 : Nat} {b1 : Buf}, Inv h1 (.buf p a1 b1 :: r) → q ≠ a1 := by
      intro h1 a1 b1 i1 e
      exact (i1.two).2.2.2.2.2.2 (e ▸ hq)
    cases hm : b.mode with
    | cstring =>
      rw [hm] at e
      simp only [Option.bind_eq_bind, Option.bind_eq_some_iff] at e
      obtain ⟨n, hn, mem1, hm1, mem2, hm2, e⟩ := e
      cases e
      have hs : Buffer.strnlen t len = some n := hn
      have hcond : len ≤ t.length ∨ 0 ∈ t := hlen.imp_right (·.1)
      have hnl : n ≤ t.length := by
        have := Buffer.strnlen_ok len t hcond
        rw [hs] at this
        simp only [Option.some.injEq] at this
        rw [this.1]; exact this.2.1
      obtain ⟨h1, a1, x1, i1, s1⟩ := expand_eq i (b.used + n + 1)
      have hc1 : h1.mem q = some (.arr cells) := by rw [s1 q hq]; exact hc
      obtain ⟨h2, x2, i2, s2⟩ := save_eq i1 { Buffer.expandIfNeeded b (b.used + n + 1) with mem := mem2, used := (Buffer.expandIfNeeded b (b.used + n + 1)).used + n }
      refine ⟨h2, a1, ?_, i2, fun x hx => (s2 x hx).trans (s1 x hx)⟩
      simp only [arrAt, hc, Option.bind_some, strnlenAt_eq len off t rest n hd hs, x1, copyIn, load_eq i1, hc1, Option.bind_eq_bind]
      rw [if_neg (fun x => hne i1 x.1), memcpy_src hd hnl hoff, hm1]
      simp only [Option.bind_some, if_true]
      rw [hm2]
      exact x2
    | bytearray =>
      rw [hm] at e
      simp only [Option.bind_eq_bind, Option.bind_eq_some_iff] at e
      obtain ⟨mem1, hm1, e⟩ := e
      cases e
      have hnl : len ≤ t.length := by
        rcases hlen with h | h
        · exact h
        · rw [hm] at h; cases h.2
      obtain ⟨h1, a1, x1, i1, s1⟩ := expand_eq i (b.used + len)
      have hc1 : h1.mem q = some (.arr cells) := by rw [s1 q hq]; exact hc
      obtain ⟨h2, x2, i2, s2⟩ := save_eq i1 { Buffer.expandIfNeeded b (b.used + len) with mem := mem1, used := (Buffer.expandIfNeeded b (b.used + len)).used + len }
      refine ⟨h2, a1, ?_, i2, fun x hx => (s2 x hx).trans (s1 x hx)⟩
      simp only [x1, Option.bind_some, copyIn, load_eq i1, arrAt, hc1, Option.bind_eq_bind]
      rw [if_neg (fun x => hne i1 x.1), memcpy_src hd hnl hoff, hm1]
      simp only [Option.bind_some, Bool.false_eq_true, if_false]
      exact x2

theorem appendString_eq {h : Heap} {p a q : Nat} {b b' : Buf} {r : List Obj} (i : Inv h (.buf p a b :: r)) {cells : List (Option UInt8)} (hq : q ∈ blocks r) (hc : h.mem q = some (.arr cells))
    {off : Nat} {t : List UInt8} {rest : List (Option UInt8)} (hd : cells.drop off = t.map some ++ rest) (hoff : off ≤ cells.length) (h0 : 0 ∈ t)
    (e : Buffer.appendString b (BufferSpec.cstr t) = some b') : ∃ h' a', appendString h p q off = some h' ∧ Inv h' (.buf p a' b' :: r) ∧ Same h h' r := by
  simp only [appendString, load_eq i, Option.bind_eq_bind, Option.bind_some]
  simp only [Buffer.appendString, Option.bind_eq_bind, Option.bind_eq_some_iff] at e
  obtain ⟨mem1, hm1, mem2, hm2, e⟩ := e
  cases e
  have hll : cells.length - off = t.length + rest.length := by
    have := congrArg List.length hd
    simpa using this
  obtain ⟨s1, s2, s3⟩ := Buffer.strnlen_ok (cells.length + 1) t (.inr h0)
  have ht : t.take (cells.length + 1) = t := List.take_of_length_le (by omega)
  rw [ht] at s1 s2 s3
  have hne : ∀ {h1 : Heap} {a1 : Nat} {b1 : Buf}, Inv h1 (.buf p a1 b1 :: r) → q ≠ a1 := by
    intro h1 a1 b1 i1 e
    exact (i1.two).2.2.2.2.2.2 (e ▸ hq)
  generalize hn : (BufferSpec.cstr t).length = n at *
  obtain ⟨h1, a1, x1, i1, sm1⟩ := expand_eq i (b.used + n + 1)
  have hc1 : h1.mem q = some (.arr cells) := by rw [sm1 q hq]; exact hc
  obtain ⟨h2, x2, i2, sm2⟩ := save_eq i1 { Buffer.expandIfNeeded b (b.used + n + 1) with mem := mem2, used := (Buffer.expandIfNeeded b (b.used + n + 1)).used + n }
  refine ⟨h2, a1, ?_, i2, fun x hx => (sm2 x hx).trans (sm1 x hx)⟩
  simp only [arrAt, hc, Option.bind_some, strnlenAt_eq (cells.length + 1) off t rest n hd s1, x1, copyIn, load_eq i1, hc1, Option.bind_eq_bind]
  have hcs : CMem.memcpy (Buffer.expandIfNeeded b (b.used + n + 1)).mem (Buffer.expandIfNeeded b (b.used + n + 1)).used (t.map some) 0 n = some mem1 := by
    rw [← hm1]
    have := memcpy_src (d := (Buffer.expandIfNeeded b (b.used + n + 1)).mem) (cells := t.map some) (off := 0) (t := BufferSpec.cstr t) (rest := (t.drop n).map some) (n := n)
      (at' := (Buffer.expandIfNeeded b (b.used + n + 1)).used) (by rw [List.drop_zero, ← s3, ← List.map_append, List.take_append_drop]) (by omega) (by omega)
    exact this
  rw [if_neg (fun x => hne i1 x.1), memcpy_src hd s2 hoff, hcs]
  simp only [Option.bind_some, if_true]
  rw [hm2]
  exact x2

theorem new_eq {h : Heap} {r : List Obj} (i : Inv h r) {n : Nat} {b : Buf} (e : Buffer.newWithCapacity n = some b) :
    ∃ h', new h n = some (h', h.next) ∧ Inv h' (.buf h.next (h.next + 1) b :: r) ∧ Same h h' r := by
  simp only [Buffer.newWithCapacity, Option.bind_eq_bind, Option.bind_eq_some_iff] at e
  obtain ⟨mem, hm, e⟩ := e
  cases e
  refine ⟨⟨upd (upd (upd h.mem h.next (some (.buf 0 0 0 .cstring))) (h.next + 1) (some (.arr mem))) h.next (some (.buf (h.next + 1) n 0 .cstring)), h.next + 2⟩, ?_, ?_, ?_⟩
  · simp only [new, alloc, hm, Option.bind_eq_bind, Option.bind_some]
    rw [store_eq (x := .buf 0 0 0 .cstring) (by simp [upd])]
    rfl
  · refine Inv.change (A := []) (r := r) (h := h) (by simpa using i) [_] _ (h.next + 2) ?_ (by omega) ?_ ?_ ?_ ?_
    · intro x _ hx; simp [upd, show x ≠ h.next by omega, show x ≠ h.next + 1 by omega]
    · simp [Good, upd]
    · simp [Obj.blocks]
    · intro x hx; simp [Obj.blocks] at hx; omega
    · intro x hx
      by_cases h1 : x = h.next
      · simp [Obj.blocks, h1]
      · by_cases h2 : x = h.next + 1
        · simp [Obj.blocks, h2]
        · right
          simp only [upd, h1, h2, if_false] at hx
          exact ⟨by simp, i.lt x (i.only x hx)⟩
  · intro x hx
    have := i.lt x hx
    simp [upd, show x ≠ h.next by omega, show x ≠ h.next + 1 by omega]

theorem destroy_eq {h : Heap} {p a : Nat} {b : Buf} {r : List Obj} (i : Inv h (.buf p a b :: r)) : ∃ h', destroy h p = some h' ∧ Inv h' r ∧ Same h h' r := by
  obtain ⟨h1, h2, h3, e1, e2, n1, n2⟩ := i.two
  refine ⟨⟨upd (upd h.mem a none) p none, h.next⟩, ?_, ?_, ?_⟩
  · simp only [destroy, load_eq i, Option.bind_eq_bind, Option.bind_some]
    rw [free_eq e2]
    simp only [Option.bind_some]
    rw [free_eq (x := .buf a b.capacity b.used b.mode) (by simp [upd, h1, e1])]
  · refine Inv.change (A := [.buf p a b]) (r := r) (h := h) i [] _ h.next ?_ (Nat.le_refl _) (by simp) (by simp) (by simp) ?_
    · intro x hx _
      simp only [blocks_cons, blocks_nil, List.append_nil, Obj.blocks, List.mem_cons, List.not_mem_nil, or_false, not_or] at hx
      simp [upd, hx.1, hx.2]
    · intro x hx
      right
      by_cases h4 : x = p
      · simp [upd, h4] at hx
      · by_cases h5 : x = a
        · simp [upd, h5] at hx
        · simp only [upd, h4, h5, if_false] at hx
          exact ⟨by simp [Obj.blocks, h4, h5], i.lt x (i.only x hx)⟩
  · intro x hx
    have h4 : x ≠ p := fun e => n1 (e ▸ hx)
    have h5 : x ≠ a := fun e => n2 (e ▸ hx)
    simp [upd, h4, h5]

theorem close_eq {h : Heap} {p a : Nat} {b : Buf} {r : List Obj} (i : Inv h (.buf p a b :: r)) : ∃ h', close h p = some (h', a) ∧ Inv h' (.str a b.mem :: r) := by
  obtain ⟨h1, h2, h3, e1, e2, n1, n2⟩ := i.two
  refine ⟨⟨upd h.mem p none, h.next⟩, ?_, ?_⟩
  · simp only [close, load_eq i, Option.bind_eq_bind, Option.bind_some]
    rw [free_eq e1]
    rfl
  · refine Inv.change (A := [.buf p a b]) (r := r) (h := h) i [.str a b.mem] _ h.next ?_ (Nat.le_refl _) ?_ (by simp [Obj.blocks]) ?_ ?_
    · intro x hx _
      simp only [blocks_cons, blocks_nil, List.append_nil, Obj.blocks, List.mem_cons, List.not_mem_nil, or_false, not_or] at hx
      simp [upd, hx.1]
    · intro o ho
      rw [List.mem_singleton] at ho
      subst ho
      show upd h.mem p none a = _
      simp [upd, h1.symm, e2]
    · intro x hx
      simp [Obj.blocks] at hx ⊢
      subst hx
      exact ⟨h3, .inl (.inr rfl)⟩
    · intro x hx
      by_cases h4 : x = p
      · simp [upd, h4] at hx
      · by_cases h5 : x = a
        · left; simp [Obj.blocks, h5]
        · right
          simp only [upd, h4, if_false] at hx
          exact ⟨by simp [Obj.blocks, h4, h5], i.lt x (i.only x hx)⟩

theorem text_eq {h : Heap} {r : List Obj} (i : Inv h r) (c : List (Option UInt8)) : Inv (alloc h (.arr c)).1 (.str (alloc h (.arr c)).2 c :: r) := by
  refine Inv.change (A := []) (r := r) (h := h) (by simpa using i) [_] _ (h.next + 1) ?_ (by omega) ?_ ?_ ?_ ?_
  · intro x _ hx; simp [upd, show x ≠ h.next by omega]
  · simp [Good, upd, alloc]
  · simp [Obj.blocks]
  · intro x hx; simp [Obj.blocks, alloc] at hx; omega
  · intro x hx
    by_cases h1 : x = h.next
    · simp [Obj.blocks, h1, alloc]
    · right
      simp only [upd, h1, if_false] at hx
      exact ⟨by simp, i.lt x (i.only x hx)⟩

theorem freeText_eq {h : Heap} {a : Nat} {c : List (Option UInt8)} {r : List Obj} (i : Inv h (.str a c :: r)) : ∃ h', free h a = some h' ∧ Inv h' r := by
  have e : h.mem a = some (.arr c) := i.good _ List.mem_cons_self
  refine ⟨_, free_eq e, ?_⟩
  refine Inv.change (A := [.str a c]) (r := r) (h := h) i [] _ h.next ?_ (Nat.le_refl _) (by simp) (by simp) (by simp) ?_
  · intro x hx _
    simp only [blocks_cons, blocks_nil, List.append_nil, Obj.blocks, List.mem_cons, List.not_mem_nil, or_false] at hx
    simp [upd, hx]
  · intro x hx
    right
    by_cases h5 : x = a
    · simp [upd, h5] at hx
    · simp only [upd, h5, if_false] at hx
      exact ⟨by simp [Obj.blocks, h5], i.lt x (i.only x hx)⟩

theorem filterLoop_eq {p a q : Nat} {b : Buf} {r : List Obj} (keep : UInt8 → Bool) (inv : Bool) : ∀ (fuel j : Nat) {h : Heap} {a' : Nat} {out out' : Buf},
    Inv h (.buf q a' out :: .buf p a b :: r) → Buffer.filterLoop b keep inv fuel j out = some out' →
    ∃ h' a'', filterLoop p q keep inv fuel j h = some h' ∧ Inv h' (.buf q a'' out' :: .buf p a b :: r) ∧ Same h h' (.buf p a b :: r) := by
  intro fuel
  induction fuel with
  | zero => intro j h a' out out' i e; cases e; exact ⟨h, a', rfl, i, fun _ _ => rfl⟩
  | succ fuel ih =>
    intro j h a' out out' i e
    have il : load h p = some (a, b) := load_eq (i.perm (List.Perm.swap _ _ _))
    simp only [filterLoop, il, Option.bind_eq_bind, Option.bind_some]
    simp only [Buffer.filterLoop] at e
    by_cases hj : j < b.used
    · rw [if_pos hj] at e ⊢
      simp only [Option.bind_eq_bind, Option.bind_eq_some_iff] at e
      obtain ⟨c, hc, e⟩ := e
      rw [hc]
      simp only [Option.bind_some]
      by_cases ht : (if inv = true then !keep c else keep c) = true
      · rw [if_pos ht] at e ⊢
        obtain ⟨out1, h1, e⟩ := Option.bind_eq_some_iff.mp e
        obtain ⟨h', a1, x1, i1, s1⟩ := own_eq i (f := (Buffer.appendChar · c)) h1
        obtain ⟨h'', a2, x2, i2, s2⟩ := ih (j + 1) i1 e
        exact ⟨h'', a2, by rw [x1]; exact x2, i2, fun x hx => (s2 x hx).trans (s1 x hx)⟩
      · rw [if_neg ht] at e ⊢
        obtain ⟨h'', a2, x2, i2, s2⟩ := ih (j + 1) i e
        exact ⟨h'', a2, x2, i2, s2⟩
    · rw [if_neg hj] at e ⊢
      cases e
      exact ⟨h, a', rfl, i, fun _ _ => rfl⟩

theorem filter_eq {h : Heap} {p a : Nat} {b out : Buf} {r : List Obj} (i : Inv h (.buf p a b :: r)) {keep : UInt8 → Bool} {inv : Bool} (e : Buffer.filter b keep inv = some out) :
    ∃ h' q a', filter h p keep inv = some (h', q) ∧ Inv h' (.buf q a' out :: .buf p a b :: r) := by
  simp only [Buffer.filter, Option.bind_eq_bind, Option.bind_eq_some_iff] at e
  obtain ⟨o0, e0, e⟩ := e
  obtain ⟨h1, x1, i1, s1⟩ := new_eq i e0
  obtain ⟨h2, a2, x2, i2, s2⟩ := filterLoop_eq keep inv (b.used + 1) 0 i1 e
  exact ⟨h2, h.next, a2, by simp only [filter, load_eq i, x1, x2, Option.bind_eq_bind, Option.bind_some], i2⟩

end BufHeap
