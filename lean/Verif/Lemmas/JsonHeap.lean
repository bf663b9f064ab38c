import Verif.Model.JsonHeap
import Mathlib.Algebra.Order.Group.Multiset
import Mathlib.Data.Multiset.Range
import Mathlib.Tactic.Abel
/-! # Trees in a heap -/
namespace JsonHeap
open Json

abbrev Blocks := Multiset (Nat × Cell)

/-- The heap consists of exactly these blocks. -/
structure Is (h : Heap) (m : Blocks) : Prop where
  nodup : (m.map Prod.fst).Nodup
  mem : ∀ a c, h.cell a = some c ↔ (a, c) ∈ m
  lt : ∀ p ∈ m, p.1 < h.next

theorem Is.get {h : Heap} {a : Nat} {c : Cell} {R : Blocks} (hI : Is h ((a, c) ::ₘ R)) : h.cell a = some c := (hI.mem a c).mpr (by simp)

theorem Is.notMem {h : Heap} {a : Nat} {c : Cell} {R : Blocks} (hI : Is h ((a, c) ::ₘ R)) : ∀ d, (a, d) ∉ R := by
  intro d hd
  have := hI.nodup
  rw [Multiset.map_cons, Multiset.nodup_cons] at this
  exact this.1 (Multiset.mem_map.mpr ⟨(a, d), hd, rfl⟩)

theorem Is.alloc {h : Heap} {R : Blocks} (hI : Is h R) (c : Cell) : Is (alloc h c).2 (((alloc h c).1, c) ::ₘ R) := by
  have hn : ∀ d, (h.next, d) ∉ R := fun d hd => by have := hI.lt _ hd; omega
  refine ⟨?_, ?_, ?_⟩
  · rw [Multiset.map_cons, Multiset.nodup_cons]
    refine ⟨fun hm => ?_, hI.nodup⟩
    obtain ⟨⟨x, d⟩, hp, hx⟩ := Multiset.mem_map.mp hm
    simp only [JsonHeap.alloc] at hx
    subst hx
    exact hn d hp
  · intro a d
    simp only [JsonHeap.alloc, Multiset.mem_cons, Prod.mk.injEq]
    by_cases ha : a = h.next
    · subst ha
      simp only [if_true, Option.some.injEq, true_and, hn, or_false]
      exact eq_comm
    · simp only [ha, if_false, false_and, false_or]
      exact hI.mem a d
  · intro p hp
    simp only [JsonHeap.alloc, Multiset.mem_cons] at hp ⊢
    rcases hp with rfl | hp
    · exact Nat.lt_succ_self _
    · exact Nat.lt_succ_of_lt (hI.lt p hp)

theorem Is.free {h : Heap} {a : Nat} {c : Cell} {R : Blocks} (hI : Is h ((a, c) ::ₘ R)) : ∃ h', free h a = some h' ∧ Is h' R ∧ h'.next = h.next := by
  refine ⟨⟨fun x => if x = a then none else h.cell x, h.next⟩, by simp only [JsonHeap.free, hI.get, Option.map_some], ⟨?_, ?_, ?_⟩, rfl⟩
  · have := hI.nodup
    rw [Multiset.map_cons, Multiset.nodup_cons] at this
    exact this.2
  · intro x d
    by_cases hx : x = a
    · subst hx
      simp only [if_true, reduceCtorEq, false_iff]
      exact hI.notMem d
    · simp only [hx, if_false]
      rw [hI.mem x d]
      simp [hx]
  · intro p hp
    exact hI.lt p (by simp [hp])

theorem Is.store {h : Heap} {a : Nat} {c : Cell} {R : Blocks} (hI : Is h ((a, c) ::ₘ R)) (c' : Cell) : ∃ h', store h a c' = some h' ∧ Is h' ((a, c') ::ₘ R) ∧ h'.next = h.next := by
  refine ⟨⟨fun x => if x = a then some c' else h.cell x, h.next⟩, by simp only [JsonHeap.store, hI.get, Option.map_some], ⟨?_, ?_, ?_⟩, rfl⟩
  · have := hI.nodup
    rw [Multiset.map_cons] at this ⊢
    exact this
  · intro x d
    by_cases hx : x = a
    · subst hx
      simp only [if_true, Option.some.injEq, Multiset.mem_cons, Prod.mk.injEq, true_and, hI.notMem, or_false]
      exact eq_comm
    · simp only [hx, if_false]
      rw [hI.mem x d]
      simp [hx]
  · intro p hp
    simp only [Multiset.mem_cons] at hp
    rcases hp with rfl | hp
    · exact hI.lt (a, c) (by simp)
    · exact hI.lt p (by simp [hp])

theorem Is.card_le {h : Heap} {m : Blocks} (hI : Is h m) : Multiset.card m ≤ h.next := by
  have h1 : m.map Prod.fst ≤ Multiset.range h.next := by
    rw [Multiset.le_iff_subset hI.nodup]
    intro a ha
    obtain ⟨p, hp, rfl⟩ := Multiset.mem_map.mp ha
    exact Multiset.mem_range.mpr (hI.lt p hp)
  have h2 := Multiset.card_le_card h1
  simpa using h2

theorem Is.empty : Is Heap.empty 0 := ⟨by simp, by simp [Heap.empty], by simp⟩

/-! ## Trees with addresses -/

/-- A tree with the addresses of its blocks. -/
inductive HT
  | prim (a : Nat) (name : Option (Nat × Bytes)) (t : PType) (p : Option Nat) (b : Bytes)
  | cont (a : Nat) (name : Option (Nat × Bytes)) (t : CType) (s : Nat) (kids : List HT)

def HT.root : HT → Nat
  | .prim a .. => a
  | .cont a .. => a

def textPtr (p : Option Nat) (b : Bytes) : SPtr :=
  match p with
  | none => .lit b
  | some q => .at q

def strBlock (n : Option (Nat × Bytes)) : Blocks :=
  match n with
  | none => 0
  | some (q, b) => {(q, .str b)}

mutual
def HT.elem : HT → Elem
  | .prim _ n t _ b => .prim (n.map (·.2)) t b
  | .cont _ n t _ ks => .cont (n.map (·.2)) t (elems ks)
def elems : List HT → List Elem
  | [] => []
  | k :: ks => k.elem :: elems ks
end

mutual
def HT.blocks : HT → Blocks
  | .prim a n t p b => (a, .elem (n.map (·.1)) (.prim t (textPtr p b))) ::ₘ (strBlock n + strBlock (p.map fun q => (q, b)))
  | .cont a n t s ks => (a, .elem (n.map (·.1)) (.cont t s)) ::ₘ (s, .seq (ks.map HT.root)) ::ₘ (strBlock n + blocksL ks)
def blocksL : List HT → Blocks
  | [] => 0
  | k :: ks => k.blocks + blocksL ks
end

mutual
/-- Only the texts "true", "false" and "null" are literals. -/
def HT.Valid : HT → Prop
  | .prim _ _ t p _ => p = none ↔ (t = .null ∨ t = .bool)
  | .cont _ _ _ _ ks => ValidL ks
def ValidL : List HT → Prop
  | [] => True
  | k :: ks => k.Valid ∧ ValidL ks
end

mutual
def HT.depth : HT → Nat
  | .prim .. => 1
  | .cont _ _ _ _ ks => depthL ks + 1
def depthL : List HT → Nat
  | [] => 0
  | k :: ks => max k.depth (depthL ks)
end

theorem elems_eq (ks : List HT) : elems ks = ks.map HT.elem := by
  induction ks with
  | nil => rfl
  | cons k ks ih => rw [elems, ih]; rfl

theorem blocksL_append (xs ys : List HT) : blocksL (xs ++ ys) = blocksL xs + blocksL ys := by
  induction xs with
  | nil => simp [blocksL]
  | cons k ks ih => simp only [List.cons_append, blocksL, ih]; abel

theorem validL_iff (ks : List HT) : ValidL ks ↔ ∀ k ∈ ks, k.Valid := by
  induction ks with
  | nil => simp [ValidL]
  | cons k ks ih => simp [ValidL, ih]

theorem depthL_le {ks : List HT} {n : Nat} : depthL ks ≤ n ↔ ∀ k ∈ ks, k.depth ≤ n := by
  induction ks with
  | nil => simp [depthL]
  | cons k ks ih => simp [depthL, ih, Nat.max_le]

mutual
theorem HT.depth_le_card : (t : HT) → t.depth ≤ Multiset.card t.blocks
  | .prim .. => by simp [HT.depth, HT.blocks]
  | .cont _ _ _ _ ks => by
    have := depthL_le_card ks
    simp only [HT.depth, HT.blocks, Multiset.card_cons, Multiset.card_add]
    omega
theorem depthL_le_card : (ks : List HT) → depthL ks ≤ Multiset.card (blocksL ks)
  | [] => by simp [depthL]
  | k :: ks => by
    have h1 := HT.depth_le_card k
    have h2 := depthL_le_card ks
    simp only [depthL, blocksL, Multiset.card_add]
    omega
end

theorem Is.depth_le {h : Heap} {t : HT} {R : Blocks} (hI : Is h (t.blocks + R)) : t.depth ≤ h.next := by
  have h1 := t.depth_le_card
  have h2 := hI.card_le
  rw [Multiset.card_add] at h2
  omega

/-! ## Freeing -/

theorem freeMaybe_ok {h : Heap} {n : Option (Nat × Bytes)} {R : Blocks} (hI : Is h (strBlock n + R)) : ∃ h', freeMaybe h (n.map (·.1)) = some h' ∧ Is h' R ∧ h'.next = h.next := by
  cases n with
  | none => exact ⟨h, rfl, by simpa [strBlock] using hI, rfl⟩
  | some p =>
    obtain ⟨q, b⟩ := p
    have hI' : Is h ((q, .str b) ::ₘ R) := by simpa [strBlock] using hI
    obtain ⟨h', e, h1, h2⟩ := hI'.free
    exact ⟨h', e, h1, h2⟩

theorem foldlM_destroy (n : Nat) (ih : ∀ (t : HT) (h : Heap) (R : Blocks), t.Valid → t.depth ≤ n → Is h (t.blocks + R) → ∃ h', destroyN n h t.root = some h' ∧ Is h' R ∧ h'.next = h.next) :
    ∀ (ks : List HT) (h : Heap) (R : Blocks), ValidL ks → depthL ks ≤ n → Is h (blocksL ks + R) →
      ∃ h', (ks.map HT.root).foldlM (fun h x => destroyN n h x) h = some h' ∧ Is h' R ∧ h'.next = h.next := by
  intro ks
  induction ks with
  | nil => intro h R _ _ hI; exact ⟨h, rfl, by simpa [blocksL] using hI, rfl⟩
  | cons k ks ih2 =>
    intro h R hv hd hI
    simp only [ValidL] at hv
    simp only [depthL, Nat.max_le] at hd
    simp only [blocksL, add_assoc] at hI
    obtain ⟨h1, e1, i1, n1⟩ := ih k h (blocksL ks + R) hv.1 hd.1 hI
    obtain ⟨h2, e2, i2, n2⟩ := ih2 h1 R hv.2 hd.2 i1
    refine ⟨h2, ?_, i2, by omega⟩
    simp only [List.map_cons, List.foldlM_cons, e1, Option.bind_eq_bind, Option.bind_some]
    exact e2

theorem destroyN_ok (n : Nat) : ∀ (t : HT) (h : Heap) (R : Blocks), t.Valid → t.depth ≤ n → Is h (t.blocks + R) → ∃ h', destroyN n h t.root = some h' ∧ Is h' R ∧ h'.next = h.next := by
  induction n with
  | zero => intro t h R _ hd _; cases t <;> simp [HT.depth] at hd
  | succ n ih =>
    intro t h R hv hd hI
    cases t with
    | prim a nm t p b =>
      simp only [HT.blocks, Multiset.cons_add] at hI
      have hg := hI.get
      simp only [destroyN, HT.root, getElem, hg, Option.bind_eq_bind, Option.bind_some]
      simp only [HT.Valid] at hv
      by_cases ht : t = .null ∨ t = .bool
      · have hp := hv.mpr ht
        subst hp
        have ht' : ¬(t ≠ .null ∧ t ≠ .bool) := by rcases ht with h | h <;> simp [h]
        simp only [ht', if_false, Option.bind_some]
        have hI2 : Is h (strBlock nm + ((a, .elem (nm.map (·.1)) (.prim t (textPtr none b))) ::ₘ R)) := by
          have : strBlock nm + ((a, Cell.elem (nm.map (·.1)) (.prim t (textPtr none b))) ::ₘ R) = (a, Cell.elem (nm.map (·.1)) (.prim t (textPtr none b))) ::ₘ (strBlock nm + strBlock (Option.map (fun q => (q, b)) none) + R) := by
            simp only [Option.map_none, strBlock, add_zero, Multiset.add_cons]
          rw [this]; exact hI
        obtain ⟨h1, e1, i1, n1⟩ := freeMaybe_ok hI2
        obtain ⟨h2, e2, i2, n2⟩ := i1.free
        exact ⟨h2, by simp only [e1, Option.bind_some, e2], i2, by omega⟩
      · cases p with
        | none => exact absurd (hv.mp rfl) ht
        | some q =>
          have ht' : t ≠ .null ∧ t ≠ .bool := by simpa [not_or] using ht
          simp only [ht', ne_eq, not_false_eq_true, and_self, if_true, textPtr, freeText]
          have hI2 : Is h ((q, .str b) ::ₘ (strBlock nm + ((a, .elem (nm.map (·.1)) (.prim t (.at q))) ::ₘ R))) := by
            have : (q, Cell.str b) ::ₘ (strBlock nm + ((a, Cell.elem (nm.map (·.1)) (.prim t (.at q))) ::ₘ R)) = (a, Cell.elem (nm.map (·.1)) (.prim t (textPtr (some q) b))) ::ₘ (strBlock nm + strBlock (Option.map (fun q => (q, b)) (some q)) + R) := by
              simp only [Option.map_some, strBlock, textPtr, ← Multiset.singleton_add]; abel
            rw [this]; exact hI
          obtain ⟨h1, e1, i1, n1⟩ := hI2.free
          obtain ⟨h2, e2, i2, n2⟩ := freeMaybe_ok i1
          obtain ⟨h3, e3, i3, n3⟩ := i2.free
          exact ⟨h3, by simp only [e1, e2, Option.bind_some, e3], i3, by omega⟩
    | cont a nm t s ks =>
      simp only [HT.Valid] at hv
      simp only [HT.depth] at hd
      simp only [HT.blocks, Multiset.cons_add] at hI
      have hg := hI.get
      have hI2 : Is h ((s, .seq (ks.map HT.root)) ::ₘ ((a, .elem (nm.map (·.1)) (.cont t s)) ::ₘ (strBlock nm + blocksL ks + R))) := by
        rw [Multiset.cons_swap]; exact hI
      have hg2 := hI2.get
      simp only [destroyN, HT.root, getElem, hg, getSeq, hg2, Option.bind_eq_bind, Option.bind_some]
      have hI3 : Is h (blocksL ks + ((s, .seq (ks.map HT.root)) ::ₘ (strBlock nm + ((a, .elem (nm.map (·.1)) (.cont t s)) ::ₘ R)))) := by
        have : blocksL ks + ((s, Cell.seq (ks.map HT.root)) ::ₘ (strBlock nm + ((a, Cell.elem (nm.map (·.1)) (.cont t s)) ::ₘ R))) =
          (s, Cell.seq (ks.map HT.root)) ::ₘ ((a, Cell.elem (nm.map (·.1)) (.cont t s)) ::ₘ (strBlock nm + blocksL ks + R)) := by
          simp only [← Multiset.singleton_add]; abel
        rw [this]; exact hI2
      obtain ⟨h1, e1, i1, n1⟩ := foldlM_destroy n ih ks h _ hv (by omega) hI3
      obtain ⟨h2, e2, i2, n2⟩ := i1.free
      obtain ⟨h3, e3, i3, n3⟩ := freeMaybe_ok i2
      obtain ⟨h4, e4, i4, n4⟩ := i3.free
      exact ⟨h4, by simp only [e1, e2, Option.bind_some, e3, e4], i4, by omega⟩

/-- JsonDestroy frees exactly the blocks of the tree. -/
theorem destroy_ok {h : Heap} {t : HT} {R : Blocks} (hv : t.Valid) (hI : Is h (t.blocks + R)) : ∃ h', destroy h t.root = some h' ∧ Is h' R ∧ h'.next = h.next :=
  destroyN_ok (h.next + 1) t h R hv (by have := hI.depth_le; omega) hI

theorem foldlM_destroy_ok : ∀ (ks : List HT) (h : Heap) (R : Blocks), ValidL ks → Is h (blocksL ks + R) →
    ∃ h', (ks.map HT.root).foldlM destroy h = some h' ∧ Is h' R ∧ h'.next = h.next := by
  intro ks
  induction ks with
  | nil => intro h R _ hI; exact ⟨h, rfl, by simpa [blocksL] using hI, rfl⟩
  | cons k ks ih =>
    intro h R hv hI
    simp only [ValidL] at hv
    simp only [blocksL, add_assoc] at hI
    obtain ⟨h1, e1, i1, n1⟩ := destroy_ok hv.1 hI
    obtain ⟨h2, e2, i2, n2⟩ := ih h1 R hv.2 i1
    exact ⟨h2, by simp only [List.map_cons, List.foldlM_cons, e1, Option.bind_eq_bind, Option.bind_some]; exact e2, i2, by omega⟩

/-! ## Reading -/

/-- These blocks are in the heap. -/
def Has (h : Heap) (m : Blocks) : Prop := ∀ p ∈ m, h.cell p.1 = some p.2

theorem Is.has {h : Heap} {m : Blocks} (hI : Is h m) {m' : Blocks} (hs : m' ⊆ m) : Has h m' := fun p hp => (hI.mem p.1 p.2).mpr (hs hp)

theorem has_add {h : Heap} {A B : Blocks} : Has h (A + B) ↔ Has h A ∧ Has h B := by
  simp only [Has, Multiset.mem_add]
  exact ⟨fun x => ⟨fun p hp => x p (.inl hp), fun p hp => x p (.inr hp)⟩, fun x p hp => hp.elim (x.1 p) (x.2 p)⟩

theorem has_cons {h : Heap} {q : Nat × Cell} {B : Blocks} : Has h (q ::ₘ B) ↔ h.cell q.1 = some q.2 ∧ Has h B := by
  simp only [Has, Multiset.mem_cons]
  exact ⟨fun x => ⟨x q (.inl rfl), fun p hp => x p (.inr hp)⟩, fun x p hp => hp.elim (fun e => e ▸ x.1) (x.2 p)⟩

theorem Is.congr {h : Heap} {A B : Blocks} (hI : Is h A) (e : A = B) : Is h B := e ▸ hI

def HT.nm : HT → Option (Nat × Bytes)
  | .prim _ n .. => n
  | .cont _ n .. => n

def HT.body : HT → Body
  | .prim _ _ t p b => .prim t (textPtr p b)
  | .cont _ _ t s _ => .cont t s

def HT.inner : HT → Blocks
  | .prim _ _ _ p b => strBlock (p.map fun q => (q, b))
  | .cont _ _ _ s ks => (s, .seq (ks.map HT.root)) ::ₘ blocksL ks

def HT.withName : HT → Option (Nat × Bytes) → HT
  | .prim a _ t p b, n => .prim a n t p b
  | .cont a _ t s ks, n => .cont a n t s ks

theorem HT.blocks_eq (t : HT) : t.blocks = (t.root, .elem (t.nm.map (·.1)) t.body) ::ₘ (strBlock t.nm + t.inner) := by
  cases t with
  | prim => rfl
  | cont => simp only [HT.blocks, HT.root, HT.nm, HT.body, HT.inner, Multiset.add_cons]

theorem HT.withName_nm (t : HT) (n : Option (Nat × Bytes)) : (t.withName n).nm = n := by cases t <;> rfl
theorem HT.withName_root (t : HT) (n : Option (Nat × Bytes)) : (t.withName n).root = t.root := by cases t <;> rfl
theorem HT.withName_body (t : HT) (n : Option (Nat × Bytes)) : (t.withName n).body = t.body := by cases t <;> rfl
theorem HT.withName_inner (t : HT) (n : Option (Nat × Bytes)) : (t.withName n).inner = t.inner := by cases t <;> rfl
theorem HT.withName_valid (t : HT) (n : Option (Nat × Bytes)) : (t.withName n).Valid ↔ t.Valid := by cases t <;> rfl
theorem HT.withName_elem (t : HT) (n : Option (Nat × Bytes)) : (t.withName n).elem = t.elem.setName (n.map (·.2)) := by cases t <;> rfl
theorem HT.elem_name (t : HT) : t.elem.name = t.nm.map (·.2) := by cases t <;> rfl

theorem Has.elem {h : Heap} {t : HT} (hH : Has h t.blocks) : getElem h t.root = some (t.nm.map (·.1), t.body) := by
  rw [HT.blocks_eq, has_cons] at hH
  simp only [getElem, hH.1]

theorem Has.name {h : Heap} {t : HT} (hH : Has h t.blocks) {q : Nat} {b : Bytes} (hn : t.nm = some (q, b)) : getStr h (.at q) = some b := by
  rw [HT.blocks_eq, has_cons, has_add, hn] at hH
  have := hH.2.1 (q, .str b) (by simp [strBlock])
  simp only [getStr, this]

/-- The key is memory of the caller or a string among these blocks. -/
def KeyIn (k : SPtr) (b : Bytes) (R : Blocks) : Prop := k = .lit b ∨ ∃ q, k = .at q ∧ (q, .str b) ∈ R

theorem KeyIn.mono {k : SPtr} {b : Bytes} {R R' : Blocks} (hk : KeyIn k b R) (hs : R ⊆ R') : KeyIn k b R' := hk.imp id fun ⟨q, e, hm⟩ => ⟨q, e, hs hm⟩

theorem KeyIn.get {h : Heap} {m : Blocks} {k : SPtr} {b : Bytes} (hk : KeyIn k b m) (hI : Is h m) : getStr h k = some b := by
  rcases hk with rfl | ⟨q, rfl, hq⟩
  · rfl
  · simp only [getStr, (hI.mem q _).mpr hq]

theorem cmp_zero : ∀ (s t : Bytes), Str.cmpSign id s t = 0 ↔ s = t := by
  intro s
  induction s with
  | nil => intro t; cases t <;> simp [Str.cmpSign]
  | cons x xs ih =>
    intro t
    cases t with
    | nil => simp [Str.cmpSign]
    | cons y ys =>
      simp only [Str.cmpSign, id_eq, List.cons.injEq]
      by_cases hxy : x = y
      · simp [hxy, ih]
      · simp only [hxy, if_false, false_and, iff_false]; split <;> decide

theorem indexOf_ok {h : Heap} {k : SPtr} {b : Bytes} (hk : getStr h k = some b) : ∀ (ks : List HT) (i : Nat), Has h (blocksL ks) →
    indexOf h k (ks.map HT.root) i = some ((Json.indexOf (elems ks) b).map (· + i)) := by
  intro ks
  induction ks with
  | nil => intro i _; simp [indexOf, Json.indexOf, elems]
  | cons t ks ih =>
    intro i hH
    simp only [blocksL, has_add] at hH
    have hih := ih (i + 1) hH.2
    simp only [List.map_cons, indexOf, hH.1.elem, hk, Option.bind_eq_bind, Option.bind_some]
    simp only [Json.indexOf, elems, List.findIdx?_cons, HT.elem_name] at hih ⊢
    cases hn : t.nm with
    | none =>
      simp only [Option.map_none]
      rw [hih]
      simp only [show ((none : Option Bytes) == some b) = false from rfl, Bool.false_eq_true, if_false, Option.map_map]
      congr 2; funext x; simp only [Function.comp_apply]; omega
    | some p =>
      obtain ⟨q, c⟩ := p
      simp only [Option.map_some, hH.1.name hn, Option.bind_some]
      by_cases hc : c = b
      · subst hc
        simp [(cmp_zero c c).mpr rfl]
      · have h1 : Str.cmpSign id b c ≠ 0 := fun hz => hc ((cmp_zero _ _).mp hz).symm
        have h2 : (some c == some b) = false := by simpa using hc
        simp only [h1, if_false, h2, Bool.false_eq_true, Option.map_map]
        rw [hih]
        congr 2; funext x; simp only [Function.comp_apply]; omega

end JsonHeap
