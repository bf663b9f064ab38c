import Verif.Spec.JsonWriteThreads
import Verif.Lemmas.JsonWriteHeap
import Mathlib.Data.List.Pairwise
/-! # Threads that change nothing -/
namespace JsonHeap
open Json JsonThreadSpec

/-- Run on this memory, the program stores only what is there already, and ends with this result after this number of steps. -/
inductive Quiet {α : Type} (h : Heap) : Prog α → α → Nat → Prop
  | ret (a : α) : Quiet h (.ret a) a 0
  | cell {a : Nat} {k : Cell → Prog α} {c : Cell} {r : α} {n : Nat} : h.cell a = some c → (∀ xs, c ≠ .seq xs) → Quiet h (k c) r n → Quiet h (.cell a k) r (n + 1)
  | len {s : Nat} {k : Nat → Prog α} {xs : List Nat} {r : α} {n : Nat} : getSeq h s = some xs → Quiet h (k xs.length) r n → Quiet h (.len s k) r (n + 1)
  | slot {s i : Nat} {k : Nat → Prog α} {xs : List Nat} {x : Nat} {r : α} {n : Nat} : getSeq h s = some xs → xs[i]? = some x → Quiet h (k x) r n → Quiet h (.slot s i k) r (n + 1)
  | put {s i v : Nat} {k : Prog α} {xs : List Nat} {r : α} {n : Nat} : getSeq h s = some xs → xs[i]? = some v → Quiet h k r n → Quiet h (.put s i v k) r (n + 1)

theorem Quiet.bind {α β : Type} {h : Heap} {p : Prog α} {a : α} {n : Nat} {f : α → Prog β} {b : β} {m : Nat} (hp : Quiet h p a n) (hf : Quiet h (f a) b m) : ∃ q, Quiet h (p.bind f) b q := by
  induction hp with
  | ret a => exact ⟨m, hf⟩
  | cell h1 h2 _ ih => obtain ⟨q, hq⟩ := ih hf; exact ⟨q + 1, .cell h1 h2 hq⟩
  | len h1 _ ih => obtain ⟨q, hq⟩ := ih hf; exact ⟨q + 1, .len h1 hq⟩
  | slot h1 h2 _ ih => obtain ⟨q, hq⟩ := ih hf; exact ⟨q + 1, .slot h1 h2 hq⟩
  | put h1 h2 _ ih => obtain ⟨q, hq⟩ := ih hf; exact ⟨q + 1, .put h1 h2 hq⟩

/-- Some number of steps. -/
def Calm {α : Type} (h : Heap) (p : Prog α) (a : α) : Prop := ∃ n, Quiet h p a n

theorem Calm.bind {α β : Type} {h : Heap} {p : Prog α} {a : α} {f : α → Prog β} {b : β} (hp : Calm h p a) (hf : Calm h (f a) b) : Calm h (p.bind f) b := by
  obtain ⟨_, hp⟩ := hp
  obtain ⟨_, hf⟩ := hf
  exact hp.bind hf

theorem Calm.ret {α : Type} {h : Heap} (a : α) : Calm h (.ret a) a := ⟨0, .ret a⟩
theorem Calm.cell {α : Type} {h : Heap} {a : Nat} {k : Cell → Prog α} {c : Cell} {r : α} (h1 : h.cell a = some c) (h2 : ∀ xs, c ≠ .seq xs) (hk : Calm h (k c) r) : Calm h (.cell a k) r := by
  obtain ⟨n, hn⟩ := hk; exact ⟨n + 1, .cell h1 h2 hn⟩
theorem Calm.len {α : Type} {h : Heap} {s : Nat} {k : Nat → Prog α} {xs : List Nat} {r : α} (h1 : getSeq h s = some xs) (hk : Calm h (k xs.length) r) : Calm h (.len s k) r := by
  obtain ⟨n, hn⟩ := hk; exact ⟨n + 1, .len h1 hn⟩
theorem Calm.slot {α : Type} {h : Heap} {s i : Nat} {k : Nat → Prog α} {xs : List Nat} {x : Nat} {r : α} (h1 : getSeq h s = some xs) (h2 : xs[i]? = some x) (hk : Calm h (k x) r) : Calm h (.slot s i k) r := by
  obtain ⟨n, hn⟩ := hk; exact ⟨n + 1, .slot h1 h2 hn⟩
theorem Calm.put {α : Type} {h : Heap} {s i v : Nat} {k : Prog α} {xs : List Nat} {r : α} (h1 : getSeq h s = some xs) (h2 : xs[i]? = some v) (hk : Calm h k r) : Calm h (.put s i v k) r := by
  obtain ⟨n, hn⟩ := hk; exact ⟨n + 1, .put h1 h2 hn⟩

/-- A step of such a program changes nothing in memory. -/
theorem Quiet.step {α : Type} {h : Heap} {p : Prog α} {a : α} {n : Nat} (hp : Quiet h p a n) : ∃ p', p.step h = some (h, p') ∧ Quiet h p' a (n - 1) := by
  cases hp with
  | ret a => exact ⟨_, rfl, .ret a⟩
  | @cell x k c _ _ h1 h2 hk =>
    refine ⟨_, ?_, hk⟩
    cases c with
    | seq xs => exact absurd rfl (h2 xs)
    | str b => simp only [Prog.step, h1]
    | elem n b => simp only [Prog.step, h1]
  | len h1 hk => exact ⟨_, by simp only [Prog.step, h1, Option.map_some], hk⟩
  | slot h1 h2 hk => exact ⟨_, by simp only [Prog.step, h1, h2, Option.bind_some, Option.map_some], hk⟩
  | @put s i v k xs _ _ h1 h2 hk =>
    refine ⟨k, ?_, hk⟩
    have hl : i < xs.length := by
      by_cases hl : i < xs.length
      · exact hl
      · rw [List.getElem?_eq_none (by omega)] at h2; cases h2
    have hs : h.cell s = some (.seq xs) := by
      simp only [getSeq] at h1
      split at h1
      · rename_i z hz; cases h1; exact hz
      · cases h1
    have he : xs.set i v = xs := by
      refine List.ext_getElem? fun j => ?_
      rw [List.getElem?_set]
      split
      · rename_i e; subst e; rw [h2]
      · rfl
    have : store h s (.seq xs) = some h := by
      simp only [store, hs, Option.map_some, Option.some.injEq]
      cases h with
      | mk cell next =>
        congr 1
        funext a
        split
        · rename_i e; subst e; exact hs.symm
        · rfl
    simp only [Prog.step, h1, Option.bind_some, hl, if_true, he, this, Option.map_some]

/-! ## Names -/

/-- The names of these elements, in memory. -/
def NameAt (h : Heap) (x : Nat) (b : Bytes) : Prop := ∃ n body, h.cell x = some (.elem (some n) body) ∧ h.cell n = some (.str b)

theorem nameP_ok {h : Heap} {x : Nat} {b : Bytes} (hn : NameAt h x b) : Calm h (nameP x) b := by
  obtain ⟨n, body, h1, h2⟩ := hn
  exact .cell h1 (by simp) (.cell h2 (by simp) (.ret b))

theorem compareP_ok {h : Heap} {x y : Nat} {a b : Bytes} (hx : NameAt h x a) (hy : NameAt h y b) : Calm h (compareP x y) (Str.cmpSign id a b) :=
  (nameP_ok hx).bind ((nameP_ok hy).bind (.ret _))

/-! ## Sorting what is sorted -/

/-- An array of children whose names are these, strictly ascending. -/
structure Asc (h : Heap) (s : Nat) (xs : List Nat) (ns : List Bytes) : Prop where
  seq : getSeq h s = some xs
  len : ns.length = xs.length
  name : ∀ (i x : Nat) (b : Bytes), xs[i]? = some x → ns[i]? = some b → NameAt h x b
  asc : ∀ (i j : Nat) (a b : Bytes), i < j → ns[i]? = some a → ns[j]? = some b → Str.cmpSign id a b < 0 ∧ 0 < Str.cmpSign id b a

theorem Asc.at {h : Heap} {s : Nat} {xs : List Nat} {ns : List Bytes} (ha : Asc h s xs ns) {i : Nat} (hi : i < xs.length) : ∃ x b, xs[i]? = some x ∧ ns[i]? = some b ∧ NameAt h x b :=
  ⟨xs[i], ns[i]'(by rw [ha.len]; exact hi), by simp, by simp, ha.name i _ _ (by simp) (by simp)⟩

theorem scanUp_ok {h : Heap} {s : Nat} {xs : List Nat} {ns : List Bytes} (ha : Asc h s xs ns) {mid p : Nat} {b : Bytes} (hp : xs[mid]? = some p) (hb : ns[mid]? = some b) :
    ∀ (n l : Nat), l ≤ mid → mid < l + n → Calm h (scanUpP s p n l) mid := by
  have hm : mid < xs.length := by
    by_cases hl : mid < xs.length
    · exact hl
    · rw [List.getElem?_eq_none (by omega)] at hp; cases hp
  intro n
  induction n with
  | zero => intro l h1 h2; omega
  | succ n ih =>
    intro l h1 h2
    obtain ⟨x, c, hx, hc, hn⟩ := ha.at (show l < xs.length by omega)
    refine .slot ha.seq hx ((compareP_ok hn (ha.name mid p b hp hb)).bind ?_)
    by_cases he : l = mid
    · subst he
      rw [hb] at hc
      cases hc
      rw [(cmp_zero b b).mpr rfl]
      exact .ret l
    · rw [if_pos (ha.asc l mid c b (by omega) hc hb).1]
      exact ih (l + 1) (by omega) (by omega)

theorem scanDown_ok {h : Heap} {s : Nat} {xs : List Nat} {ns : List Bytes} (ha : Asc h s xs ns) {mid p : Nat} {b : Bytes} (hp : xs[mid]? = some p) (hb : ns[mid]? = some b) :
    ∀ (n r1 : Nat), mid < r1 → r1 ≤ xs.length → r1 ≤ mid + n → Calm h (scanDownP s p n r1) (mid + 1) := by
  intro n
  induction n with
  | zero => intro r1 h1 _ h2; omega
  | succ n ih =>
    intro r1 h1 hr h2
    cases r1 with
    | zero => omega
    | succ r =>
      obtain ⟨x, c, hx, hc, hn⟩ := ha.at (show r < xs.length by omega)
      refine .slot ha.seq hx ((compareP_ok hn (ha.name mid p b hp hb)).bind ?_)
      by_cases he : r = mid
      · subst he
        rw [hb] at hc
        cases hc
        rw [(cmp_zero b b).mpr rfl]
        exact .ret _
      · rw [if_pos (ha.asc mid r b c (by omega) hb hc).2]
        exact ih r (by omega) (by omega) (by omega)

theorem partition_ok {h : Heap} {s : Nat} {xs : List Nat} {ns : List Bytes} (ha : Asc h s xs ns) {mid p : Nat} {b : Bytes} (hp : xs[mid]? = some p) (hb : ns[mid]? = some b) {l r1 n bound : Nat}
    (h1 : l ≤ mid) (h2 : mid < r1) (h3 : r1 ≤ xs.length) (hbd : xs.length < bound) : Calm h (partitionP s p bound (n + 2) l r1) (mid + 1, mid) := by
  rw [partitionP, if_pos (by omega)]
  refine (scanUp_ok ha hp hb bound l h1 (by omega)).bind ((scanDown_ok ha hp hb bound r1 h2 h3 (by omega)).bind ?_)
  rw [if_pos (by omega), Nat.add_sub_cancel]
  refine .slot ha.seq hp (.slot ha.seq hp (.put ha.seq hp (.put ha.seq hp ?_)))
  rw [partitionP, if_neg (by omega)]
  exact .ret _

theorem quickSort_ok {h : Heap} {s : Nat} {xs : List Nat} {ns : List Bytes} (ha : Asc h s xs ns) {bound : Nat} (hbd : xs.length < bound) : ∀ (fuel off n : Nat), n < fuel → off + n ≤ xs.length → Calm h (quickSortP s bound fuel off n) () := by
  intro fuel
  induction fuel with
  | zero => intro off n h1; omega
  | succ fuel ih =>
    intro off n h1 h2
    rw [quickSortP]
    split
    · exact .ret ()
    · rename_i hn
      obtain ⟨p, b, hp, hb, _⟩ := ha.at (show off + n / 2 < xs.length by omega)
      refine .slot ha.seq hp ((partition_ok ha hp hb (by omega) (by omega) h2 hbd).bind ?_)
      exact (ih off _ (by simp only; omega) (by simp only; omega)).bind (ih _ _ (by simp only; omega) (by simp only; omega))

theorem sort_ok {h : Heap} {s : Nat} {xs : List Nat} {ns : List Bytes} (ha : Asc h s xs ns) : Calm h (sortP s) () :=
  .len ha.seq (quickSort_ok ha (by omega) _ 0 _ (by omega) (by omega))

/-! ## Writing -/

theorem Has.nameAt {h : Heap} {t : HT} {b : Bytes} (hH : Has h t.blocks) (hn : t.nm.map (·.2) = some b) : NameAt h t.root b := by
  rw [Option.map_eq_some_iff] at hn
  obtain ⟨⟨q, c⟩, hn, rfl⟩ := hn
  rw [HT.blocks_eq, has_cons, has_add, hn] at hH
  exact ⟨q, t.body, hH.1, hH.2.1 (q, .str c) (by simp [strBlock])⟩

theorem canonAll_iff (ks : List Elem) : CanonAll ks ↔ ∀ k ∈ ks, Canon k := by
  induction ks with
  | nil => simp [CanonAll]
  | cons k ks ih => simp [CanonAll, ih]

theorem cmp_swap (a b : Bytes) : 0 < Str.cmpSign id a b ↔ Str.cmpSign id b a < 0 := nameCompare_order.swap (a, [], .prim none .null []) (b, [], .prim none .null [])

theorem has_kids {h : Heap} : ∀ {ks : List HT}, Has h (blocksL ks) → ∀ k ∈ ks, Has h k.blocks := by
  intro ks
  induction ks with
  | nil => intro _ k hk; simp at hk
  | cons x xs ih =>
    intro hH k hk
    simp only [blocksL, has_add] at hH
    rcases List.mem_cons.mp hk with rfl | hk
    · exact hH.1
    · exact ih hH.2 k hk

theorem asc_of {h : Heap} {s : Nat} {ks : List HT} (hs : getSeq h s = some (ks.map HT.root)) (hH : Has h (blocksL ks)) (ha : AscElems (elems ks)) : ∃ ns, Asc h s (ks.map HT.root) ns := by
  rw [elems_eq] at ha
  refine ⟨ks.map fun k => (k.nm.map (·.2)).getD [], hs, by simp, ?_, ?_⟩
  · intro i x b hx hb
    rw [List.getElem?_map, Option.map_eq_some_iff] at hx hb
    obtain ⟨k, hk, rfl⟩ := hx
    obtain ⟨k', hk', rfl⟩ := hb
    rw [hk] at hk'
    cases hk'
    have hm := List.mem_of_getElem? hk
    have hn := ha.1 k.elem (List.mem_map_of_mem hm)
    rw [HT.elem_name] at hn
    obtain ⟨c, hc⟩ := Option.ne_none_iff_exists'.mp hn
    rw [hc]
    exact Has.nameAt (has_kids hH k hm) hc
  · intro i j a b hij hi hj
    rw [List.getElem?_map, Option.map_eq_some_iff] at hi hj
    obtain ⟨k, hk, rfl⟩ := hi
    obtain ⟨k', hk', rfl⟩ := hj
    have get : ∀ k ∈ ks, k.elem.name = some ((k.nm.map (·.2)).getD []) := by
      intro k hm
      have hn := ha.1 k.elem (List.mem_map_of_mem hm)
      rw [HT.elem_name] at hn ⊢
      obtain ⟨c, hc⟩ := Option.ne_none_iff_exists'.mp hn
      rw [hc]; rfl
    have hp := ha.2
    rw [List.pairwise_map, List.pairwise_iff_getElem] at hp
    obtain ⟨li, rfl⟩ := List.getElem?_eq_some_iff.mp hk
    obtain ⟨lj, rfl⟩ := List.getElem?_eq_some_iff.mp hk'
    have := hp i j li lj hij _ _ (get _ (List.getElem_mem li)) (get _ (List.getElem_mem lj))
    exact ⟨this, (cmp_swap _ _).mpr this⟩

/-- Sorting strictly ascending members leaves them. -/
theorem sortKids_id {r : List (Bytes × Bytes × Elem)} (hr : r.Pairwise fun a b => nameCompare a b < 0) : sortKids r = some r := by
  obtain ⟨l', e, hp, hs⟩ := sortKids_spec r
  rw [e]
  congr 1
  have hne : ∀ a ∈ r, ∀ b ∈ r, nameCompare a b = 0 → a = b := by
    intro a ha b hb h0
    by_contra hab
    have h0' : nameCompare b a = 0 := by
      have := (nameCompare_order.swap a b); have := (nameCompare_order.swap b a); omega
    have : ∀ x ∈ r, ∀ y ∈ r, x ≠ y → nameCompare x y ≠ 0 ∨ nameCompare y x ≠ 0 := by
      have hq : r.Pairwise fun x y => nameCompare x y ≠ 0 ∨ nameCompare y x ≠ 0 := hr.imp fun h => .inl (by omega)
      intro x hx y hy hxy
      haveI : Std.Symm (fun x y : Bytes × Bytes × Elem => nameCompare x y ≠ 0 ∨ nameCompare y x ≠ 0) := ⟨fun _ _ h => h.symm⟩
      exact hq.forall hx hy hxy
    rcases this a ha b hb hab with h | h
    · exact h h0
    · exact h h0'
  refine List.Perm.eq_of_pairwise (le := fun a b => nameCompare a b ≤ 0) ?_ hs (hr.imp fun h => by omega) hp
  intro a b ha hb h1 h2
  refine hne a (hp.mem_iff.mp ha) b hb ?_
  have q1 := nameCompare_order.swap a b
  have q2 := nameCompare_order.swap b a
  omega

theorem fst_names (st : Style) (lvl : Nat) : ∀ (es : List Elem) (r : List (Bytes × Bytes × Elem)), writeGNamed st lvl es = some r → r.map (fun x => some x.1) = es.map Elem.name := by
  intro es
  induction es with
  | nil => intro r h; simp only [writeGNamed, Option.some.injEq] at h; subst h; rfl
  | cons e es ih =>
    intro r h
    simp only [writeGNamed, Option.bind_eq_some_iff, Option.map_eq_some_iff] at h
    obtain ⟨k, hk, y, hy, r', hr', rfl⟩ := h
    simp [hk, ih r' hr']

/-- A text for every canonical tree in memory, and nothing changed. -/
def WritesCalm (st : Style) (n : Nat) : Prop := ∀ (t : HT) (lvl : Nat) (h : Heap), t.depth ≤ n → Has h t.blocks → Canon t.elem → ∃ text, Calm h (writeP st n lvl t.root) text ∧ writeG st lvl t.elem = some (text, t.elem)

theorem getElem?_drop_cons {α : Type} {xs : List α} {i : Nat} {y : α} {ys : List α} (h : xs.drop i = y :: ys) : xs[i]? = some y ∧ xs.drop (i + 1) = ys := by
  constructor
  · have := List.getElem?_drop (xs := xs) (i := i) (j := 0)
    rw [h] at this
    simpa using this.symm
  · rw [← List.drop_drop, h]; rfl

theorem each_ok {st : Style} {n : Nat} (ih : WritesCalm st n) (lvl : Nat) {h : Heap} {s : Nat} {xs : List Nat} (hs : getSeq h s = some xs) : ∀ (ks : List HT) (i : Nat), xs.drop i = ks.map HT.root → depthL ks ≤ n → Has h (blocksL ks) → CanonAll (elems ks) →
    ∃ ts, Calm h (eachP (writeP st n lvl) s ks.length i) ts ∧ writeGKids st lvl (elems ks) = some (ts.zip (elems ks)) ∧ ts.length = ks.length := by
  intro ks
  induction ks with
  | nil => intro i _ _ _ _; exact ⟨[], .ret _, rfl, rfl⟩
  | cons k ks ihl =>
    intro i hd hdep hH hc
    simp only [List.map_cons] at hd
    obtain ⟨h1, h2⟩ := getElem?_drop_cons hd
    simp only [depthL] at hdep
    simp only [blocksL, has_add] at hH
    simp only [elems, CanonAll] at hc
    obtain ⟨t, ht, hw⟩ := ih k lvl h (by omega) hH.1 hc.1
    obtain ⟨ts, hts, hws, hl⟩ := ihl (i + 1) h2 (by omega) hH.2 hc.2
    refine ⟨t :: ts, .slot hs h1 (ht.bind (hts.bind (.ret _))), ?_, by simp [hl]⟩
    simp only [elems, writeGKids, hw, hws, Option.bind_some, Option.map_some, List.zip_cons_cons]

theorem eachNamed_ok {st : Style} {n : Nat} (ih : WritesCalm st n) (lvl : Nat) {h : Heap} {s : Nat} {xs : List Nat} (hs : getSeq h s = some xs) : ∀ (ks : List HT) (i : Nat), xs.drop i = ks.map HT.root → depthL ks ≤ n → Has h (blocksL ks) → CanonAll (elems ks) →
    (∀ k ∈ elems ks, k.name ≠ none) → ∃ ts, Calm h (eachNamedP (writeP st n lvl) s ks.length i) (ts.map fun x => (x.1, x.2.1)) ∧ writeGNamed st lvl (elems ks) = some ts ∧ ts.map (fun x => x.2.2) = elems ks := by
  intro ks
  induction ks with
  | nil => intro i _ _ _ _ _; exact ⟨[], .ret _, rfl, rfl⟩
  | cons k ks ihl =>
    intro i hd hdep hH hc hn
    simp only [List.map_cons] at hd
    obtain ⟨h1, h2⟩ := getElem?_drop_cons hd
    simp only [depthL] at hdep
    simp only [blocksL, has_add] at hH
    simp only [elems, CanonAll] at hc
    obtain ⟨b, hb⟩ := Option.ne_none_iff_exists'.mp (hn k.elem (by simp [elems]))
    obtain ⟨t, ht, hw⟩ := ih k lvl h (by omega) hH.1 hc.1
    obtain ⟨ts, hts, hws, hl⟩ := ihl (i + 1) h2 (by omega) hH.2 hc.2 (fun x hx => hn x (by simp [elems, hx]))
    refine ⟨(b, t, k.elem) :: ts, .slot hs h1 ((nameP_ok (Has.nameAt hH.1 (by rw [← HT.elem_name]; exact hb))).bind (ht.bind (hts.bind (.ret _)))), ?_, by simp [hl, elems]⟩
    simp only [elems, writeGNamed, hb, hw, hws, Option.bind_some, Option.map_some]

theorem writeP_ok (st : Style) : ∀ n, WritesCalm st n := by
  intro n
  induction n with
  | zero => intro t lvl h hd; cases t <;> simp [HT.depth] at hd
  | succ n ih =>
    intro t lvl h hd hH hc
    have h0 : h.cell t.root = some (.elem (t.nm.map (·.1)) t.body) := by rw [HT.blocks_eq, has_cons] at hH; exact hH.1
    cases t with
    | prim a nm t p b =>
      refine ⟨primText t b, .cell h0 (by simp) ?_, by simp only [HT.elem, writeG]⟩
      refine Calm.bind (a := b) ?_ (.ret _)
      cases p with
      | none => exact .ret b
      | some q =>
        have := hH (q, .str b) (by simp [HT.blocks, strBlock])
        exact .cell this (by simp) (.ret b)
    | cont a nm t s ks =>
      simp only [HT.depth] at hd
      have hs : getSeq h s = some (ks.map HT.root) := by
        have := hH (s, .seq (ks.map HT.root)) (by simp [HT.blocks])
        simp only [getSeq, this]
      have hk : Has h (blocksL ks) := fun x hx => hH x (by simp only [HT.blocks, Multiset.mem_cons, Multiset.mem_add]; exact .inr (.inr (.inr hx)))
      cases t with
      | array =>
        simp only [HT.elem, Canon] at hc
        obtain ⟨ts, h1, h2, h3⟩ := each_ok ih (lvl + 1) hs ks 0 rfl (by omega) hk hc
        have hl : ts.length = (elems ks).length := by rw [h3, elems_eq]; simp
        refine ⟨st.array lvl ts, .cell h0 (by simp) (.len hs ?_), ?_⟩
        · rw [List.length_map]
          exact h1.bind (.ret _)
        · simp only [HT.elem, writeG, h2, Option.bind_some]
          rw [List.map_fst_zip (by omega), List.map_snd_zip (by omega)]
      | object =>
        simp only [HT.elem, Canon] at hc
        obtain ⟨ns, ha⟩ := asc_of hs hk hc.2
        obtain ⟨ts, h1, h2, h3⟩ := eachNamed_ok ih (lvl + 1) hs ks 0 rfl (by omega) hk hc.1 hc.2.1
        have hsort : sortKids ts = some ts := by
          refine sortKids_id ?_
          have hf := fst_names st (lvl + 1) (elems ks) ts h2
          have hp := hc.2.2
          have hp' : ((elems ks).map Elem.name).Pairwise fun x y => ∀ a b, x = some a → y = some b → Str.cmpSign id a b < 0 := by
            rw [List.pairwise_map]
            exact hp
          rw [← hf, List.pairwise_map] at hp'
          exact hp'.imp fun h => h _ _ rfl rfl
        refine ⟨st.object lvl (ts.map fun x => (x.1, x.2.1)), .cell h0 (by simp) ((sort_ok ha).bind (.len hs ?_)), ?_⟩
        · rw [List.length_map]
          exact h1.bind (.ret _)
        · simp only [HT.elem, writeG, h2, hsort, h3, Option.bind_some]

/-! ## Threads -/

theorem runThreads_ok {α : Type} (h : Heap) : ∀ (sched : List Nat) (ps : List (Prog α)) (rs : List α) (ns : List Nat), ps.length = rs.length → ps.length = ns.length →
    (∀ (i : Nat) (p : Prog α) (r : α) (n : Nat), ps[i]? = some p → rs[i]? = some r → ns[i]? = some n → Quiet h p r n) →
    ∃ ps' : List (Prog α), runThreads sched h ps = some (h, ps') ∧ ps'.length = rs.length ∧ ∀ (i : Nat) (p : Prog α) (r : α) (n : Nat), ps'[i]? = some p → rs[i]? = some r → ns[i]? = some n → Quiet h p r (n - sched.count i) := by
  intro sched
  induction sched with
  | nil => intro ps rs ns h1 h2 hq; exact ⟨ps, rfl, h1, by simpa using hq⟩
  | cons j sched ih =>
    intro ps rs ns h1 h2 hq
    cases hp : ps[j]? with
    | none =>
      obtain ⟨ps', e, hl, hq'⟩ := ih ps rs ns h1 h2 hq
      refine ⟨ps', by simp only [runThreads, hp, e], hl, fun i p r n a b c => ?_⟩
      have hij : j ≠ i := by
        rintro rfl
        have : rs.length ≤ j := by rw [← h1]; exact List.getElem?_eq_none_iff.mp hp
        rw [List.getElem?_eq_none this] at b
        cases b
      rw [List.count_cons_of_ne hij]
      exact hq' i p r n a b c
    | some p =>
      have hj : j < ps.length := (List.getElem?_eq_some_iff.mp hp).1
      have hr : rs[j]? = some (rs[j]'(by omega)) := by simp
      have hn : ns[j]? = some (ns[j]'(by omega)) := by simp
      obtain ⟨p', e, hq1⟩ := (hq j p _ _ hp hr hn).step
      have hset : ∀ (i : Nat) (q : Prog α) (r : α) (n : Nat), (ps.set j p')[i]? = some q → rs[i]? = some r → (ns.set j (ns[j]'(by omega) - 1))[i]? = some n → Quiet h q r n := by
        intro i q r n a b c
        rw [List.getElem?_set] at a c
        by_cases hij : j = i
        · subst hij
          rw [if_pos rfl, if_pos hj] at a
          rw [if_pos rfl, if_pos (by omega)] at c
          rw [hr] at b
          cases a; cases b; cases c
          exact hq1
        · rw [if_neg hij] at a c
          exact hq i q r n a b c
      obtain ⟨ps', e2, hl, hq2⟩ := ih (ps.set j p') rs (ns.set j (ns[j]'(by omega) - 1)) (by simp [h1]) (by simp [h2]) hset
      refine ⟨ps', by simp only [runThreads, hp, e, Option.bind_some, e2], hl, fun i q r n a b c => ?_⟩
      by_cases hij : j = i
      · subst hij
        have hq3 := hq2 j q r (ns[j]'(by omega) - 1) a b (by rw [List.getElem?_set]; simp [show j < ns.length by omega])
        rw [hn] at c
        cases c
        rw [List.count_cons_self]
        have e3 : ns[j]'(by omega) - (sched.count j + 1) = ns[j]'(by omega) - 1 - sched.count j := by omega
        rw [e3]
        exact hq3
      · rw [List.count_cons_of_ne hij]
        exact hq2 i q r n a b (by rw [List.getElem?_set, if_neg hij]; exact c)

theorem quiet_done {α : Type} {h : Heap} {p : Prog α} {a : α} {n : Nat} (hq : Quiet h p a n) (hn : n = 0) : p = .ret a := by
  cases hq with
  | ret => rfl
  | _ => omega

theorem quiet_ret {α : Type} {h : Heap} {t a : α} {n : Nat} (hq : Quiet h (.ret t) a n) : t = a := by
  cases hq
  rfl

end JsonHeap
