import Verif.Model.RBPtr
/-! # Lemmas: the heap represents a tree whose payloads carry their addresses -/
namespace RBPtr
open RB (T Frame up plug)

variable {P : Type}

/-- The pointer to a tree. -/
def addr (nil : Nat) : T (Nat × P) → Nat
  | .nil => nil
  | .node _ _ p _ => p.1

/-- All addresses of a tree. -/
def addrs : T (Nat × P) → List Nat
  | .nil => []
  | .node _ l p r => p.1 :: (addrs l ++ addrs r)

/-- All addresses of a context. -/
def addrsC : List (Frame (Nat × P)) → List Nat
  | [] => []
  | f :: fs => f.pay.1 :: (addrs f.sib ++ addrsC fs)

/-- The fields of a node. -/
structure NodeAt (h : Heap P) (a : Nat) (c : Bool) (p : P) (l r q : Nat) : Prop where
  alive : h.alive a = true
  red : h.red a = c
  pay : h.pay a = some p
  left : h.left a = l
  right : h.right a = r
  parent : h.parent a = q

/-- The heap holds the tree, below the node `q`. -/
def Rep (nil : Nat) (h : Heap P) : Nat → T (Nat × P) → Prop
  | _, .nil => True
  | q, .node c l p r => NodeAt h p.1 c p.2 (addr nil l) (addr nil r) q ∧ Rep nil h p.1 l ∧ Rep nil h p.1 r

/-- The parent pointer of a hole. -/
def pa (root : Nat) : List (Frame (Nat × P)) → Nat
  | [] => root
  | f :: _ => f.pay.1

/-- The heap holds the context, the pointer in the hole being `c`. -/
def RepC (root nil : Nat) (h : Heap P) : Nat → List (Frame (Nat × P)) → Prop
  | c, [] => h.alive root = true ∧ h.red root = false ∧ h.pay root = none ∧ h.left root = c ∧ h.right root = nil
  | c, f :: fs => NodeAt h f.pay.1 f.red f.pay.2 (if f.left then c else addr nil f.sib) (if f.left then addr nil f.sib else c)
      (pa root fs) ∧ Rep nil h f.pay.1 f.sib ∧ RepC root nil h f.pay.1 fs

/-- Two heaps are the same at an address. -/
structure Agree (h h' : Heap P) (a : Nat) : Prop where
  alive : h'.alive a = h.alive a
  red : h'.red a = h.red a
  pay : h'.pay a = h.pay a
  left : h'.left a = h.left a
  right : h'.right a = h.right a
  parent : h'.parent a = h.parent a

theorem Agree.refl (h : Heap P) (a : Nat) : Agree h h a := ⟨rfl, rfl, rfl, rfl, rfl, rfl⟩

theorem Agree.trans {h1 h2 h3 : Heap P} {a : Nat} (x : Agree h1 h2 a) (y : Agree h2 h3 a) : Agree h1 h3 a :=
  ⟨y.alive.trans x.alive, y.red.trans x.red, y.pay.trans x.pay, y.left.trans x.left, y.right.trans x.right, y.parent.trans x.parent⟩

theorem NodeAt.agree {h h' : Heap P} {a : Nat} {c : Bool} {p : P} {l r q : Nat} (n : NodeAt h a c p l r q) (g : Agree h h' a) :
    NodeAt h' a c p l r q :=
  ⟨g.alive.trans n.alive, g.red.trans n.red, g.pay.trans n.pay, g.left.trans n.left, g.right.trans n.right, g.parent.trans n.parent⟩

theorem Rep.agree {nil : Nat} {h h' : Heap P} (t : T (Nat × P)) : ∀ {q : Nat}, (∀ a ∈ addrs t, Agree h h' a) → Rep nil h q t →
    Rep nil h' q t := by
  induction t with
  | nil => intro q _ _; trivial
  | node c l p r ihl ihr =>
    intro q g ⟨n, hl, hr⟩
    exact ⟨n.agree (g _ (by simp [addrs])), ihl (fun a ha => g a (by simp [addrs, ha])) hl, ihr (fun a ha => g a (by simp [addrs, ha])) hr⟩

theorem RepC.agree {root nil : Nat} {h h' : Heap P} (ctx : List (Frame (Nat × P))) : ∀ {c : Nat}, Agree h h' root →
    (∀ a ∈ addrsC ctx, Agree h h' a) → RepC root nil h c ctx → RepC root nil h' c ctx := by
  induction ctx with
  | nil =>
    intro c gr _ ⟨a, b, d, e, f⟩
    exact ⟨gr.alive.trans a, gr.red.trans b, gr.pay.trans d, gr.left.trans e, gr.right.trans f⟩
  | cons f fs ih =>
    intro c gr g ⟨n, hs, hc⟩
    exact ⟨n.agree (g _ (by simp [addrsC])), Rep.agree _ (fun a ha => g a (by simp [addrsC, ha])) hs,
      ih gr (fun a ha => g a (by simp [addrsC, ha])) hc⟩

/-- The heap `h`, changed from `h0` only at the addresses `S`, holds the zipper; `np` is the parent field of nil. -/
structure Z (root nil np : Nat) (h0 : Heap P) (S : List Nat) (h : Heap P) (t : T (Nat × P)) (ctx : List (Frame (Nat × P))) : Prop where
  rep : Rep nil h (pa root ctx) t
  repC : RepC root nil h (addr nil t) ctx
  nilAlive : h.alive nil = true
  nilRed : h.red nil = false
  nilPay : h.pay nil = none
  nilParent : h.parent nil = np
  perm : (root :: nil :: (addrs t ++ addrsC ctx)).Perm S
  nodup : S.Nodup
  keep : h.alive = h0.alive ∧ h.pay = h0.pay
  out : ∀ a, a ∉ S → Agree h0 h a

theorem addr_mem {nil : Nat} {t : T (Nat × P)} (h : t ≠ .nil) : addr nil t ∈ addrs t := by
  cases t with
  | nil => exact absurd rfl h
  | node c l p r => simp [addr, addrs]

theorem Z.nd {root nil np : Nat} {h0 : Heap P} {S : List Nat} {h : Heap P} {t : T (Nat × P)} {ctx : List (Frame (Nat × P))}
    (z : Z root nil np h0 S h t ctx) : (root :: nil :: (addrs t ++ addrsC ctx)).Nodup := z.perm.nodup_iff.mpr z.nodup

/-- Moving the focus one step up. -/
theorem Z.goUp {root nil np : Nat} {h0 : Heap P} {S : List Nat} {h : Heap P} {t : T (Nat × P)} {f : Frame (Nat × P)}
    {ctx : List (Frame (Nat × P))} (z : Z root nil np h0 S h t (f :: ctx)) : Z root nil np h0 S h (up t f) ctx := by
  obtain ⟨r, ⟨n, rs, rc⟩, a, b, c, d, e, g, i, j⟩ := z
  obtain ⟨lf, red, ⟨pa1, pp⟩, sib⟩ := f
  cases lf
  · refine ⟨⟨n, rs, r⟩, rc, a, b, c, d, ?_, g, i, j⟩
    refine List.Perm.trans ?_ e
    simp only [up, addrs, addrsC, Bool.false_eq_true, if_false]
    refine .cons _ (.cons _ ?_)
    rw [List.cons_append, List.append_assoc]
    refine .trans ?_ (List.perm_middle.symm)
    refine .cons _ ?_
    rw [← List.append_assoc, ← List.append_assoc]
    exact List.perm_append_comm.append_right _
  · refine ⟨⟨n, r, rs⟩, rc, a, b, c, d, ?_, g, i, j⟩
    refine List.Perm.trans ?_ e
    simp only [up, addrs, addrsC, if_true]
    refine .cons _ (.cons _ ?_)
    rw [List.cons_append, List.append_assoc]
    exact List.perm_middle.symm

/-- Moving the focus one step down. -/
theorem Z.goDown {root nil np : Nat} {h0 : Heap P} {S : List Nat} {h : Heap P} {t : T (Nat × P)} {f : Frame (Nat × P)}
    {ctx : List (Frame (Nat × P))} (z : Z root nil np h0 S h (up t f) ctx) : Z root nil np h0 S h t (f :: ctx) := by
  obtain ⟨lf, red, ⟨pa1, pp⟩, sib⟩ := f
  cases lf
  · obtain ⟨⟨n, rs, r⟩, rc, a, b, c, d, e, g, i, j⟩ := z
    refine ⟨r, ⟨n, rs, rc⟩, a, b, c, d, ?_, g, i, j⟩
    refine List.Perm.trans (List.Perm.symm ?_) e
    simp only [up, addrs, addrsC, Bool.false_eq_true, if_false]
    refine .cons _ (.cons _ ?_)
    rw [List.cons_append, List.append_assoc]
    refine .trans ?_ (List.perm_middle.symm)
    refine .cons _ ?_
    rw [← List.append_assoc, ← List.append_assoc]
    exact List.perm_append_comm.append_right _
  · obtain ⟨⟨n, r, rs⟩, rc, a, b, c, d, e, g, i, j⟩ := z
    refine ⟨r, ⟨n, rs, rc⟩, a, b, c, d, ?_, g, i, j⟩
    refine List.Perm.trans (List.Perm.symm ?_) e
    simp only [up, addrs, addrsC, if_true]
    refine .cons _ (.cons _ ?_)
    rw [List.cons_append, List.append_assoc]
    exact List.perm_middle.symm

theorem Z.goTop {root nil np : Nat} {h0 : Heap P} {S : List Nat} {h : Heap P} (ctx : List (Frame (Nat × P))) : ∀ {t : T (Nat × P)},
    Z root nil np h0 S h t ctx → Z root nil np h0 S h (plug t ctx) [] := by
  induction ctx with
  | nil => intro t z; exact z
  | cons f fs ih => intro t z; exact ih z.goUp

theorem Z.fromTop {root nil np : Nat} {h0 : Heap P} {S : List Nat} {h : Heap P} (ctx : List (Frame (Nat × P))) : ∀ {t : T (Nat × P)},
    Z root nil np h0 S h (plug t ctx) [] → Z root nil np h0 S h t ctx := by
  induction ctx with
  | nil => intro t z; exact z
  | cons f fs ih => intro t z; exact (ih z).goDown

theorem upd_same {A : Type} (f : Nat → A) (a : Nat) (v : A) : upd f a v a = v := by simp [upd]
theorem upd_ne {A : Type} (f : Nat → A) {a x : Nat} (v : A) (h : x ≠ a) : upd f a v x = f x := by simp [upd, h]

/-- Painting the node in focus. -/
theorem Z.paint {root nil np : Nat} {h0 : Heap P} {S : List Nat} {h : Heap P} {c : Bool} {l r : T (Nat × P)} {p : Nat × P}
    {ctx : List (Frame (Nat × P))} (z : Z root nil np h0 S h (.node c l p r) ctx) (c' : Bool) :
    ∃ h', setRed h p.1 c' = some h' ∧ Z root nil np h0 S h' (.node c' l p r) ctx := by
  have nd := z.nd
  obtain ⟨⟨n, rl, rr⟩, rc, a, b, c, d, e, g, i, j⟩ := z
  refine ⟨{ h with red := upd h.red p.1 c' }, by simp [setRed, n.alive], ?_⟩
  simp only [addrs, List.cons_append, List.append_assoc, List.nodup_cons, List.mem_cons, List.mem_append, not_or] at nd
  obtain ⟨⟨_, rp, rnl, rnr, rnc⟩, ⟨np', nnl, nnr, nnc⟩, ⟨pl, pr, pc⟩, _⟩ := nd
  have ag : ∀ x, x ≠ p.1 → Agree h { h with red := upd h.red p.1 c' } x := fun x hx => ⟨rfl, upd_ne _ _ hx, rfl, rfl, rfl, rfl⟩
  refine ⟨⟨⟨n.alive, upd_same _ _ _, n.pay, n.left, n.right, n.parent⟩, Rep.agree _ (fun x hx => ag x ?_) rl,
    Rep.agree _ (fun x hx => ag x ?_) rr⟩, RepC.agree _ (ag _ rp) (fun x hx => ag x ?_) rc, a, ?_, c, d, e, g, i,
    fun x hx => (j x hx).trans (ag x ?_)⟩
  · rintro rfl; exact pl hx
  · rintro rfl; exact pr hx
  · rintro rfl; exact pc hx
  · rw [← b]; exact upd_ne _ _ np'
  · rintro rfl; exact hx (e.subset (by simp [addrs]))

/-- Painting nil black changes nothing. -/
theorem Z.paintNil {root nil np : Nat} {h0 : Heap P} {S : List Nat} {h : Heap P} {t : T (Nat × P)} {ctx : List (Frame (Nat × P))}
    (z : Z root nil np h0 S h t ctx) : ∃ h', setRed h nil false = some h' ∧ Z root nil np h0 S h' t ctx := by
  have e : upd h.red nil false = h.red := by
    funext x
    by_cases hx : x = nil
    · rw [hx, upd_same, z.nilRed]
    · exact upd_ne _ _ hx
  exact ⟨h, by simp [setRed, z.nilAlive, e], z⟩

/-- `x->red = false` for the node in focus, nil or not. -/
theorem Z.blacken {root nil np : Nat} {h0 : Heap P} {S : List Nat} {h : Heap P} {t : T (Nat × P)} {ctx : List (Frame (Nat × P))}
    (z : Z root nil np h0 S h t ctx) : ∃ h', setRed h (addr nil t) false = some h' ∧ Z root nil np h0 S h' t.blacken ctx := by
  cases t with
  | nil => exact z.paintNil
  | node c l p r => exact z.paint false

/-- The other child. -/
def flip (t : T (Nat × P)) (f : Frame (Nat × P)) : Frame (Nat × P) := ⟨!f.left, f.red, f.pay, t⟩

theorem up_flip (t : T (Nat × P)) (f : Frame (Nat × P)) : up f.sib (flip t f) = up t f := by
  cases h : f.left <;> simp [up, flip, h]

/-- Painting the parent. -/
theorem Z.paintParent {root nil np : Nat} {h0 : Heap P} {S : List Nat} {h : Heap P} {t : T (Nat × P)} {f : Frame (Nat × P)}
    {ctx : List (Frame (Nat × P))} (z : Z root nil np h0 S h t (f :: ctx)) (c' : Bool) :
    ∃ h', setRed h f.pay.1 c' = some h' ∧ Z root nil np h0 S h' t ({ f with red := c' } :: ctx) := by
  obtain ⟨lf, red, p, sib⟩ := f
  have u := z.goUp
  cases lf
  · obtain ⟨h', e, w⟩ := Z.paint (by simpa [up] using u) c'
    exact ⟨h', e, Z.goDown (by simpa [up] using w)⟩
  · obtain ⟨h', e, w⟩ := Z.paint (by simpa [up] using u) c'
    exact ⟨h', e, Z.goDown (by simpa [up] using w)⟩

/-- Moving to the sibling. -/
theorem Z.toSib {root nil np : Nat} {h0 : Heap P} {S : List Nat} {h : Heap P} {t : T (Nat × P)} {f : Frame (Nat × P)}
    {ctx : List (Frame (Nat × P))} (z : Z root nil np h0 S h t (f :: ctx)) : Z root nil np h0 S h f.sib (flip t f :: ctx) := by
  apply Z.goDown
  rw [up_flip]
  exact z.goUp

theorem Z.ofSib {root nil np : Nat} {h0 : Heap P} {S : List Nat} {h : Heap P} {t s : T (Nat × P)} {f : Frame (Nat × P)}
    {ctx : List (Frame (Nat × P))} (z : Z root nil np h0 S h s (flip t f :: ctx)) :
    Z root nil np h0 S h t ({ f with sib := s } :: ctx) := by
  have := z.toSib
  simpa [flip] using this

section reads
variable {root nil np : Nat} {h0 : Heap P} {S : List Nat} {h : Heap P} {t : T (Nat × P)} {f : Frame (Nat × P)}
    {ctx : List (Frame (Nat × P))}

theorem Z.readRed (z : Z root nil np h0 S h t ctx) : getRed h (addr nil t) = some t.isRed := by
  cases t with
  | nil => simp [getRed, addr, z.nilAlive, z.nilRed, T.isRed]
  | node c l p r => obtain ⟨⟨n, _⟩, _⟩ := z; simp [getRed, addr, n.alive, n.red, T.isRed]

theorem Z.readParent (z : Z root nil np h0 S h t ctx) (hn : t = .nil → np = pa root ctx) : getP h (addr nil t) = some (pa root ctx) := by
  cases t with
  | nil => simp [getP, addr, z.nilAlive, z.nilParent, hn rfl]
  | node c l p r => obtain ⟨⟨n, _⟩, _⟩ := z; simp [getP, addr, n.alive, n.parent]

theorem Z.readPL (z : Z root nil np h0 S h t (f :: ctx)) :
    getL h f.pay.1 = some (if f.left then addr nil t else addr nil f.sib) := by
  obtain ⟨_, ⟨n, _⟩, _⟩ := z; simp [getL, n.alive, n.left]

theorem Z.readPR (z : Z root nil np h0 S h t (f :: ctx)) :
    getR h f.pay.1 = some (if f.left then addr nil f.sib else addr nil t) := by
  obtain ⟨_, ⟨n, _⟩, _⟩ := z; simp [getR, n.alive, n.right]

theorem Z.readPP (z : Z root nil np h0 S h t (f :: ctx)) : getP h f.pay.1 = some (pa root ctx) := by
  obtain ⟨_, ⟨n, _⟩, _⟩ := z; simp [getP, n.alive, n.parent]

theorem Z.readPRed (z : Z root nil np h0 S h t (f :: ctx)) : getRed h f.pay.1 = some f.red := by
  obtain ⟨_, ⟨n, _⟩, _⟩ := z; simp [getRed, n.alive, n.red]

theorem Z.readL {c : Bool} {l r : T (Nat × P)} {p : Nat × P} (z : Z root nil np h0 S h (.node c l p r) ctx) :
    getL h p.1 = some (addr nil l) := by
  obtain ⟨⟨n, _⟩, _⟩ := z; simp [getL, n.alive, n.left]

theorem Z.readR {c : Bool} {l r : T (Nat × P)} {p : Nat × P} (z : Z root nil np h0 S h (.node c l p r) ctx) :
    getR h p.1 = some (addr nil r) := by
  obtain ⟨⟨n, _⟩, _⟩ := z; simp [getR, n.alive, n.right]

theorem Z.readPay {c : Bool} {l r : T (Nat × P)} {p : Nat × P} (z : Z root nil np h0 S h (.node c l p r) ctx) :
    getPay h p.1 = some (some p.2) := by
  obtain ⟨⟨n, _⟩, _⟩ := z; simp [getPay, n.alive, n.pay]

/-- A child that is a node is not its sibling. -/
theorem Z.ne_sib (z : Z root nil np h0 S h t (f :: ctx)) (ht : t ≠ .nil ∨ f.sib ≠ .nil) : addr nil t ≠ addr nil f.sib := by
  have nd := z.nd
  simp only [addrsC, List.nodup_cons, List.mem_cons, List.mem_append, not_or, List.nodup_append] at nd
  obtain ⟨_, ⟨n1, n2, n3, n4⟩, _, _, q⟩ := nd
  intro e
  by_cases h1 : t = .nil
  · subst h1
    have h2 : f.sib ≠ .nil := by simpa using ht
    apply n3
    have := addr_mem (nil := nil) h2
    rw [← e] at this
    exact this
  · by_cases h2 : f.sib = .nil
    · rw [h2] at e
      have := addr_mem (nil := nil) h1
      rw [e] at this
      exact n1 this
    · have h3 := addr_mem (nil := nil) h1
      have h4 := addr_mem (nil := nil) h2
      exact q _ h3 _ (by simp [h4]) e

end reads

/-- The parent's link to the node in focus is set to `y`. -/
theorem relink_spec {root nil : Nat} {h : Heap P} {x y : Nat} {ctx : List (Frame (Nat × P))} (rc : RepC root nil h x ctx)
    (hp : h.parent x = pa root ctx) (ha : h.alive x = true)
    (hx : ∀ f ∈ ctx.head?, x ≠ addr nil f.sib) (hr : root ∉ addrsC ctx) (nd : (addrsC ctx).Nodup) :
    ∃ h', relink h x y = some h' ∧ RepC root nil h' y ctx ∧ h'.alive = h.alive ∧ h'.red = h.red ∧ h'.pay = h.pay ∧
      h'.parent = h.parent ∧ (∀ z, z ≠ pa root ctx → Agree h h' z) := by
  cases ctx with
  | nil =>
    obtain ⟨a, b, c, d, e⟩ := rc
    refine ⟨{ h with left := upd h.left root y }, ?_, ⟨a, b, c, upd_same _ _ _, e⟩, rfl, rfl, rfl, rfl,
      fun z hz => ⟨rfl, rfl, rfl, upd_ne _ _ hz, rfl, rfl⟩⟩
    simp [relink, getP, ha, hp, pa, getL, a, d, setL]
  | cons f fs =>
    obtain ⟨n, rs, rc⟩ := rc
    have hx := hx f (by simp)
    simp only [addrsC, List.nodup_cons, List.mem_append, not_or, List.mem_cons] at hr nd
    obtain ⟨lf, red, p, sib⟩ := f
    have na := n.alive
    have nl := n.left
    simp only at na nl
    cases lf
    · have ag : ∀ z, z ≠ p.1 → Agree h { h with right := upd h.right p.1 y } z :=
        fun z hz => ⟨rfl, rfl, rfl, rfl, upd_ne _ _ hz, rfl⟩
      refine ⟨{ h with right := upd h.right p.1 y }, ?_, ⟨⟨n.alive, n.red, n.pay, n.left, ?_, n.parent⟩,
        Rep.agree _ (fun a ha => ag a ?_) rs, RepC.agree _ (ag _ ?_) (fun a ha => ag a ?_) rc⟩, rfl, rfl, rfl, rfl, ag⟩
      · simp only [Bool.false_eq_true, if_false] at nl
        simp [relink, getP, ha, hp, pa, getL, na, nl, setR]
        intro e; exact absurd e hx
      · simp [upd_same]
      · rintro rfl; exact nd.1.1 ha
      · exact hr.1
      · rintro rfl; exact nd.1.2 ha
    · have ag : ∀ z, z ≠ p.1 → Agree h { h with left := upd h.left p.1 y } z :=
        fun z hz => ⟨rfl, rfl, rfl, upd_ne _ _ hz, rfl, rfl⟩
      refine ⟨{ h with left := upd h.left p.1 y }, ?_, ⟨⟨n.alive, n.red, n.pay, ?_, n.right, n.parent⟩,
        Rep.agree _ (fun a ha => ag a ?_) rs, RepC.agree _ (ag _ ?_) (fun a ha => ag a ?_) rc⟩, rfl, rfl, rfl, rfl, ag⟩
      · simp only [if_true] at nl
        simp [relink, getP, ha, hp, pa, getL, na, nl, setL]
      · simp [upd_same]
      · rintro rfl; exact nd.1.1 ha
      · exact hr.1
      · rintro rfl; exact nd.1.2 ha

/-- Setting the parent of a whole tree. -/
theorem adopt_spec {nil : Nat} {h : Heap P} {b : T (Nat × P)} {q x : Nat} (r : Rep nil h q b) (nd : (addrs b).Nodup)
    (hn : nil ∉ addrs b) :
    ∃ h', adopt h nil (addr nil b) x = some h' ∧ Rep nil h' x b ∧ h'.alive = h.alive ∧ h'.red = h.red ∧ h'.pay = h.pay ∧
      h'.left = h.left ∧ h'.right = h.right ∧ (∀ z, z ∉ addrs b → h'.parent z = h.parent z) := by
  cases b with
  | nil => exact ⟨h, by simp [adopt, addr], trivial, rfl, rfl, rfl, rfl, rfl, fun _ _ => rfl⟩
  | node c l p rt =>
    obtain ⟨n, rl, rr⟩ := r
    simp only [addrs, List.mem_cons, not_or, List.mem_append, List.nodup_cons] at hn nd
    have ag : ∀ z, z ≠ p.1 → Agree h { h with parent := upd h.parent p.1 x } z :=
      fun z hz => ⟨rfl, rfl, rfl, rfl, rfl, upd_ne _ _ hz⟩
    refine ⟨{ h with parent := upd h.parent p.1 x }, ?_, ⟨⟨n.alive, n.red, n.pay, n.left, n.right, upd_same _ _ _⟩,
      Rep.agree _ (fun a ha => ag a ?_) rl, Rep.agree _ (fun a ha => ag a ?_) rr⟩, rfl, rfl, rfl, rfl, rfl, ?_⟩
    · simp [adopt, addr, setP, n.alive]
      intro e; exact absurd e.symm hn.1
    · rintro rfl; exact nd.1.1 ha
    · rintro rfl; exact nd.1.2 ha
    · intro z hz
      simp only [addrs, List.mem_cons, not_or] at hz
      exact upd_ne _ _ hz.1

theorem pa_mem (root : Nat) (ctx : List (Frame (Nat × P))) : pa root ctx = root ∨ pa root ctx ∈ addrsC ctx := by
  cases ctx <;> simp [pa, addrsC]

theorem ne_sib_of {nil x : Nat} {ctx : List (Frame (Nat × P))} (h1 : x ≠ nil) (h2 : x ∉ addrsC ctx) :
    ∀ f ∈ ctx.head?, x ≠ addr nil f.sib := by
  intro f hf e
  cases ctx with
  | nil => simp at hf
  | cons g gs =>
    simp only [List.head?_cons, Option.mem_def, Option.some.injEq] at hf
    subst hf
    by_cases hs : g.sib = .nil
    · rw [hs] at e; exact h1 e
    · have := addr_mem (nil := nil) hs
      rw [← e] at this
      exact h2 (by simp [addrsC, this])

/-- `RotateLeft_` on the heap does what it does on the zipper. -/
theorem Z.rotL {root nil np : Nat} {h0 : Heap P} {S : List Nat} {h : Heap P} {c c2 : Bool} {a b d : T (Nat × P)} {p q : Nat × P}
    {ctx : List (Frame (Nat × P))} (z : Z root nil np h0 S h (.node c a p (.node c2 b q d)) ctx) :
    ∃ h', rotateLeft nil h p.1 = some h' ∧ Z root nil np h0 S h' (.node c2 (.node c a p b) q d) ctx := by
  have nd := z.nd
  obtain ⟨⟨n, ra, m, rb, rd⟩, rc, na, nr, npay, npar, e, g, i, j⟩ := z
  simp only [addrs, List.cons_append, List.append_assoc, List.nodup_cons, List.mem_cons, List.mem_append, not_or,
    List.nodup_append] at nd
  obtain ⟨⟨rn, rp, rna, rq, rnb, rnd, rnc⟩, ⟨np', nna, nq, nnb, nnd, nnc⟩, ⟨pa', pq, pb, pd, pc⟩, ⟨nda, ⟨⟨qb, qd, qc⟩, ndb,
    ⟨ndd, ndc, ddc⟩, dbd⟩, dd⟩⟩ := nd
  simp only [addr] at rc
  have nr' := n.right
  simp only [addr] at nr'
  have pam := pa_mem root ctx
  -- x->right = y->left
  let h1 : Heap P := { h with right := upd h.right p.1 (addr nil b) }
  have ag1 : ∀ x, x ≠ p.1 → Agree h h1 x := fun x hx => ⟨rfl, rfl, rfl, rfl, upd_ne _ _ hx, rfl⟩
  have rb1 : Rep nil h1 q.1 b := Rep.agree _ (fun x hx => ag1 x (by rintro rfl; exact pb hx)) rb
  obtain ⟨h2, e2, rb2, a2, red2, pay2, l2, r2, par2⟩ := adopt_spec (x := p.1) rb1 ndb nnb
  -- y->parent = x->parent
  let h3 : Heap P := { h2 with parent := upd h2.parent q.1 (pa root ctx) }
  have hpp : h2.parent p.1 = pa root ctx := by rw [par2 _ pb]; exact n.parent
  have ag3 : ∀ x, x ≠ p.1 → x ≠ q.1 → x ∉ addrs b → Agree h h3 x := by
    intro x h1x h2x h3x
    refine ⟨by simp [h3, a2, h1], by simp [h3, red2, h1], by simp [h3, pay2, h1], by simp [h3, l2, h1], ?_, ?_⟩
    · simp only [h3, r2]; exact upd_ne _ _ h1x
    · simp only [h3]; rw [upd_ne _ _ h2x, par2 _ h3x]
  have rc3 : RepC root nil h3 p.1 ctx := RepC.agree _ (ag3 _ rp rq rnb)
    (fun x hx => ag3 x (by rintro rfl; exact pc hx) (by rintro rfl; exact qc hx) (fun hb => dbd _ hb _ (Or.inr hx) rfl)) rc
  -- the parent's link
  obtain ⟨h4, e4, rc4, a4, red4, pay4, par4, ag4⟩ := relink_spec (y := q.1) rc3
    (by simp only [h3]; rw [upd_ne _ _ pq, hpp]) (by simp only [h3]; rw [a2]; exact n.alive)
    (ne_sib_of (Ne.symm np') pc) rnc ndc
  -- y->left = x; x->parent = y
  let h5 : Heap P := { h4 with left := upd h4.left q.1 p.1 }
  let h6 : Heap P := { h5 with parent := upd h5.parent p.1 q.1 }
  have ag6 : ∀ x, x ≠ p.1 → x ≠ q.1 → Agree h4 h6 x := fun x hp hq => ⟨rfl, rfl, rfl, upd_ne _ _ hq, rfl, upd_ne _ _ hp⟩
  have ag : ∀ x, x ≠ p.1 → x ≠ q.1 → x ∉ addrs b → x ≠ pa root ctx → Agree h h6 x := fun x h1x h2x h3x h4x =>
    ((ag3 x h1x h2x h3x).trans (ag4 x h4x)).trans (ag6 x h1x h2x)
  have ppa : p.1 ≠ pa root ctx := by
    intro e; rcases pam with h | h
    · exact rp (h ▸ e.symm)
    · exact pc (e ▸ h)
  have qpa : q.1 ≠ pa root ctx := by
    intro e; rcases pam with h | h
    · exact rq (h ▸ e.symm)
    · exact qc (e ▸ h)
  refine ⟨h6, ?_, ⟨⟨⟨?_, ?_, ?_, ?_, ?_, ?_⟩, ⟨⟨?_, ?_, ?_, ?_, ?_, ?_⟩, ?_, ?_⟩, ?_⟩, ?_, ?_, ?_, ?_, ?_, ?_, g, ?_, ?_⟩⟩
  · have al : h.alive p.1 = true := n.alive
    have aq : h.alive q.1 = true := m.alive
    have ml := m.left
    have s1 : getR h p.1 = some q.1 := by simp [getR, al, nr']
    have s2 : getL h q.1 = some (addr nil b) := by simp [getL, aq, ml]
    have s3 : setR h p.1 (addr nil b) = some h1 := by simp [setR, al, h1]
    have s4 : getL h1 q.1 = some (addr nil b) := by simp [getL, aq, ml, h1]
    have s5 : getP h2 p.1 = some (pa root ctx) := by simp [getP, a2, h1, al, hpp]
    have s6 : setP h2 q.1 (pa root ctx) = some h3 := by simp [setP, a2, h1, aq, h3]
    have s7 : setL h4 q.1 p.1 = some h5 := by simp [setL, a4, h3, a2, h1, aq, h5]
    have s8 : setP h5 p.1 q.1 = some h6 := by simp [setP, h5, a4, h3, a2, h1, al, h6]
    simp [rotateLeft, s1, s2, s3, s4, e2, s5, s6, e4, s7, s8]
  · simp only [h6, h5, a4, h3, a2]; exact m.alive
  · simp only [h6, h5, red4, h3, red2]; exact m.red
  · simp only [h6, h5, pay4, h3, pay2]; exact m.pay
  · simp only [h6, h5]; exact upd_same _ _ _
  · simp only [h6, h5]; rw [(ag4 _ qpa).right]; simp only [h3, r2, h1]; rw [upd_ne _ _ (Ne.symm pq)]; exact m.right
  · simp only [h6, h5]; rw [upd_ne _ _ (Ne.symm pq), par4]; simp only [h3]; exact upd_same _ _ _
  · simp only [h6, h5, a4, h3, a2]; exact n.alive
  · simp only [h6, h5, red4, h3, red2]; exact n.red
  · simp only [h6, h5, pay4, h3, pay2]; exact n.pay
  · simp only [h6, h5]; rw [upd_ne _ _ pq, (ag4 _ ppa).left]; simp only [h3, l2]; exact n.left
  · simp only [h6, h5]; rw [(ag4 _ ppa).right]; simp only [h3, r2, h1]; exact upd_same _ _ _
  · simp only [h6, h5]; exact upd_same _ _ _
  · refine Rep.agree _ (fun x hx => ag x ?_ ?_ ?_ ?_) ra
    · rintro rfl; exact pa' hx
    · rintro rfl; exact dd _ hx _ (Or.inl rfl) rfl
    · exact fun hb => dd _ hx _ (Or.inr (Or.inl hb)) rfl
    · rintro rfl; rcases pam with h | h
      · exact rna (h ▸ hx)
      · exact dd _ hx _ (Or.inr (Or.inr (Or.inr h))) rfl
  · refine Rep.agree _ (fun x hx => ?_) rb2
    refine Agree.trans (h2 := h3) ⟨rfl, rfl, rfl, rfl, rfl, upd_ne _ _ ?_⟩ ((ag4 x ?_).trans (ag6 x ?_ ?_))
    · rintro rfl; exact qb hx
    · rintro rfl; rcases pam with h | h
      · exact rnb (h ▸ hx)
      · exact dbd _ hx _ (Or.inr h) rfl
    · rintro rfl; exact pb hx
    · rintro rfl; exact qb hx
  · refine Rep.agree _ (fun x hx => ag x ?_ ?_ ?_ ?_) rd
    · rintro rfl; exact pd hx
    · rintro rfl; exact qd hx
    · exact fun hb => dbd _ hb _ (Or.inl hx) rfl
    · rintro rfl; rcases pam with h | h
      · exact rnd (h ▸ hx)
      · exact ddc _ hx _ h rfl
  · exact RepC.agree _ (ag6 _ rp rq) (fun x hx => ag6 x (by rintro rfl; exact pc hx) (by rintro rfl; exact qc hx)) rc4
  · simp only [h6, h5, a4, h3, a2]; exact na
  · simp only [h6, h5, red4, h3, red2]; exact nr
  · simp only [h6, h5, pay4, h3, pay2]; exact npay
  · simp only [h6, h5]; rw [upd_ne _ _ np', par4]; simp only [h3]; rw [upd_ne _ _ nq, par2 _ nnb]; exact npar
  · refine .trans ?_ e
    refine .cons _ (.cons _ (.append_right _ ?_))
    simp only [addrs, List.cons_append, List.append_assoc]
    refine .trans (.swap _ _ _) (.cons _ ?_)
    exact List.perm_middle.symm
  · simp only [h6, h5, a4, h3, a2, pay4, pay2]; exact i
  · intro x hx
    have hxs : x ∉ root :: nil :: (addrs (.node c a p (.node c2 b q d)) ++ addrsC ctx) := fun hm => hx (e.subset hm)
    simp only [addrs, List.cons_append, List.append_assoc, List.mem_cons, List.mem_append, not_or] at hxs
    obtain ⟨x1, x2, x3, x4, x5, x6, x7, x8⟩ := hxs
    refine (j x hx).trans (ag x x3 x5 x6 ?_)
    rintro rfl; rcases pam with h | h
    · exact x1 h
    · exact x8 h

/-- `RotateRight_` on the heap does what it does on the zipper. -/
theorem Z.rotR {root nil np : Nat} {h0 : Heap P} {S : List Nat} {h : Heap P} {c c2 : Bool} {a b d : T (Nat × P)} {p q : Nat × P}
    {ctx : List (Frame (Nat × P))} (z : Z root nil np h0 S h (.node c (.node c2 d q b) p a) ctx) :
    ∃ h', rotateRight nil h p.1 = some h' ∧ Z root nil np h0 S h' (.node c2 d q (.node c b p a)) ctx := by
  have nd := z.nd
  obtain ⟨⟨n, ⟨m, rd, rb⟩, ra⟩, rc, na, nr, npay, npar, e, g, i, j⟩ := z
  simp only [addrs, List.cons_append, List.append_assoc, List.nodup_cons, List.mem_cons, List.mem_append, not_or,
    List.nodup_append] at nd
  obtain ⟨⟨rn, rp, rq, rnd, rnb, rna, rnc⟩, ⟨np', nq, nnd, nnb, nna, nnc⟩, ⟨pq, pd, pb, pa', pc⟩, ⟨qd, qb, qa, qc⟩, ⟨ndd, ⟨ndb,
    ⟨nda, ndc, dac⟩, dba⟩, dd⟩⟩ := nd
  simp only [addr] at rc
  have nr' := n.left
  simp only [addr] at nr'
  have pam := pa_mem root ctx
  -- y->left = x->right
  let h1 : Heap P := { h with left := upd h.left p.1 (addr nil b) }
  have ag1 : ∀ x, x ≠ p.1 → Agree h h1 x := fun x hx => ⟨rfl, rfl, rfl, upd_ne _ _ hx, rfl, rfl⟩
  have rb1 : Rep nil h1 q.1 b := Rep.agree _ (fun x hx => ag1 x (by rintro rfl; exact pb hx)) rb
  obtain ⟨h2, e2, rb2, a2, red2, pay2, l2, r2, par2⟩ := adopt_spec (x := p.1) rb1 ndb nnb
  -- y->parent = x->parent
  let h3 : Heap P := { h2 with parent := upd h2.parent q.1 (pa root ctx) }
  have hpp : h2.parent p.1 = pa root ctx := by rw [par2 _ pb]; exact n.parent
  have ag3 : ∀ x, x ≠ p.1 → x ≠ q.1 → x ∉ addrs b → Agree h h3 x := by
    intro x h1x h2x h3x
    refine ⟨by simp [h3, a2, h1], by simp [h3, red2, h1], by simp [h3, pay2, h1], ?_, by simp [h3, r2, h1], ?_⟩
    · simp only [h3, l2]; exact upd_ne _ _ h1x
    · simp only [h3]; rw [upd_ne _ _ h2x, par2 _ h3x]
  have rc3 : RepC root nil h3 p.1 ctx := RepC.agree _ (ag3 _ rp rq rnb)
    (fun x hx => ag3 x (by rintro rfl; exact pc hx) (by rintro rfl; exact qc hx) (fun hb => dba _ hb _ (Or.inr hx) rfl)) rc
  -- the parent's link
  obtain ⟨h4, e4, rc4, a4, red4, pay4, par4, ag4⟩ := relink_spec (y := q.1) rc3
    (by simp only [h3]; rw [upd_ne _ _ pq, hpp]) (by simp only [h3]; rw [a2]; exact n.alive)
    (ne_sib_of (Ne.symm np') pc) rnc ndc
  -- y->right = x; x->parent = y
  let h5 : Heap P := { h4 with right := upd h4.right q.1 p.1 }
  let h6 : Heap P := { h5 with parent := upd h5.parent p.1 q.1 }
  have ag6 : ∀ x, x ≠ p.1 → x ≠ q.1 → Agree h4 h6 x := fun x hp hq => ⟨rfl, rfl, rfl, rfl, upd_ne _ _ hq, upd_ne _ _ hp⟩
  have ag : ∀ x, x ≠ p.1 → x ≠ q.1 → x ∉ addrs b → x ≠ pa root ctx → Agree h h6 x := fun x h1x h2x h3x h4x =>
    ((ag3 x h1x h2x h3x).trans (ag4 x h4x)).trans (ag6 x h1x h2x)
  have ppa : p.1 ≠ pa root ctx := by
    intro e; rcases pam with h | h
    · exact rp (h ▸ e.symm)
    · exact pc (e ▸ h)
  have qpa : q.1 ≠ pa root ctx := by
    intro e; rcases pam with h | h
    · exact rq (h ▸ e.symm)
    · exact qc (e ▸ h)
  refine ⟨h6, ?_, ⟨⟨⟨?_, ?_, ?_, ?_, ?_, ?_⟩, ?_, ⟨⟨?_, ?_, ?_, ?_, ?_, ?_⟩, ?_, ?_⟩⟩, ?_, ?_, ?_, ?_, ?_, ?_, g, ?_, ?_⟩⟩
  · have al : h.alive p.1 = true := n.alive
    have aq : h.alive q.1 = true := m.alive
    have ml := m.right
    have s1 : getL h p.1 = some q.1 := by simp [getL, al, nr']
    have s2 : getR h q.1 = some (addr nil b) := by simp [getR, aq, ml]
    have s3 : setL h p.1 (addr nil b) = some h1 := by simp [setL, al, h1]
    have s4 : getR h1 q.1 = some (addr nil b) := by simp [getR, aq, ml, h1]
    have s5 : getP h2 p.1 = some (pa root ctx) := by simp [getP, a2, h1, al, hpp]
    have s6 : setP h2 q.1 (pa root ctx) = some h3 := by simp [setP, a2, h1, aq, h3]
    have s7 : setR h4 q.1 p.1 = some h5 := by simp [setR, a4, h3, a2, h1, aq, h5]
    have s8 : setP h5 p.1 q.1 = some h6 := by simp [setP, h5, a4, h3, a2, h1, al, h6]
    simp [rotateRight, s1, s2, s3, s4, e2, s5, s6, e4, s7, s8]
  · simp only [h6, h5, a4, h3, a2]; exact m.alive
  · simp only [h6, h5, red4, h3, red2]; exact m.red
  · simp only [h6, h5, pay4, h3, pay2]; exact m.pay
  · simp only [h6, h5]; rw [(ag4 _ qpa).left]; simp only [h3, l2, h1]; rw [upd_ne _ _ (Ne.symm pq)]; exact m.left
  · simp only [h6, h5]; exact upd_same _ _ _
  · simp only [h6, h5]; rw [upd_ne _ _ (Ne.symm pq), par4]; simp only [h3]; exact upd_same _ _ _
  · refine Rep.agree _ (fun x hx => ag x ?_ ?_ ?_ ?_) rd
    · rintro rfl; exact pd hx
    · rintro rfl; exact qd hx
    · exact fun hb => dd _ hx _ (Or.inl hb) rfl
    · rintro rfl; rcases pam with h | h
      · exact rnd (h ▸ hx)
      · exact dd _ hx _ (Or.inr (Or.inr h)) rfl
  · simp only [h6, h5, a4, h3, a2]; exact n.alive
  · simp only [h6, h5, red4, h3, red2]; exact n.red
  · simp only [h6, h5, pay4, h3, pay2]; exact n.pay
  · simp only [h6, h5]; rw [(ag4 _ ppa).left]; simp only [h3, l2, h1]; exact upd_same _ _ _
  · simp only [h6, h5]; rw [upd_ne _ _ pq, (ag4 _ ppa).right]; simp only [h3, r2]; exact n.right
  · simp only [h6, h5]; exact upd_same _ _ _
  · refine Rep.agree _ (fun x hx => ?_) rb2
    refine Agree.trans (h2 := h3) ⟨rfl, rfl, rfl, rfl, rfl, upd_ne _ _ ?_⟩ ((ag4 x ?_).trans (ag6 x ?_ ?_))
    · rintro rfl; exact qb hx
    · rintro rfl; rcases pam with h | h
      · exact rnb (h ▸ hx)
      · exact dba _ hx _ (Or.inr h) rfl
    · rintro rfl; exact pb hx
    · rintro rfl; exact qb hx
  · refine Rep.agree _ (fun x hx => ag x ?_ ?_ ?_ ?_) ra
    · rintro rfl; exact pa' hx
    · rintro rfl; exact qa hx
    · exact fun hb => dba _ hb _ (Or.inl hx) rfl
    · rintro rfl; rcases pam with h | h
      · exact rna (h ▸ hx)
      · exact dac _ hx _ h rfl
  · exact RepC.agree _ (ag6 _ rp rq) (fun x hx => ag6 x (by rintro rfl; exact pc hx) (by rintro rfl; exact qc hx)) rc4
  · simp only [h6, h5, a4, h3, a2]; exact na
  · simp only [h6, h5, red4, h3, red2]; exact nr
  · simp only [h6, h5, pay4, h3, pay2]; exact npay
  · simp only [h6, h5]; rw [upd_ne _ _ np', par4]; simp only [h3]; rw [upd_ne _ _ nq, par2 _ nnb]; exact npar
  · refine .trans ?_ e
    refine .cons _ (.cons _ (.append_right _ ?_))
    simp only [addrs, List.cons_append, List.append_assoc]
    refine .trans (.cons _ List.perm_middle) (.swap _ _ _)
  · simp only [h6, h5, a4, h3, a2, pay4, pay2]; exact i
  · intro x hx
    have hxs : x ∉ root :: nil :: (addrs (.node c (.node c2 d q b) p a) ++ addrsC ctx) := fun hm => hx (e.subset hm)
    simp only [addrs, List.cons_append, List.append_assoc, List.mem_cons, List.mem_append, not_or] at hxs
    obtain ⟨x1, x2, x3, x5, x4, x6, x7, x8⟩ := hxs
    refine (j x hx).trans (ag x x3 x5 x6 ?_)
    rintro rfl; rcases pam with h | h
    · exact x1 h
    · exact x8 h


end RBPtr
