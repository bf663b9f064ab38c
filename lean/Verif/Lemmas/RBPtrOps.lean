import Verif.Lemmas.RBPtrRemove
import Verif.Lemmas.RBMap
/-! # Lemmas: the public functions on the heap do what they do on the zipper -/
namespace RBPtr
open RB (T Frame up plug)

/-- Forgetting the addresses. -/
abbrev er {P : Type} (t : T (Nat × P)) : T P := t.map Prod.snd
/-- Forgetting the addresses of a context. -/
abbrev erC {P : Type} (c : List (Frame (Nat × P))) : List (Frame P) := c.map (RB.Frame.map Prod.snd)

section gen
variable {P : Type} {root nil np : Nat} {h0 : Heap P} {S : List Nat} {h : Heap P}

/-- Taking the present heap as the reference. -/
theorem Z.restart {t : T (Nat × P)} {ctx : List (Frame (Nat × P))} (z : Z root nil np h0 S h t ctx) :
    Z root nil (h.parent nil) h S h t ctx :=
  ⟨z.rep, z.repC, z.nilAlive, z.nilRed, z.nilPay, rfl, z.perm, z.nodup, ⟨rfl, rfl⟩, fun a _ => Agree.refl h a⟩

theorem Rep.mem_alive {q : Nat} (t : T (Nat × P)) : ∀ {q}, Rep nil h q t → ∀ a ∈ addrs t, h.alive a = true := by
  induction t with
  | nil => intro q _ a ha; simp [addrs] at ha
  | node c l p r ihl ihr =>
    intro q ⟨n, rl, rr⟩ a ha
    simp only [addrs, List.mem_cons, List.mem_append] at ha
    rcases ha with rfl | ha | ha
    · exact n.alive
    · exact ihl rl a ha
    · exact ihr rr a ha

theorem RepC.mem_alive (ctx : List (Frame (Nat × P))) : ∀ {c}, RepC root nil h c ctx →
    h.alive root = true ∧ ∀ a ∈ addrsC ctx, h.alive a = true := by
  induction ctx with
  | nil => intro c hc; exact ⟨hc.1, by simp [addrsC]⟩
  | cons f fs ih =>
    intro c ⟨n, rs, rc⟩
    refine ⟨(ih rc).1, fun a ha => ?_⟩
    simp only [addrsC, List.mem_cons, List.mem_append] at ha
    rcases ha with rfl | ha | ha
    · exact n.alive
    · exact Rep.mem_alive (q := 0) _ rs a ha
    · exact (ih rc).2 a ha

theorem Z.mem_alive {t : T (Nat × P)} {ctx : List (Frame (Nat × P))} (z : Z root nil np h0 S h t ctx) : ∀ a ∈ S, h.alive a = true := by
  intro a ha
  have := z.perm.mem_iff.mpr ha
  simp only [List.mem_cons, List.mem_append] at this
  have hc := RepC.mem_alive _ z.repC
  rcases this with rfl | rfl | h1 | h1
  · exact hc.1
  · exact z.nilAlive
  · exact Rep.mem_alive (q := 0) _ z.rep a h1
  · exact hc.2 a h1

/-- A new payload for the node in focus. -/
theorem Z.replace {c : Bool} {l r : T (Nat × P)} {p : Nat × P} {ctx : List (Frame (Nat × P))}
    (z : Z root nil np h0 S h (.node c l p r) ctx) (v : P) :
    ∃ h', setPay h p.1 (some v) = some h' ∧ Z root nil (h'.parent nil) h' S h' (.node c l (p.1, v) r) ctx ∧ h'.alive = h.alive ∧
      (∀ x, x ≠ p.1 → Agree h h' x) ∧ h'.pay = upd h.pay p.1 (some v) := by
  have nd := z.nd
  obtain ⟨⟨n, rl, rr⟩, rc, a, b, c, d, e, g, i, j⟩ := z
  simp only [addrs, List.cons_append, List.append_assoc, List.nodup_cons, List.mem_cons, List.mem_append, not_or] at nd
  obtain ⟨⟨_, rp, rnl, rnr, rnc⟩, ⟨np', nnl, nnr, nnc⟩, ⟨pl, pr, pc⟩, _⟩ := nd
  have ag : ∀ x, x ≠ p.1 → Agree h { h with pay := upd h.pay p.1 (some v) } x := fun x hx => ⟨rfl, rfl, upd_ne _ _ hx, rfl, rfl, rfl⟩
  refine ⟨{ h with pay := upd h.pay p.1 (some v) }, by simp [setPay, n.alive],
    ⟨⟨⟨n.alive, n.red, upd_same _ _ _, n.left, n.right, n.parent⟩, Rep.agree _ (fun x hx => ag x ?_) rl,
    Rep.agree _ (fun x hx => ag x ?_) rr⟩, RepC.agree _ (ag _ rp) (fun x hx => ag x ?_) rc, a, b, ?_, rfl, e, g, ⟨rfl, rfl⟩,
    fun x _ => Agree.refl _ x⟩, rfl, ag, rfl⟩
  · rintro rfl; exact pl hx
  · rintro rfl; exact pr hx
  · rintro rfl; exact pc hx
  · show upd h.pay p.1 (some v) nil = none
    rw [upd_ne _ _ np', c]

theorem length_ctx (ctx : List (Frame (Nat × P))) : ctx.length ≤ (addrsC ctx).length := by
  induction ctx with
  | nil => simp
  | cons f fs ih => simp only [addrsC, List.length_cons, List.length_append]; omega

/-- The pointer in an empty place is set to a new node. -/
theorem hole_set {ctx : List (Frame (Nat × P))} {c v : Nat} (rc : RepC root nil h c ctx) (hr : root ∉ addrsC ctx)
    (nd : (addrsC ctx).Nodup) :
    ∃ h', (match ctx with
        | [] => setL h root v
        | f :: _ => if f.left then setL h f.pay.1 v else setR h f.pay.1 v) = some h' ∧ RepC root nil h' v ctx ∧ h'.alive = h.alive ∧
      h'.red = h.red ∧ h'.pay = h.pay ∧ h'.parent = h.parent ∧ (∀ x, x ≠ pa root ctx → Agree h h' x) := by
  cases ctx with
  | nil =>
    obtain ⟨a, b, d, e, f⟩ := rc
    exact ⟨{ h with left := upd h.left root v }, by simp [setL, a], ⟨a, b, d, upd_same _ _ _, f⟩, rfl, rfl, rfl, rfl,
      fun x hx => ⟨rfl, rfl, rfl, upd_ne _ _ hx, rfl, rfl⟩⟩
  | cons f fs =>
    obtain ⟨n, rs, rc⟩ := rc
    simp only [addrsC, List.nodup_cons, List.mem_append, not_or, List.mem_cons] at hr nd
    obtain ⟨lf, red, p, sib⟩ := f
    have na := n.alive
    simp only at na
    cases lf
    · have ag : ∀ z, z ≠ p.1 → Agree h { h with right := upd h.right p.1 v } z :=
        fun z hz => ⟨rfl, rfl, rfl, rfl, upd_ne _ _ hz, rfl⟩
      refine ⟨{ h with right := upd h.right p.1 v }, by simp [setR, na], ⟨⟨n.alive, n.red, n.pay, n.left, ?_, n.parent⟩,
        Rep.agree _ (fun a ha => ag a ?_) rs, RepC.agree _ (ag _ ?_) (fun a ha => ag a ?_) rc⟩, rfl, rfl, rfl, rfl, ag⟩
      · simp [upd_same]
      · rintro rfl; exact nd.1.1 ha
      · exact hr.1
      · rintro rfl; exact nd.1.2 ha
    · have ag : ∀ z, z ≠ p.1 → Agree h { h with left := upd h.left p.1 v } z :=
        fun z hz => ⟨rfl, rfl, rfl, upd_ne _ _ hz, rfl, rfl⟩
      refine ⟨{ h with left := upd h.left p.1 v }, by simp [setL, na], ⟨⟨n.alive, n.red, n.pay, ?_, n.right, n.parent⟩,
        Rep.agree _ (fun a ha => ag a ?_) rs, RepC.agree _ (ag _ ?_) (fun a ha => ag a ?_) rc⟩, rfl, rfl, rfl, rfl, ag⟩
      · simp [upd_same]
      · rintro rfl; exact nd.1.1 ha
      · exact hr.1
      · rintro rfl; exact nd.1.2 ha

/-- `NodeNew_` fills a fresh block. -/
theorem nodeNew_spec (a q : Nat) (c : Bool) (p : P) : ∃ h', nodeNew h a nil q c p = some h' ∧ NodeAt h' a c p nil nil q ∧
    h'.alive = upd h.alive a true ∧ h'.pay = upd h.pay a (some p) ∧ ∀ x, x ≠ a → Agree h h' x := by
  refine ⟨⟨upd h.alive a true, upd h.red a c, upd h.left a nil, upd h.right a nil, upd h.parent a q, upd h.pay a (some p)⟩,
    ?_, ?_, rfl, rfl, ?_⟩
  · simp [nodeNew, allocAt, setP, setRed, setPay, setL, setR, upd_same]
  · constructor <;> simp [upd_same]
  · intro x hx; constructor <;> simp [upd_ne _ _ hx]

/-- A fresh red node in an empty place. -/
theorem Z.insert {ctx : List (Frame (Nat × P))} (z : Z root nil np h0 S h .nil ctx) (a : Nat) (p : P) (ha : h.alive a = false) :
    ∃ h1, nodeNew h a nil (pa root ctx) true p = some h1 ∧
      (∀ x ∈ S, Agree h h1 x) ∧
      ∃ h2, (match ctx with
        | [] => setL h1 root a
        | f :: _ => if f.left then setL h1 f.pay.1 a else setR h1 f.pay.1 a) = some h2 ∧
      Z root nil (h2.parent nil) h2 (a :: S) h2 (.node true .nil (a, p) .nil) ctx ∧ h2.alive = upd h.alive a true ∧
      h2.pay = upd h.pay a (some p) ∧
      (∀ x, x ∉ a :: S → Agree h h2 x) := by
  have nd := z.nd
  have hS : a ∉ S := fun hm => by rw [z.mem_alive a hm] at ha; simp at ha
  have hne : ∀ x ∈ S, x ≠ a := fun x hx e => hS (e ▸ hx)
  obtain ⟨h1, s1, n1, al1, pay1, ag1⟩ := nodeNew_spec (h := h) (nil := nil) a (pa root ctx) true p
  have hin : ∀ x, x ∈ root :: nil :: (addrs (.nil : T (Nat × P)) ++ addrsC ctx) → x ∈ S := fun x hx => z.perm.subset hx
  have hroot : root ∈ S := hin _ (by simp)
  have hnil : nil ∈ S := hin _ (by simp)
  simp only [addrs, List.nil_append, List.nodup_cons, List.mem_cons, not_or] at nd
  have rc1 : RepC root nil h1 nil ctx := RepC.agree _ (ag1 _ (hne _ hroot)) (fun x hx => ag1 x (hne x (hin x (by simp [hx])))) z.repC
  obtain ⟨h2, s2, rc2, al2, red2, pay2, par2, ag2⟩ := hole_set (v := a) rc1 nd.1.2 nd.2.2
  have pam : pa root ctx ∈ S := by
    rcases pa_mem root ctx with h | h
    · rw [h]; exact hroot
    · exact hin _ (by simp [h])
  have ag12 : ∀ x, x ∉ a :: S → Agree h h2 x := by
    intro x hx
    simp only [List.mem_cons, not_or] at hx
    exact (ag1 x hx.1).trans (ag2 x (fun e => hx.2 (e ▸ pam)))
  refine ⟨h1, s1, fun x hx => ag1 x (hne x hx), h2, s2, ⟨⟨n1.agree (ag2 a (fun e => hS (e ▸ pam))), trivial, trivial⟩, rc2, ?_, ?_, ?_, rfl, ?_,
    List.nodup_cons.mpr ⟨hS, z.nodup⟩, ⟨rfl, rfl⟩, fun x _ => Agree.refl _ x⟩, by rw [al2, al1], by rw [pay2, pay1], ag12⟩
  · rw [al2, (ag1 _ (hne _ hnil)).alive]; exact z.nilAlive
  · rw [red2, (ag1 _ (hne _ hnil)).red]; exact z.nilRed
  · rw [pay2, (ag1 _ (hne _ hnil)).pay]; exact z.nilPay
  · have := z.perm
    simp only [addrs, List.nil_append, List.append_nil, List.cons_append] at this ⊢
    refine .trans ?_ (.cons a this)
    exact .trans (.cons _ (.swap _ _ _)) (.swap _ _ _)

end gen

/-- The state of the program holds the tree. -/
structure Holds {K V : Type} (s : St K V) (t : T (Nat × (K × V))) : Prop where
  z : Z s.root s.nil (s.h.parent s.nil) s.h (s.root :: s.nil :: addrs t) s.h t []
  size : s.size = (addrs t).length

theorem Z.toHolds {K V : Type} {s : St K V} {np : Nat} {h0 : Heap (K × V)} {S : List Nat} {t : T (Nat × (K × V))}
    (z : Z s.root s.nil np h0 S s.h t []) (hs : s.size = (addrs t).length) : Holds s t :=
  ⟨⟨z.rep, z.repC, z.nilAlive, z.nilRed, z.nilPay, rfl, by simp [addrsC], by simpa [addrsC] using z.nd, ⟨rfl, rfl⟩,
    fun a _ => Agree.refl _ a⟩, hs⟩

section ops
variable {K V : Type} {root nil np : Nat} {h0 : Heap (K × V)} {S : List Nat} {h : Heap (K × V)}

theorem Z.ne_nil {c : Bool} {l r : T (Nat × (K × V))} {p : Nat × (K × V)} {ctx : List (Frame (Nat × (K × V)))}
    (z : Z root nil np h0 S h (.node c l p r) ctx) : p.1 ≠ nil ∧ p.1 ≠ root := by
  have nd := z.nd
  simp only [addrs, List.cons_append, List.nodup_cons, List.mem_cons, not_or] at nd
  exact ⟨fun e => nd.2.1.1 e.symm, fun e => nd.1.2.1 e.symm⟩

/-- The hole is on the side the comparison says. -/
def SideOk (cmp : K → K → Int) (key : K) (ctx : List (Frame (Nat × (K × V)))) : Prop :=
  ∀ f ∈ ctx.head?, f.left = decide (cmp key f.pay.2.1 < 0)

theorem putDescend_sim (cmp : K → K → Int) (key : K) (value : V) (t : T (Nat × (K × V))) :
    ∀ (ctx : List (Frame (Nat × (K × V)))) (n : Nat), Z root nil np h0 S h t ctx → (addrs t).length < n → SideOk cmp key ctx →
    (∃ c l p r ctx', plug (.node c l p r) ctx' = plug t ctx ∧
      RB.putDescend cmp key value (er t) (erC ctx) = .inl (er (plug (.node c l (p.1, key, value) r) ctx'), p.2) ∧
      putDescend cmp nil h key n (pa root ctx) (addr nil t) = some (p.1, true)) ∨
    (∃ ctx', plug .nil ctx' = plug t ctx ∧ RB.putDescend cmp key value (er t) (erC ctx) = .inr (erC ctx') ∧ SideOk cmp key ctx' ∧
      putDescend cmp nil h key n (pa root ctx) (addr nil t) = some (pa root ctx', false)) := by
  induction t with
  | nil =>
    intro ctx n z hn hs
    obtain ⟨m, rfl⟩ : ∃ m, n = m + 1 := ⟨n - 1, by omega⟩
    exact Or.inr ⟨ctx, rfl, rfl, hs, by simp [putDescend, addr]⟩
  | node c l p r ihl ihr =>
    intro ctx n z hn hs
    obtain ⟨m, rfl⟩ : ∃ m, n = m + 1 := ⟨n - 1, by simp only [addrs, List.length_cons] at hn; omega⟩
    simp only [addrs, List.length_cons, List.length_append] at hn
    have e1 := z.readPay
    have e2 := z.readL
    have e3 := z.readR
    have hne := z.ne_nil.1
    by_cases h1 : cmp key p.2.1 = 0
    · left
      refine ⟨c, l, p, r, ctx, rfl, ?_, ?_⟩
      · have := RB.plug_map Prod.snd ctx (.node c l (p.1, key, value) r)
        simp only [RB.T.map] at this
        simp [RB.putDescend, RB.T.map, h1, ← this]
      · simp [putDescend, addr, hne, e1, h1]
    · by_cases h2 : cmp key p.2.1 < 0
      · have zl : Z root nil np h0 S h l (⟨true, c, p, r⟩ :: ctx) := Z.goDown (f := ⟨true, c, p, r⟩) z
        have sl : SideOk cmp key (⟨true, c, p, r⟩ :: ctx) := by intro f hf; simp at hf; subst hf; simp [h2]
        have ex : putDescend cmp nil h key (m + 1) (pa root ctx) (addr nil (.node c l p r)) =
            putDescend cmp nil h key m (pa root (⟨true, c, p, r⟩ :: ctx)) (addr nil l) := by
          simp [putDescend, addr, hne, e1, h1, h2, e2, pa]
        have ez : RB.putDescend cmp key value (er (.node c l p r)) (erC ctx) =
            RB.putDescend cmp key value (er l) (erC (⟨true, c, p, r⟩ :: ctx)) := by
          simp [RB.putDescend, RB.T.map, h1, h2, RB.Frame.map]
        rw [ex, ez]
        exact ihl _ m zl (by omega) sl
      · have zr : Z root nil np h0 S h r (⟨false, c, p, l⟩ :: ctx) := Z.goDown (f := ⟨false, c, p, l⟩) z
        have sr : SideOk cmp key (⟨false, c, p, l⟩ :: ctx) := by intro f hf; simp at hf; subst hf; simp [h2]
        have ex : putDescend cmp nil h key (m + 1) (pa root ctx) (addr nil (.node c l p r)) =
            putDescend cmp nil h key m (pa root (⟨false, c, p, l⟩ :: ctx)) (addr nil r) := by
          simp [putDescend, addr, hne, e1, h1, h2, e3, pa]
        have ez : RB.putDescend cmp key value (er (.node c l p r)) (erC ctx) =
            RB.putDescend cmp key value (er r) (erC (⟨false, c, p, l⟩ :: ctx)) := by
          simp [RB.putDescend, RB.T.map, h1, h2, RB.Frame.map]
        rw [ex, ez]
        exact ihr _ m zr (by omega) sr

theorem Holds.top {s : St K V} {t : T (Nat × (K × V))} (H : Holds s t) : getL s.h s.root = some (addr s.nil t) := by
  obtain ⟨_, ⟨a, _, _, d, _⟩, _⟩ := H.z
  simp [getL, a, d]

theorem putSide_ok {cmp : K → K → Int} {key : K} {ctx : List (Frame (Nat × (K × V)))} (hs : SideOk cmp key ctx) :
    RB.putSide cmp key (erC ctx) = erC ctx := by
  cases ctx with
  | nil => rfl
  | cons f fs =>
    have := hs f (by simp)
    simp [RB.putSide, RB.Frame.map, this]

/-- `RBTreePut`. -/
theorem put_sim {malloc : (Nat → Bool) → Nat} {cmp : K → K → Int} {s : St K V} {t : T (Nat × (K × V))} {key : K} {value : V}
    {t' : RB.Tree K V} {b : Bool} {d : List (K × V)}
    (hm : s.h.alive (malloc s.h.alive) = false) (H : Holds s t) (e : RB.put cmp ⟨er t, s.size⟩ key value = some (t', b, d)) :
    ∃ s' t2, put malloc cmp s key value = some (s', b, d.map some) ∧ Holds s' t2 ∧ t' = ⟨er t2, s'.size⟩ ∧ s'.root = s.root ∧
      s'.nil = s.nil ∧
      (b = true → s'.h.alive = s.h.alive ∧ (addrs t2).Perm (addrs t) ∧ ∃ x o, d = [o] ∧ s.h.pay x = some o ∧
        s'.h.pay x = some (key, value) ∧ ∀ y, y ≠ x → s'.h.pay y = s.h.pay y) ∧
      (b = false → s'.h.alive = upd s.h.alive (malloc s.h.alive) true ∧ (addrs t2).Perm (malloc s.h.alive :: addrs t) ∧
        s'.h.pay = upd s.h.pay (malloc s.h.alive) (some (key, value))) ∧
      (∀ x, x ∉ s.root :: s.nil :: addrs t → (b = false → x ≠ malloc s.h.alive) → Agree s.h s'.h x) := by
  have z := H.z
  rcases putDescend_sim cmp key value t [] (s.size + 1) z (by rw [H.size]; omega) (by intro f hf; simp at hf) with
    ⟨c, l, p, r, ctx', hp, e1, e2⟩ | ⟨ctx', hp, e1, hs, e2⟩
  · -- the key is there
    simp only [erC, List.map_nil] at e1
    simp only [RB.put, e1, Option.some.injEq, Prod.mk.injEq] at e
    obtain ⟨rfl, rfl, rfl⟩ := e
    have zz := Z.fromTop ctx' (t := .node c l p r) (by rw [hp]; exact z)
    obtain ⟨h', s1, z1, al, ag, _⟩ := zz.replace (key, value)
    have zt := z1.goTop
    have pm : (addrs (plug (.node c l (p.1, key, value) r) ctx')).Perm (addrs t) := by
      have := zt.perm
      simp only [addrsC, List.append_nil] at this
      exact this.cons_inv.cons_inv
    refine ⟨{ s with h := h' }, _, ?_, Z.toHolds (s := { s with h := h' }) zt ?_, ?_, rfl, rfl,
      fun _ => ⟨al, pm, p.1, p.2, rfl, zz.rep.1.pay, z1.rep.1.pay, fun y hy => (ag y hy).pay⟩,
      fun hh => absurd hh (by simp), ?_⟩
    · have hpay := zz.readPay
      simp only [pa] at e2
      simp [put, H.top, e2, putReplace, hpay, s1]
    · simp only [pm.length_eq]; exact H.size
    · rfl
    · intro x hx _
      refine ag x ?_
      rintro rfl
      exact hx (zz.perm.subset (by simp [addrs]))
  · -- a new node
    simp only [erC, List.map_nil] at e1
    have zz := Z.fromTop ctx' (t := .nil) (by rw [hp]; exact z)
    obtain ⟨h1, s1, ag1, h2, s2, z2, al2, pay2, ag2⟩ := zz.insert (malloc s.h.alive) (key, value) hm
    have len : ctx'.length ≤ s.size := by
      have l1 := zz.perm.length_eq
      have l2 := length_ctx ctx'
      simp only [addrs, List.nil_append, List.length_cons] at l1
      rw [H.size]; omega
    have link : putLink cmp s.root h1 key (pa s.root ctx') (malloc s.h.alive) = some h2 := by
      cases ctx' with
      | nil => simpa [putLink, pa] using s2
      | cons f fs =>
        have hf := hs f (by simp)
        have n := zz.repC.1
        have hin : f.pay.1 ∈ s.root :: s.nil :: addrs t := zz.perm.subset (by simp [addrsC])
        have hpay : getPay h1 f.pay.1 = some (some f.pay.2) := by
          simp [getPay, (ag1 _ hin).alive, n.alive, (ag1 _ hin).pay, n.pay]
        have hroot : f.pay.1 ≠ s.root := by
          have nd := zz.nd
          simp only [addrs, addrsC, List.nil_append, List.nodup_cons, List.mem_cons, not_or] at nd
          exact fun e => nd.1.2.1 e.symm
        simp only [hf, decide_eq_true_eq] at s2
        simpa [putLink, pa, hroot, hpay] using s2
    simp only [RB.put, e1] at e
    rw [putSide_ok hs] at e
    have nat := RB.putFix_map Prod.snd (ctx'.length + 1) (.node true .nil (malloc s.h.alive, (key, value)) .nil) ctx'
    simp only [RB.T.map] at nat
    rw [show (erC ctx').length = ctx'.length by simp] at e
    simp only [erC, nat] at e
    cases hfx : RB.putFix (ctx'.length + 1) (.node true .nil (malloc s.h.alive, (key, value)) .nil) ctx' with
    | none => rw [hfx] at e; simp at e
    | some t2 =>
      rw [hfx] at e
      simp only [Option.map_some, Option.bind_eq_bind, Option.bind_some, Option.some.injEq, Prod.mk.injEq] at e
      obtain ⟨rfl, rfl, rfl⟩ := e
      obtain ⟨h3, s3, z3⟩ := putFix_sim _ z2 (by simp) hfx (s.size + 1) (by omega)
      have pm : (addrs t2).Perm (malloc s.h.alive :: addrs t) := by
        have := z3.perm
        simp only [addrsC, List.append_nil] at this
        have sw : (malloc s.h.alive :: s.root :: s.nil :: addrs t).Perm (s.root :: s.nil :: malloc s.h.alive :: addrs t) :=
          .trans (.swap _ _ _) (.cons _ (.swap _ _ _))
        exact (this.trans sw).cons_inv.cons_inv
      refine ⟨{ s with h := h3, size := s.size + 1 }, t2, ?_, Z.toHolds (s := { s with h := h3, size := s.size + 1 }) z3 ?_, ?_,
        rfl, rfl, fun hh => absurd hh (by simp), fun _ => ⟨?_, pm, ?_⟩, ?_⟩
      · simp only [addr] at s3
        have e2' : putDescend cmp s.nil s.h key (s.size + 1) s.root (addr s.nil t) = some (pa s.root ctx', false) := e2
        simp [put, H.top, e2', putNew, s1, link, s3]
      · simp only [pm.length_eq, List.length_cons, H.size]
      · rfl
      · rw [show ({ s with h := h3, size := s.size + 1 } : St K V).h = h3 from rfl, z3.keep.1, al2]
      · rw [show ({ s with h := h3, size := s.size + 1 } : St K V).h = h3 from rfl, z3.keep.2, pay2]
      · intro x hx hxa
        have hx' : x ∉ malloc s.h.alive :: s.root :: s.nil :: addrs t := by
          intro hm'
          rcases List.mem_cons.mp hm' with h | h
          · exact hxa rfl h
          · exact hx h
        exact (ag2 x hx').trans (z3.out x hx')

end ops

end RBPtr
