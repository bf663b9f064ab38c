import Verif.Lemmas.List
namespace CList
open Queue (Heap Node)

/-- Ghost description of what one reference counter stands for: its users (user node, list) and the shared nodes
(node, payload address, payload content). -/
structure Grp (V : Type) where
  us : List (Nat × Nat)
  es : List (Nat × Nat × V)

/-- The nodes as (address, payload pointer). -/
def ns {V : Type} (es : List (Nat × Nat × V)) : List (Nat × Pay) := es.map fun e => (e.1, Pay.ptr e.2.1)

theorem ns_getElem {V : Type} (es : List (Nat × Nat × V)) (i : Nat) (h : i < (ns es).length) :
    (ns es)[i] = ((es[i]'(by simpa [ns] using h)).1, Pay.ptr (es[i]'(by simpa [ns] using h)).2.1) := by simp [ns]

theorem ns_length {V : Type} (es : List (Nat × Nat × V)) : (ns es).length = es.length := by simp [ns]

/-- A group of elements: correctly allocated payloads, within bounds. -/
structure EsOk {V : Type} (pays : Pays V) (nfresh : Nat) (es : List (Nat × Nat × V)) : Prop where
  node_lt : ∀ e ∈ es, e.1 < nfresh
  pay_lt : ∀ e ∈ es, e.2.1 < pays.fresh
  pay : ∀ e ∈ es, pays.cells e.2.1 = some e.2.2
  pay_nodup : (es.map (·.2.1)).Nodup

structure Inv {V : Type} (s : St V) (sp : ListSpec.S V) (g : Nat → Grp V) : Prop where
  next : sp.next = s.lFresh
  dead : ∀ l, s.lFresh ≤ l → s.lists l = none
  dom : ∀ l, s.lists l = none → sp.val l = none
  lists : ∀ l L, s.lists l = some L → (∃ p ∈ (g L.refCount).us, p.2 = l) ∧ L.list = L.first ∧
    L.nodeCount = (g L.refCount).es.length ∧ DL s.nodes.cells L.first L.last (ns (g L.refCount).es) ∧
    sp.val l = some ((g L.refCount).es.map (·.2.2))
  rcs : ∀ r, (g r).us ≠ [] → ∃ rc, s.rcs r = some rc ∧ RCOk s.users.cells rc (g r).us
  rc_lt : ∀ r, s.rcFresh ≤ r → (g r).us = []
  empty : ∀ r, (g r).us = [] → (g r).es = []
  us_lt : ∀ r, ∀ p ∈ (g r).us, p.1 < s.users.fresh
  owner : ∀ r, ∀ p ∈ (g r).us, ∃ L, s.lists p.2 = some L ∧ L.refCount = r
  owner_nodup : ∀ r, ((g r).us.map (·.2)).Nodup
  es : ∀ r, EsOk s.pays s.nodes.fresh (g r).es
  us_disj : ∀ r r', r ≠ r' → ∀ p ∈ (g r).us, ∀ q ∈ (g r').us, p.1 ≠ q.1
  node_disj : ∀ r r', r ≠ r' → ∀ p ∈ (g r).es, ∀ q ∈ (g r').es, p.1 ≠ q.1
  pay_disj : ∀ r r', r ≠ r' → ∀ p ∈ (g r).es, ∀ q ∈ (g r').es, p.2.1 ≠ q.2.1

theorem nodup_map_inj {α β : Type} {f : α → β} : ∀ {l : List α}, (l.map f).Nodup → ∀ {x y : α}, x ∈ l → y ∈ l → f x = f y → x = y := by
  intro l
  induction l with
  | nil => intro _ x y hx; simp at hx
  | cons a l ih =>
    intro hnd x y hx hy hxy
    rw [List.map_cons, List.nodup_cons] at hnd
    rcases List.mem_cons.mp hx with hxa | hx' <;> rcases List.mem_cons.mp hy with hya | hy'
    · rw [hxa, hya]
    · exact absurd (by rw [← hxa, hxy]; exact List.mem_map_of_mem hy') hnd.1
    · exact absurd (by rw [← hya, ← hxy]; exact List.mem_map_of_mem hx') hnd.1
    · exact ih hnd.2 hx' hy' hxy

/-- Nothing is leaked: every allocated node, user record, reference counter and (when the list destroys its payloads) payload belongs
to a live group; `k` is the payload the client holds at the moment. -/
structure Tight {V : Type} (c : Cfg V) (s : St V) (g : Nat → Grp V) (k : Option Nat) : Prop where
  node : ∀ a, s.nodes.cells a ≠ none → ∃ r, ∃ e ∈ (g r).es, e.1 = a
  user : ∀ a, s.users.cells a ≠ none → ∃ r, ∃ p ∈ (g r).us, p.1 = a
  rc : ∀ r, s.rcs r ≠ none → (g r).us ≠ []
  pay : c.destroy = true → ∀ a, s.pays.cells a ≠ none → (∃ r, ∃ e ∈ (g r).es, e.2.1 = a) ∨ k = some a

theorem tight_init {V : Type} (c : Cfg V) : Tight c (St.init : St V) (fun _ => ⟨[], []⟩) none := by
  constructor <;> simp [St.init]

theorem inv_init {V : Type} : Inv (St.init : St V) ListSpec.init (fun _ => ⟨[], []⟩) := by
  constructor <;> simp [St.init, ListSpec.init]
  constructor <;> simp

def gset {V : Type} (g : Nat → Grp V) (r : Nat) (x : Grp V) : Nat → Grp V := fun b => if b = r then x else g b

@[simp] theorem gset_same {V : Type} (g : Nat → Grp V) (r : Nat) (x : Grp V) : gset g r x r = x := by simp [gset]
theorem gset_other {V : Type} (g : Nat → Grp V) {r b : Nat} (x : Grp V) (h : b ≠ r) : gset g r x b = g b := by simp [gset, h]

/-! ### The deep copy -/

theorem detachLoop_ok {V : Type} (c : Cfg V) (hcopy : c.copy = true) (h0 : Heap Pay) (p0 : Pays V) {f t : Option Nat}
    (es : List (Nat × Nat × V)) (hdl : DL h0.cells f t (ns es)) (hok : EsOk p0 h0.fresh es) :
    ∀ fuel i (h : Heap Pay) (pays : Pays V) (q new : Option Nat) (ds : List (Nat × Nat × V)),
      i ≤ es.length → es.length < i + fuel → DL h.cells new q (ns ds) → ds.map (·.2.2) = (es.take i).map (·.2.2) →
      EsOk pays h.fresh ds → h0.fresh ≤ h.fresh → p0.fresh ≤ pays.fresh →
      (∀ a, a < h0.fresh → h.cells a = h0.cells a) → (∀ a, a < p0.fresh → pays.cells a = p0.cells a) →
      (∀ d ∈ ds, h0.fresh ≤ d.1 ∧ p0.fresh ≤ d.2.1) →
      ∃ h' pays' f' t' ds', detachLoop c fuel h pays ((es[i]?).map (·.1)) q new = some (h', pays', f', t') ∧
        DL h'.cells f' t' (ns ds') ∧ ds'.map (·.2.2) = es.map (·.2.2) ∧ EsOk pays' h'.fresh ds' ∧
        h0.fresh ≤ h'.fresh ∧ p0.fresh ≤ pays'.fresh ∧
        (∀ a, a < h0.fresh → h'.cells a = h0.cells a) ∧ (∀ a, a < p0.fresh → pays'.cells a = p0.cells a) ∧
        (∀ d ∈ ds', h0.fresh ≤ d.1 ∧ p0.fresh ≤ d.2.1) ∧
        ((∀ a, h0.fresh ≤ a → h.cells a ≠ none → ∃ d ∈ ds, d.1 = a) → ∀ a, h0.fresh ≤ a → h'.cells a ≠ none → ∃ d ∈ ds', d.1 = a) ∧
        ((∀ a, p0.fresh ≤ a → pays.cells a ≠ none → ∃ d ∈ ds, d.2.1 = a) →
          ∀ a, p0.fresh ≤ a → pays'.cells a ≠ none → ∃ d ∈ ds', d.2.1 = a) := by
  intro fuel
  induction fuel with
  | zero => intro i h pays q new ds h1 h2; omega
  | succ fuel ih =>
    intro i h pays q new ds hile hfuel hds hval hdok hhf hpf hhc hpc hge
    by_cases hi : i < es.length
    · rw [List.getElem?_eq_getElem hi]
      simp only [Option.map_some]
      have hci := hdl.cell i (by rw [ns_length]; exact hi)
      rw [ns_getElem] at hci
      have hnx : ((ns es)[i+1]?).map (·.1) = (es[i+1]?).map (·.1) := by simp [ns]; rfl
      rw [hnx] at hci
      have hei := List.getElem_mem hi
      have hnlt := hok.node_lt _ hei
      have hplt := hok.pay_lt _ hei
      have hpv := hok.pay _ hei
      generalize hE : es[i] = e at *
      obtain ⟨ea, ep, ev⟩ := e
      simp only at hci hnlt hplt hpv
      generalize hNX : (es[i+1]?).map (·.1) = nx at *
      generalize hPV : (if i = 0 then none else Option.map (fun x => x.fst) (ns es)[i - 1]?) = pv at *
      have hea : ea ≠ h.fresh := by omega
      have hepv : pays.cells ep = some ev := by rw [hpc ep hplt]; exact hpv
      have hecell : h.cells ea = some ⟨Pay.ptr ep, nx, pv⟩ := by rw [hhc ea hnlt]; exact hci
      have hvals : (ds ++ [(h.fresh, pays.fresh, ev)]).map (·.2.2) = (es.take (i+1)).map (·.2.2) := by
        rw [List.map_append, hval, List.take_succ_eq_append_getElem hi, List.map_append, hE]; rfl
      have hfr : ∀ p ∈ ns ds, p.1 ≠ h.fresh := by
        intro p hp
        simp only [ns, List.mem_map] at hp
        obtain ⟨d, hd, rfl⟩ := hp
        have := hdok.node_lt d hd
        simp; omega
      have hes' : EsOk (pays.alloc ev).2 (h.fresh + 1) (ds ++ [(h.fresh, pays.fresh, ev)]) := by
        refine ⟨?_, ?_, ?_, ?_⟩
        · intro d hd
          rcases List.mem_append.mp hd with hd | hd
          · have := hdok.node_lt d hd; omega
          · simp at hd; subst hd; simp
        · intro d hd
          rcases List.mem_append.mp hd with hd | hd
          · have := hdok.pay_lt d hd; simp [Pays.alloc]; omega
          · simp at hd; subst hd; simp [Pays.alloc]
        · intro d hd
          rcases List.mem_append.mp hd with hd | hd
          · have := hdok.pay_lt d hd
            have h2 : d.2.1 ≠ pays.fresh := by omega
            simp [Pays.alloc, h2, hdok.pay d hd]
          · simp at hd; subst hd; simp [Pays.alloc]
        · rw [List.map_append, List.nodup_append]
          refine ⟨hdok.pay_nodup, by simp, ?_⟩
          intro a ha b hb hab
          simp at hb
          subst hb; subst hab
          rw [List.mem_map] at ha
          obtain ⟨d, hd, hde⟩ := ha
          have := hdok.pay_lt d hd
          omega
      have hpay' : ∀ a, a < p0.fresh → (pays.alloc ev).2.cells a = p0.cells a := by
        intro a ha
        have : a ≠ pays.fresh := by omega
        simp [Pays.alloc, this, hpc a ha]
      have hge' : ∀ d ∈ ds ++ [(h.fresh, pays.fresh, ev)], h0.fresh ≤ d.1 ∧ p0.fresh ≤ d.2.1 := by
        intro d hd
        rcases List.mem_append.mp hd with hd | hd
        · exact hge d hd
        · simp at hd; subst hd; exact ⟨hhf, hpf⟩
      by_cases hd0 : ds = []
      · subst hd0
        have hn := hds.first_eq; have hq := hds.last_eq
        simp [ns] at hn hq
        subst hn; subst hq
        obtain ⟨h', pays', f', t', ds', r1, r2, r3, r4, r5, r6, r7, r8, r9, r10, r11⟩ := ih (i+1)
          ⟨fun b => if b = h.fresh then some ⟨Pay.ptr pays.fresh, none, none⟩ else h.cells b, h.fresh + 1⟩
          (pays.alloc ev).2 (some h.fresh) (some h.fresh) ([] ++ [(h.fresh, pays.fresh, ev)]) (by omega) (by omega)
          (DL.singleton (by simp)) hvals hes' (by simp; omega) (by simp [Pays.alloc]; omega)
          (by intro a ha; have : a ≠ h.fresh := by omega
              simp [this, hhc a ha]) hpay' hge'
        refine ⟨h', pays', f', t', ds', ?_, r2, r3, r4, r5, r6, r7, r8, r9, (fun hh => r10 (by
            intro a ha hc
            by_cases hb : a = h.fresh
            · exact ⟨_, List.mem_append_right _ (List.mem_singleton.mpr rfl), hb.symm⟩
            · simp only [hb, if_false] at hc
              obtain ⟨d, hd, he⟩ := hh a ha hc
              exact ⟨d, List.mem_append_left _ hd, he⟩)), (fun hh => r11 (by
            intro a ha hc
            by_cases hb : a = pays.fresh
            · exact ⟨_, List.mem_append_right _ (List.mem_singleton.mpr rfl), hb.symm⟩
            · simp only [Pays.alloc, hb, if_false] at hc
              obtain ⟨d, hd, he⟩ := hh a ha hc
              exact ⟨d, List.mem_append_left _ hd, he⟩))⟩
        rw [← r1, hNX]
        simp only [detachLoop]
        simp only [allocNode, put_cells, hea, if_false, hecell, Option.bind_eq_bind, Option.bind_some, copyPay, hcopy, if_true,
          hepv]
        congr 1
        · simp only [Heap.put]
          congr 1
          funext b
          by_cases hb : b = h.fresh <;> simp [hb, Pays.alloc]
      · have hdl0 : 0 < ds.length := by cases ds with | nil => exact absurd rfl hd0 | cons => simp
        obtain ⟨na, hna⟩ : ∃ na, new = some na := by
          rw [hds.first_eq]
          cases ds with | nil => exact absurd rfl hd0 | cons d _ => exact ⟨d.1, rfl⟩
        have hqq : q = some (ds[ds.length - 1]'(by omega)).1 := by
          rw [hds.last_eq, List.getLast?_eq_getElem?, List.getElem?_eq_getElem (by rw [ns_length]; omega), Option.map_some, ns_getElem]
          simp [ns_length]
        have hcq := hds.cell (ds.length - 1) (by rw [ns_length]; omega)
        rw [ns_getElem] at hcq
        have hqmem := List.getElem_mem (show ds.length - 1 < ds.length by omega)
        have hqlt := hdok.node_lt _ hqmem
        have hqge := (hge _ hqmem).1
        generalize hqa : ds[ds.length - 1] = qd at *
        obtain ⟨qa, qp, qv⟩ := qd
        simp only at hqq hcq hqlt hqge
        generalize hQN : (Node.mk _ _ _ : Node Pay) = Q at hcq
        have hqne : qa ≠ h.fresh := by omega
        have hqe : ea ≠ qa := by omega
        obtain ⟨h', pays', f', t', ds', r1, r2, r3, r4, r5, r6, r7, r8, r9, r10, r11⟩ := ih (i+1)
          ⟨fun b => if b = h.fresh then some ⟨Pay.ptr pays.fresh, none, q⟩ else
              if b = qa then some { Q with next := some h.fresh } else h.cells b, h.fresh + 1⟩
          (pays.alloc ev).2 (some h.fresh) new (ds ++ [(h.fresh, pays.fresh, ev)]) (by omega) (by omega)
          (by
            have := DL.snoc (c' := fun b => if b = h.fresh then some ⟨Pay.ptr pays.fresh, none, q⟩ else
              if b = qa then some { Q with next := some h.fresh } else h.cells b) (a := h.fresh) (x := Pay.ptr pays.fresh) hds
              (by intro hh; simp [ns] at hh; exact hd0 hh) hfr
              (by intro b h1 h2
                  rw [hqq] at h2
                  have h3 : b ≠ qa := fun hh => h2 (by rw [hh])
                  simp [h1, h3])
              (by simp)
              (by intro b n h1 h2
                  rw [hqq] at h1
                  have h1 := Option.some.inj h1
                  subst h1
                  rw [hcq] at h2
                  have h2 := Option.some.inj h2
                  subst h2
                  simp [hqne])
            simpa [ns] using this) hvals hes' (by simp; omega) (by simp [Pays.alloc]; omega)
          (by intro a ha
              have h1 : a ≠ h.fresh := by omega
              have h2 : a ≠ qa := by omega
              simp [h1, h2, hhc a ha]) hpay' hge'
        refine ⟨h', pays', f', t', ds', ?_, r2, r3, r4, r5, r6, r7, r8, r9, (fun hh => r10 (by
            intro a ha hc
            by_cases hb : a = h.fresh
            · exact ⟨_, List.mem_append_right _ (List.mem_singleton.mpr rfl), hb.symm⟩
            · by_cases hb2 : a = qa
              · exact ⟨_, List.mem_append_left _ hqmem, hb2.symm⟩
              · simp only [hb, hb2, if_false] at hc
                obtain ⟨d, hd, he⟩ := hh a ha hc
                exact ⟨d, List.mem_append_left _ hd, he⟩)), (fun hh => r11 (by
            intro a ha hc
            by_cases hb : a = pays.fresh
            · exact ⟨_, List.mem_append_right _ (List.mem_singleton.mpr rfl), hb.symm⟩
            · simp only [Pays.alloc, hb, if_false] at hc
              obtain ⟨d, hd, he⟩ := hh a ha hc
              exact ⟨d, List.mem_append_left _ hd, he⟩))⟩
        rw [← r1, hNX, hna]
        simp only [detachLoop, hqq, setNext]
        simp only [allocNode, put_cells, hea, hqne, hqe, if_false, hecell, Option.bind_eq_bind, Option.bind_some, copyPay, hcopy, if_true,
          hepv, hcq, Ne.symm hqne]
        congr 1
        · simp only [Heap.put]
          congr 1
          funext b
          by_cases hb : b = h.fresh
          · simp [hb, Pays.alloc]
          · by_cases hb2 : b = qa <;> simp [hb, hb2, hqne]
    · have : i = es.length := by omega
      subst this
      refine ⟨h, pays, new, q, ds, ?_, hds, by rw [hval, List.take_length], hdok, hhf, hpf, hhc, hpc, hge, fun hh => hh, fun hh => hh⟩
      rw [List.getElem?_eq_none (by omega)]
      simp [detachLoop]

/-! ### Detaching a list from its copies -/

theorem eraseP_sub {α : Type} {p : α → Bool} {l : List α} {x : α} (h : x ∈ l.eraseP p) : x ∈ l := List.mem_of_mem_eraseP h

theorem inv_detach {V : Type} (c : Cfg V) (hcopy : c.copy = true) {s : St V} {sp : ListSpec.S V} {g : Nat → Grp V}
    (inv : Inv s sp g) {l : Nat} {L : Lst} (hl : s.lists l = some L) :
    ∃ s' g' L' u, ListDetach c s l = some s' ∧ Inv s' sp g' ∧ s'.lists l = some L' ∧ (g' L'.refCount).us = [(u, l)] ∧
      (∀ a, a < s.pays.fresh → s'.pays.cells a = s.pays.cells a) ∧ s.pays.fresh ≤ s'.pays.fresh ∧
      (∀ a v, s.pays.cells a = some v → (∀ r, ∀ e ∈ (g r).es, e.2.1 ≠ a) → a < s.pays.fresh →
        (∀ r, ∀ e ∈ (g' r).es, e.2.1 ≠ a)) ∧
      (∀ k, Tight c s g k → (∀ a, k = some a → a < s.pays.fresh) → Tight c s' g' k) := by
  obtain ⟨⟨p, hp, hpl⟩, hlf, hcnt, hdl, hval⟩ := inv.lists l L hl
  obtain ⟨rc, hrc, hrok⟩ := inv.rcs L.refCount (by intro hh; rw [hh] at hp; simp at hp)
  generalize hr : L.refCount = r at *
  by_cases hsh : 1 < (g r).us.length
  · have hshared : RefCountIsShared rc = true := by simp [RefCountIsShared, hrok.count, hsh]
    have heok := inv.es r
    have hlen : (g r).es.length ≤ s.nodes.fresh := by
      have := length_le_of_nodup s.nodes.fresh (ns (g r).es) hdl.nodup (by
        intro q hq; simp only [ns, List.mem_map] at hq; obtain ⟨e, he, rfl⟩ := hq; exact heok.node_lt e he)
      simpa [ns_length] using this
    obtain ⟨h', pays', f', t', ds', e1, e2, e3, e4, e5, e6, e7, e8, e9, e10, e11⟩ :=
      detachLoop_ok c hcopy s.nodes s.pays (g r).es hdl heok (s.nodes.fresh + 1) 0 s.nodes s.pays none none []
        (by omega) (by omega) (DL.nil _) (by simp) ⟨by simp, by simp, by simp, by simp⟩ (by omega) (by omega) (fun _ _ => rfl)
        (fun _ _ => rfl) (by simp)
    have hfirst : ((g r).es[0]?).map (·.1) = L.list := by
      rw [hlf, hdl.first_eq, List.head?_eq_getElem?]; simp [ns]; rfl
    rw [hfirst] at e1
    obtain ⟨_, _, hd3⟩ := detach_ok hrok (inv.us_lt r) l
    obtain ⟨uh, rc', d1, d2, d3, d4, d5⟩ := hd3 hsh ⟨p, hp, hpl⟩
    obtain ⟨uh2, rc2, a1, a2, a3, a4⟩ := attach_ok (h := uh) (rc := RefCountNew) (us := []) ⟨DL.nil _, rfl⟩ (by simp) l
    have hrlt : r < s.rcFresh := by
      rcases Nat.lt_or_ge r s.rcFresh with h | h
      · exact h
      · have := inv.rc_lt r h; rw [this] at hp; simp at hp
    have hrne : r ≠ s.rcFresh := by omega
    -- the user nodes
    have hkeep : ∀ q ∈ (g r).us, q.2 ≠ l → q ∈ (g r).us.eraseP (fun p => decide (p.2 = l)) := by
      intro q hq hne
      rw [List.mem_eraseP_of_neg (by simpa using hne)]; exact hq
    have hgone : ∀ q ∈ (g r).us.eraseP (fun p => decide (p.2 = l)), q.2 ≠ l := by
      intro q hq hql
      have hnd := inv.owner_nodup r
      have h1 : l ∈ ((g r).us.eraseP (fun p => decide (p.2 = l))).map (·.2) := by
        rw [List.mem_map]; exact ⟨q, hq, hql⟩
      have h2 : ((g r).us.eraseP (fun p => decide (p.2 = l))).map (·.2) = ((g r).us.map (·.2)).erase l := by
        rw [List.erase_eq_eraseP, List.eraseP_map]
        congr 2
        funext x
        simp only [Function.comp_apply]
        by_cases hx : x.2 = l
        · simp [hx]
        · simp [hx, Ne.symm hx]
      rw [h2, hnd.mem_erase_iff] at h1
      exact h1.1 rfl
    have hgonene : (g r).us.eraseP (fun p => decide (p.2 = l)) ≠ [] := by
      intro hh
      have := List.length_eraseP_of_mem hp (p := fun p => decide (p.2 = l)) (by simpa using hpl)
      rw [hh] at this; simp at this; omega
    let g' : Nat → Grp V := gset (gset g r ⟨(g r).us.eraseP (fun p => decide (p.2 = l)), (g r).es⟩) s.rcFresh ⟨[(uh.fresh, l)], ds'⟩
    have hg'new : g' s.rcFresh = ⟨[(uh.fresh, l)], ds'⟩ := by simp [g']
    have hg'r : g' r = ⟨(g r).us.eraseP (fun p => decide (p.2 = l)), (g r).es⟩ := by
      simp only [g']; rw [gset_other _ _ hrne, gset_same]
    have hg'o : ∀ b, b ≠ r → b ≠ s.rcFresh → g' b = g b := by
      intro b h1 h2; simp only [g']; rw [gset_other _ _ h2, gset_other _ _ h1]
    have hes' : ∀ b, b ≠ s.rcFresh → (g' b).es = (g b).es := by
      intro b hb
      by_cases hbr : b = r
      · subst hbr; rw [hg'r]
      · rw [hg'o b hbr hb]
    have hus' : ∀ b, b ≠ s.rcFresh → ∀ q ∈ (g' b).us, q ∈ (g b).us := by
      intro b hb q hq
      by_cases hbr : b = r
      · subst hbr; rw [hg'r] at hq; exact eraseP_sub hq
      · rw [hg'o b hbr hb] at hq; exact hq
    have hgF : g s.rcFresh = ⟨[], []⟩ := by
      have h1 := inv.rc_lt s.rcFresh (by omega)
      have h2 := inv.empty _ h1
      cases hgg : g s.rcFresh; rw [hgg] at h1 h2; simp at h1 h2; simp [h1, h2]
    refine ⟨{ s with nodes := h', pays := pays', users := uh2,
                     rcs := fun b => if b = s.rcFresh then some rc2 else if b = r then some rc' else s.rcs b,
                     rcFresh := s.rcFresh + 1,
                     lists := fun b => if b = l then some { L with list := f', first := f', last := t', refCount := s.rcFresh } else s.lists b },
      g', { L with list := f', first := f', last := t', refCount := s.rcFresh }, uh.fresh, ?_, ?_, ?_, ?_, e8, e6, ?_, ?_⟩
    · simp only [ListDetach, hl, Option.bind_eq_bind, Option.bind_some, hr, hrc, hshared, if_true, e1, d1, newRefCount, a1, St.putRC,
        St.putList]
    · have hlists' : ∀ b, b ≠ l → ∀ Lb, s.lists b = some Lb → Lb.refCount ≠ s.rcFresh := by
        intro b _ Lb hb hh
        obtain ⟨⟨q, hq, _⟩, _⟩ := inv.lists b Lb hb
        rw [hh, hgF] at hq; simp at hq
      refine ⟨inv.next, ?_, ?_, ?_, ?_, ?_, ?_, ?_, ?_, ?_, ?_, ?_, ?_, ?_⟩
      · intro b hb
        simp only at hb ⊢
        have := inv.dead b hb
        rw [if_neg (by intro hh; subst hh; rw [hl] at this; cases this)]; exact this
      · intro b hb
        simp only at hb
        split at hb
        · cases hb
        · exact inv.dom b hb
      · intro b Lb hb
        simp only at hb ⊢
        split at hb
        · rename_i hbl; subst hbl
          cases hb
          simp only [hg'new]
          refine ⟨⟨(uh.fresh, b), by simp, rfl⟩, trivial, ?_, e2, ?_⟩
          · rw [hcnt]; have := congrArg List.length e3; simpa using this.symm
          · rw [hval, e3]
        · rename_i hbl
          obtain ⟨⟨q, hq, hqb⟩, i2, i3, i4, i5⟩ := inv.lists b Lb hb
          have hne := hlists' b hbl Lb hb
          rw [hes' _ hne]
          refine ⟨?_, i2, i3, ?_, i5⟩
          · by_cases hbr : Lb.refCount = r
            · rw [hbr] at hq ⊢; rw [hg'r]; exact ⟨q, hkeep q hq (by rw [hqb]; exact hbl), hqb⟩
            · rw [hg'o _ hbr hne]; exact ⟨q, hq, hqb⟩
          · refine i4.congr ?_
            intro x hx
            simp only [ns, List.mem_map] at hx
            obtain ⟨e, he, rfl⟩ := hx
            exact e7 _ ((inv.es _).node_lt e he)
      · intro b hb
        simp only
        by_cases hbF : b = s.rcFresh
        · subst hbF
          refine ⟨rc2, by simp, ?_⟩
          rw [hg'new]; simpa using a2
        · by_cases hbr : b = r
          · subst hbr
            refine ⟨rc', by simp [hbF], ?_⟩
            rw [hg'r]
            refine d2.congr ?_
            intro q hq
            have := inv.us_lt b q (eraseP_sub hq)
            exact a4 _ (by omega) (by simp)
          · rw [hg'o b hbr hbF] at hb ⊢
            obtain ⟨rcb, h1, h2⟩ := inv.rcs b hb
            refine ⟨rcb, by simp [hbF, hbr, h1], h2.congr ?_⟩
            intro q hq
            have := inv.us_lt b q hq
            rw [a4 _ (by omega) (by simp)]
            exact d4 _ (fun w hw => inv.us_disj r b (Ne.symm hbr) w hw q hq)
      · intro b hb
        simp only at hb
        rw [hg'o b (by omega) (by omega)]
        exact inv.rc_lt b (by omega)
      · intro b hb
        by_cases hbF : b = s.rcFresh
        · subst hbF; rw [hg'new] at hb; simp at hb
        · by_cases hbr : b = r
          · subst hbr; rw [hg'r] at hb; exact absurd hb hgonene
          · rw [hg'o b hbr hbF] at hb ⊢; exact inv.empty b hb
      · intro b q hq
        simp only [a3, d3]
        by_cases hbF : b = s.rcFresh
        · subst hbF; rw [hg'new] at hq; simp at hq; subst hq; simp [d3]
        · have := inv.us_lt b q (hus' b hbF q hq); omega
      · intro b q hq
        simp only
        by_cases hbF : b = s.rcFresh
        · subst hbF; rw [hg'new] at hq; simp at hq; subst hq; simp
        · obtain ⟨Lq, h1, h2⟩ := inv.owner b q (hus' b hbF q hq)
          have hql : q.2 ≠ l := by
            intro hh
            rw [hh, hl] at h1
            cases h1
            rw [hr] at h2
            subst h2
            rw [hg'r] at hq
            exact hgone q hq hh
          exact ⟨Lq, by simp [hql, h1], h2⟩
      · intro b
        by_cases hbF : b = s.rcFresh
        · subst hbF; rw [hg'new]; simp
        · by_cases hbr : b = r
          · subst hbr; rw [hg'r]
            exact List.Nodup.sublist ((List.eraseP_sublist).map _) (inv.owner_nodup b)
          · rw [hg'o b hbr hbF]; exact inv.owner_nodup b
      · intro b
        by_cases hbF : b = s.rcFresh
        · subst hbF; rw [hg'new]; exact e4
        · rw [hes' b hbF]
          have h1 := inv.es b
          exact ⟨fun e he => by have := h1.node_lt e he; simp only; omega, fun e he => by have := h1.pay_lt e he; simp only; omega,
            fun e he => by simp only; rw [e8 _ (h1.pay_lt e he)]; exact h1.pay e he, h1.pay_nodup⟩
      · intro b b' hbb q hq q' hq'
        by_cases hbF : b = s.rcFresh
        · subst hbF
          rw [hg'new] at hq; simp at hq; subst hq
          have := inv.us_lt b' q' (hus' b' (Ne.symm hbb) q' hq')
          simp only; omega
        · by_cases hbF' : b' = s.rcFresh
          · subst hbF'
            rw [hg'new] at hq'; simp at hq'; subst hq'
            have := inv.us_lt b q (hus' b hbF q hq)
            simp only; omega
          · exact inv.us_disj b b' hbb q (hus' b hbF q hq) q' (hus' b' hbF' q' hq')
      · intro b b' hbb q hq q' hq'
        by_cases hbF : b = s.rcFresh
        · subst hbF
          rw [hg'new] at hq
          rw [hes' b' (Ne.symm hbb)] at hq'
          have h1 := (e9 q hq).1
          have h2 := (inv.es b').node_lt q' hq'
          omega
        · rw [hes' b hbF] at hq
          by_cases hbF' : b' = s.rcFresh
          · subst hbF'
            rw [hg'new] at hq'
            have h1 := (e9 q' hq').1
            have h2 := (inv.es b).node_lt q hq
            omega
          · rw [hes' b' hbF'] at hq'
            exact inv.node_disj b b' hbb q hq q' hq'
      · intro b b' hbb q hq q' hq'
        by_cases hbF : b = s.rcFresh
        · subst hbF
          rw [hg'new] at hq
          rw [hes' b' (Ne.symm hbb)] at hq'
          have h1 := (e9 q hq).2
          have h2 := (inv.es b').pay_lt q' hq'
          omega
        · rw [hes' b hbF] at hq
          by_cases hbF' : b' = s.rcFresh
          · subst hbF'
            rw [hg'new] at hq'
            have h1 := (e9 q' hq').2
            have h2 := (inv.es b).pay_lt q hq
            omega
          · rw [hes' b' hbF'] at hq'
            exact inv.pay_disj b b' hbb q hq q' hq'
    · simp
    · simp only [hg'new]
    · intro a v _ hno halt b e he
      by_cases hbF : b = s.rcFresh
      · subst hbF
        rw [hg'new] at he
        have := (e9 e he).2
        omega
      · rw [hes' b hbF] at he; exact hno b e he
    · intro k tg hk
      have hkeepes : ∀ b, ∀ e ∈ (g b).es, e ∈ (g' b).es := by
        intro b e he
        rw [hes' b (by intro hh; subst hh; rw [hgF] at he; simp at he)]; exact he
      refine ⟨?_, ?_, ?_, ?_⟩
      · intro a ha
        simp only at ha
        rcases Nat.lt_or_ge a s.nodes.fresh with hlt | hge
        · rw [e7 a hlt] at ha
          obtain ⟨b, e, he, hea⟩ := tg.node a ha
          exact ⟨b, e, hkeepes b e he, hea⟩
        · obtain ⟨d, hd, hda⟩ := e10 (by
            intro a ha hc
            obtain ⟨b, e, he, hea⟩ := tg.node a hc
            have := (inv.es b).node_lt e he
            omega) a hge ha
          exact ⟨s.rcFresh, d, by rw [hg'new]; exact hd, hda⟩
      · intro a ha
        simp only at ha
        by_cases hau : a = uh.fresh
        · exact ⟨s.rcFresh, (uh.fresh, l), by rw [hg'new]; simp, hau.symm⟩
        · rw [a4 a hau (by simp)] at ha
          by_cases hin : ∃ q ∈ (g r).us, q.1 = a
          · obtain ⟨q, hq, hqa⟩ := hin
            by_cases hql : q.2 = l
            · have hqp : (g r).us.find? (fun p => decide (p.2 = l)) = some q := by
                cases hf : (g r).us.find? (fun p => decide (p.2 = l)) with
                | none => rw [List.find?_eq_none] at hf; exact absurd (by simpa using hql) (hf q hq)
                | some q' =>
                  have h1 := List.mem_of_find?_eq_some hf
                  have h2 := List.find?_some hf
                  simp at h2
                  have h3 := inv.owner_nodup r
                  rw [nodup_map_inj h3 h1 hq (by rw [h2, hql])]
              exact absurd (by rw [← hqa]; exact d5 q hqp) ha
            · exact ⟨r, q, by rw [hg'r]; exact hkeep q hq hql, hqa⟩
          · rw [d4 a (by intro q hq hqa; exact hin ⟨q, hq, hqa⟩)] at ha
            obtain ⟨b, q, hq, hqa⟩ := tg.user a ha
            by_cases hbr : b = r
            · subst hbr; exact absurd ⟨q, hq, hqa⟩ hin
            · exact ⟨b, q, by rw [hg'o b hbr (by intro hh; subst hh; rw [hgF] at hq; simp at hq)]; exact hq, hqa⟩
      · intro b hb
        simp only at hb
        by_cases hbF : b = s.rcFresh
        · subst hbF; rw [hg'new]; simp
        · by_cases hbr : b = r
          · subst hbr; rw [hg'r]; exact hgonene
          · simp only [hbF, hbr, if_false] at hb
            rw [hg'o b hbr hbF]; exact tg.rc b hb
      · intro hdes a ha
        simp only at ha
        rcases Nat.lt_or_ge a s.pays.fresh with hlt | hge
        · rw [e8 a hlt] at ha
          rcases tg.pay hdes a ha with ⟨b, e, he, hea⟩ | h
          · exact Or.inl ⟨b, e, hkeepes b e he, hea⟩
          · exact Or.inr h
        · obtain ⟨d, hd, hda⟩ := e11 (by
            intro a ha hc
            rcases tg.pay hdes a hc with ⟨b, e, he, hea⟩ | h
            · have := (inv.es b).pay_lt e he
              omega
            · have := hk a h; omega) a hge ha
          exact Or.inl ⟨s.rcFresh, d, by rw [hg'new]; exact hd, hda⟩
  · have hone : (g r).us = [p] := by
      cases hgu : (g r).us with
      | nil => rw [hgu] at hp; simp at hp
      | cons x xs =>
        rw [hgu] at hsh hp
        simp at hsh
        have : xs = [] := by cases xs with | nil => rfl | cons => simp at hsh
        subst this
        simp at hp; rw [hp]
    have hshared : RefCountIsShared rc = false := by simp [RefCountIsShared, hrok.count, hone]
    refine ⟨s, g, L, p.1, ?_, inv, hl, ?_, fun _ _ => rfl, Nat.le_refl _, fun _ _ _ h _ => h, fun _ h _ => h⟩
    · simp only [ListDetach, hl, Option.bind_eq_bind, Option.bind_some, hr, hrc, hshared]; rfl
    · rw [hr, hone, ← hpl]

/-- Updating the elements of a list that shares nothing. -/
theorem inv_update {V : Type} {s : St V} {sp : ListSpec.S V} {g : Nat → Grp V} (inv : Inv s sp g) {l : Nat} {L : Lst}
    (hl : s.lists l = some L) {u : Nat} (hus : (g L.refCount).us = [(u, l)])
    (h' : Heap Pay) (pays' : Pays V) (L' : Lst) (es' : List (Nat × Nat × V))
    (hL : L'.refCount = L.refCount) (hLf : L'.list = L'.first) (hcnt : L'.nodeCount = es'.length)
    (hdl : DL h'.cells L'.first L'.last (ns es'))
    (hnf : s.nodes.fresh ≤ h'.fresh) (hpf : s.pays.fresh ≤ pays'.fresh)
    (hok : EsOk pays' h'.fresh es')
    (hnew : ∀ e ∈ es', (∃ d ∈ (g L.refCount).es, d.1 = e.1) ∨ s.nodes.fresh ≤ e.1)
    (hpnew : ∀ e ∈ es', (∃ d ∈ (g L.refCount).es, d.2.1 = e.2.1) ∨ (∀ r, ∀ d ∈ (g r).es, d.2.1 ≠ e.2.1))
    (hnc : ∀ r, r ≠ L.refCount → ∀ e ∈ (g r).es, h'.cells e.1 = s.nodes.cells e.1)
    (hpc : ∀ r, r ≠ L.refCount → ∀ e ∈ (g r).es, pays'.cells e.2.1 = s.pays.cells e.2.1) :
    Inv ({ s with nodes := h', pays := pays' }.putList l (some L')) (sp.set l (some (es'.map (·.2.2))))
      (gset g L.refCount ⟨(g L.refCount).us, es'⟩) := by
  have hother : ∀ b, b ≠ l → ∀ Lb, s.lists b = some Lb → Lb.refCount ≠ L.refCount := by
    intro b hb Lb hLb hh
    obtain ⟨⟨q, hq, hqb⟩, _⟩ := inv.lists b Lb hLb
    rw [hh, hus] at hq; simp at hq; subst hq; exact hb hqb.symm
  have hgus : ∀ b, (gset g L.refCount ⟨(g L.refCount).us, es'⟩ b).us = (g b).us := by
    intro b
    by_cases hb : b = L.refCount
    · subst hb; simp
    · rw [gset_other _ _ hb]
  have hges : ∀ b, b ≠ L.refCount → (gset g L.refCount ⟨(g L.refCount).us, es'⟩ b).es = (g b).es := by
    intro b hb; rw [gset_other _ _ hb]
  refine ⟨inv.next, ?_, ?_, ?_, ?_, ?_, ?_, ?_, ?_, ?_, ?_, ?_, ?_, ?_⟩
  · intro b hb
    have := inv.dead b hb
    simp only [St.putList]
    rw [if_neg (by intro hh; subst hh; rw [hl] at this; cases this)]; exact this
  · intro b hb
    simp only [St.putList] at hb
    simp only [ListSpec.S.set]
    split at hb
    · cases hb
    · rename_i hbl; rw [if_neg hbl]; exact inv.dom b hb
  · intro b Lb hb
    simp only [St.putList] at hb ⊢
    simp only [ListSpec.S.set]
    split at hb
    · rename_i hbl; subst hbl; cases hb
      rw [hL, gset_same, if_pos rfl]
      exact ⟨⟨(u, b), by rw [hus]; simp, rfl⟩, hLf, hcnt, hdl, rfl⟩
    · rename_i hbl
      have hne := hother b hbl Lb hb
      rw [hges _ hne, hgus, if_neg hbl]
      obtain ⟨i1, i2, i3, i4, i5⟩ := inv.lists b Lb hb
      refine ⟨i1, i2, i3, i4.congr ?_, i5⟩
      intro x hx
      simp only [ns, List.mem_map] at hx
      obtain ⟨e, he, rfl⟩ := hx
      exact hnc _ hne e he
  · intro b hb; rw [hgus] at hb ⊢; exact inv.rcs b hb
  · intro b hb; rw [hgus]; exact inv.rc_lt b hb
  · intro b hb
    rw [hgus] at hb
    rw [hges b (by intro hh; subst hh; rw [hus] at hb; cases hb)]
    exact inv.empty b hb
  · intro b q hq; rw [hgus] at hq; exact inv.us_lt b q hq
  · intro b q hq
    rw [hgus] at hq
    obtain ⟨Lq, h1, h2⟩ := inv.owner b q hq
    simp only [St.putList]
    by_cases hql : q.2 = l
    · rw [if_pos hql]; exact ⟨L', rfl, by rw [hql, hl] at h1; cases h1; rw [hL]; exact h2⟩
    · rw [if_neg hql]; exact ⟨Lq, h1, h2⟩
  · intro b; rw [hgus]; exact inv.owner_nodup b
  · intro b
    by_cases hb : b = L.refCount
    · subst hb; simp only [gset_same]; exact hok
    · rw [hges b hb]
      have h1 := inv.es b
      exact ⟨fun e he => by have := h1.node_lt e he; simp only [St.putList]; omega,
        fun e he => by have := h1.pay_lt e he; simp only [St.putList]; omega,
        fun e he => by simp only [St.putList]; rw [hpc b hb e he]; exact h1.pay e he, h1.pay_nodup⟩
  · intro b b' hbb q hq q' hq'; rw [hgus] at hq hq'; exact inv.us_disj b b' hbb q hq q' hq'
  · intro b b' hbb q hq q' hq'
    by_cases hb : b = L.refCount
    · subst hb
      rw [gset_same] at hq
      rw [hges b' (Ne.symm hbb)] at hq'
      rcases hnew q hq with ⟨d, hd, hde⟩ | h
      · rw [← hde]; exact inv.node_disj _ _ hbb d hd q' hq'
      · have := (inv.es b').node_lt q' hq'; omega
    · rw [hges b hb] at hq
      by_cases hb' : b' = L.refCount
      · subst hb'
        rw [gset_same] at hq'
        rcases hnew q' hq' with ⟨d, hd, hde⟩ | h
        · rw [← hde]; exact inv.node_disj _ _ hbb q hq d hd
        · have := (inv.es b).node_lt q hq; omega
      · rw [hges b' hb'] at hq'; exact inv.node_disj b b' hbb q hq q' hq'
  · intro b b' hbb q hq q' hq'
    by_cases hb : b = L.refCount
    · subst hb
      rw [gset_same] at hq
      rw [hges b' (Ne.symm hbb)] at hq'
      rcases hpnew q hq with ⟨d, hd, hde⟩ | h
      · rw [← hde]; exact inv.pay_disj _ _ hbb d hd q' hq'
      · exact (h b' q' hq').symm
    · rw [hges b hb] at hq
      by_cases hb' : b' = L.refCount
      · subst hb'
        rw [gset_same] at hq'
        rcases hpnew q' hq' with ⟨d, hd, hde⟩ | h
        · rw [← hde]; exact inv.pay_disj _ _ hbb q hq d hd
        · exact h b q hq
      · rw [hges b' hb'] at hq'; exact inv.pay_disj b b' hbb q hq q' hq'

theorem tight_update {V : Type} {c : Cfg V} {s : St V} {sp : ListSpec.S V} {g : Nat → Grp V} (inv : Inv s sp g) {k k' : Option Nat}
    (tg : Tight c s g k) {l : Nat} {L : Lst}
    (hl : s.lists l = some L) (h' : Heap Pay) (pays' : Pays V) (L' : Lst) (es' : List (Nat × Nat × V))
    (hn : ∀ a, h'.cells a ≠ none → (∃ e ∈ es', e.1 = a) ∨ (s.nodes.cells a ≠ none ∧ ∀ e ∈ (g L.refCount).es, e.1 ≠ a))
    (hp : ∀ a, pays'.cells a ≠ none → (∃ e ∈ es', e.2.1 = a) ∨
      (s.pays.cells a ≠ none ∧ (∀ e ∈ (g L.refCount).es, e.2.1 ≠ a) ∧ (k = some a → k' = some a))) :
    Tight c ({ s with nodes := h', pays := pays' }.putList l (some L')) (gset g L.refCount ⟨(g L.refCount).us, es'⟩) k' := by
  have hgus : ∀ b, (gset g L.refCount ⟨(g L.refCount).us, es'⟩ b).us = (g b).us := by
    intro b
    by_cases hb : b = L.refCount
    · subst hb; simp
    · rw [gset_other _ _ hb]
  refine ⟨?_, ?_, ?_, ?_⟩
  · intro a ha
    rcases hn a ha with ⟨e, he, hea⟩ | ⟨h1, h2⟩
    · exact ⟨L.refCount, e, by simpa using he, hea⟩
    · obtain ⟨b, e, he, hea⟩ := tg.node a h1
      have hb : b ≠ L.refCount := by intro hh; subst hh; exact h2 e he hea
      exact ⟨b, e, by rw [gset_other _ _ hb]; exact he, hea⟩
  · intro a ha
    obtain ⟨b, q, hq, hqa⟩ := tg.user a ha
    exact ⟨b, q, by rw [hgus]; exact hq, hqa⟩
  · intro b hb; rw [hgus]; exact tg.rc b hb
  · intro hdes a ha
    rcases hp a ha with ⟨e, he, hea⟩ | ⟨h1, h2, h3⟩
    · exact Or.inl ⟨L.refCount, e, by simpa using he, hea⟩
    · rcases tg.pay hdes a h1 with ⟨b, e, he, hea⟩ | h
      · have hb : b ≠ L.refCount := by intro hh; subst hh; exact h2 e he hea
        exact Or.inl ⟨b, e, by rw [gset_other _ _ hb]; exact he, hea⟩
      · exact Or.inr (h3 h)

end CList
