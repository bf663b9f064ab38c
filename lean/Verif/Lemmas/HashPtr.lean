import Verif.Model.HashPtr
import Verif.Lemmas.Map
/-! # The hash map in memory represents the hash map of lists, item by item -/
namespace HashPtr
open CMap (Fns Destroyed getBucket maxThr minThr MAX_BUCKETS HInv Placed hit NoDup flatten_set flatten_split getBucket_spec pow_pos')
open CMem

/-- An item with its address: the address is carried in the key. -/
abbrev DItem (K V : Type) := (Nat × K) × V

def adr {K V : Type} (p : DItem K V) : Nat := p.1.1
def bare {K V : Type} (p : DItem K V) : K × V := (p.1.2, p.2)

/-- The callbacks on keys that carry addresses. -/
def lift {K : Type} (f : Fns K) : Fns (Nat × K) := ⟨fun a b => f.eq a.2 b.2, fun a => f.hash a.2⟩

/-- The pointer to a chain that goes on at `e`. -/
def hd {K V : Type} (c : List (DItem K V)) (e : Nat) : Nat :=
  match c with
  | [] => e
  | p :: _ => adr p

/-- The items of `c` are in memory, linked, and the last one's `next` is `e`. -/
def Seg {K V : Type} (h : Heap (K × V)) : List (DItem K V) → Nat → Prop
  | [], _ => True
  | p :: r, e => h (adr p) = some (.item (hd r e) (some (bare p))) ∧ Seg h r e

def addrs {K V : Type} (D : List (List (DItem K V))) : List Nat := D.flatten.map adr

structure Rep {K V : Type} (h : Heap (K × V)) (B : Nat) (D : List (List (DItem K V))) : Prop where
  arr : h B = some (.arr (D.map fun c => hd c 0))
  ok : ∀ c ∈ D, Seg h c 0
  nd : (B :: addrs D).Nodup
  nz : ∀ a ∈ addrs D, a ≠ 0

variable {K V : Type} {h h' h0 : Heap (K × V)} {f : Fns K} {B : Nat} {D : List (List (DItem K V))} {c c' : List (DItem K V)}

theorem hd_append (a b : List (DItem K V)) (e : Nat) : hd (a ++ b) e = hd a (hd b e) := by
  cases a <;> rfl

theorem seg_append (a b : List (DItem K V)) (e : Nat) : Seg h (a ++ b) e ↔ Seg h a (hd b e) ∧ Seg h b e := by
  induction a with
  | nil => simp [Seg]
  | cons p a ih => simp only [List.cons_append, Seg, hd_append, ih, and_assoc]

theorem Seg.mono {e : Nat} (hc : Seg h c e) (hs : ∀ a ∈ c.map adr, h' a = h a) : Seg h' c e := by
  induction c with
  | nil => trivial
  | cons p c ih =>
    simp only [List.map_cons, List.mem_cons, forall_eq_or_imp] at hs
    exact ⟨by rw [hs.1]; exact hc.1, ih hc.2 hs.2⟩

theorem Seg.get {e : Nat} (hc : Seg h c e) : ∀ p ∈ c, ∃ n, h (adr p) = some (.item n (some (bare p))) := by
  induction c with
  | nil => intro p hp; cases hp
  | cons q c ih =>
    intro p hp
    rcases List.mem_cons.mp hp with rfl | hp
    · exact ⟨_, hc.1⟩
    · exact ih hc.2 p hp

theorem mem_addrs {a : Nat} : a ∈ addrs D ↔ ∃ c ∈ D, ∃ p ∈ c, adr p = a := by
  simp only [addrs, List.mem_map, List.mem_flatten]
  constructor
  · rintro ⟨p, ⟨c, hc, hp⟩, rfl⟩; exact ⟨c, hc, p, hp, rfl⟩
  · rintro ⟨c, hc, p, hp, rfl⟩; exact ⟨p, ⟨c, hc, hp⟩, rfl⟩

theorem Rep.get (R : Rep h B D) {a : Nat} (ha : a ∈ addrs D) : ∃ n p, h a = some (.item n (some p)) := by
  obtain ⟨c, hc, p, hp, rfl⟩ := mem_addrs.mp ha
  obtain ⟨n, hn⟩ := (R.ok c hc).get p hp
  exact ⟨n, _, hn⟩

theorem Rep.alive (R : Rep h B D) {a : Nat} (ha : a ∈ B :: addrs D) : ∃ x, h a = some x := by
  rcases List.mem_cons.mp ha with rfl | ha
  · exact ⟨_, R.arr⟩
  · obtain ⟨n, p, e⟩ := R.get ha; exact ⟨_, e⟩

theorem addrs_split {b : Nat} (hb : b < D.length) :
    addrs D = ((D.take b).flatten.map adr) ++ (D[b].map adr ++ (D.drop (b + 1)).flatten.map adr) := by
  unfold addrs; rw [flatten_split D b hb]; simp

theorem addrs_set {b : Nat} (hb : b < D.length) (c : List (DItem K V)) :
    addrs (D.set b c) = ((D.take b).flatten.map adr) ++ (c.map adr ++ (D.drop (b + 1)).flatten.map adr) := by
  unfold addrs; rw [flatten_set D b hb]; simp

theorem addrs_other {b i : Nat} (hnd : (addrs D).Nodup) (hb : b < D.length) (hi : i < D.length) (hne : i ≠ b) {a : Nat}
    (ha : a ∈ D[i].map adr) : a ∈ addrs D ∧ a ∉ D[b].map adr := by
  have hm : a ∈ addrs D := by
    obtain ⟨p, hp, rfl⟩ := List.mem_map.mp ha
    exact mem_addrs.mpr ⟨_, List.getElem_mem hi, p, hp, rfl⟩
  refine ⟨hm, fun hab => ?_⟩
  rw [addrs_split hb] at hnd
  have hin : a ∈ (D.take b).flatten.map adr ∨ a ∈ (D.drop (b + 1)).flatten.map adr := by
    rcases Nat.lt_or_gt_of_ne hne with hlt | hgt
    · left
      obtain ⟨p, hp, rfl⟩ := List.mem_map.mp ha
      refine List.mem_map_of_mem (List.mem_flatten.mpr ⟨D[i], ?_, hp⟩)
      rw [List.mem_take_iff_getElem]; exact ⟨i, by omega, rfl⟩
    · right
      obtain ⟨p, hp, rfl⟩ := List.mem_map.mp ha
      refine List.mem_map_of_mem (List.mem_flatten.mpr ⟨D[i], ?_, hp⟩)
      rw [List.mem_drop_iff_getElem]; exact ⟨i - (b + 1), by omega, by congr 1; omega⟩
  rw [List.nodup_append, List.nodup_append] at hnd
  rcases hin with h | h
  · exact hnd.2.2 a h a (List.mem_append_left _ hab) rfl
  · exact hnd.2.1.2.2 a hab a h rfl

/-- Replacing the chain of one bucket. -/
theorem Rep.set (R : Rep h B D) {b : Nat} (hb : b < D.length)
    (harr : h' B = some (.arr ((D.map fun c => hd c 0).set b (hd c' 0)))) (hok : Seg h' c' 0)
    (hsame : ∀ x, x ≠ B → x ∉ D[b].map adr → x ∈ addrs D → h' x = h x)
    (hn : (c'.map adr).Nodup) (hm : ∀ a ∈ c'.map adr, a ∈ D[b].map adr ∨ (a ≠ B ∧ a ∉ addrs D)) (hnz : ∀ a ∈ c'.map adr, a ≠ 0) :
    Rep h' B (D.set b c') := by
  have nd := List.nodup_cons.mp R.nd
  have hin : ∀ a ∈ D[b].map adr, a ∈ addrs D := by
    intro a ha; obtain ⟨p, hp, rfl⟩ := List.mem_map.mp ha; exact mem_addrs.mpr ⟨_, List.getElem_mem hb, p, hp, rfl⟩
  have hnd := nd.2
  rw [addrs_split hb, List.nodup_append, List.nodup_append] at hnd
  have hl : ∀ a ∈ (D.take b).flatten.map adr, a ∈ addrs D := by
    intro a ha; rw [addrs_split hb]; exact List.mem_append_left _ ha
  have hr : ∀ a ∈ (D.drop (b+1)).flatten.map adr, a ∈ addrs D := by
    intro a ha; rw [addrs_split hb]; exact List.mem_append_right _ (List.mem_append_right _ ha)
  refine ⟨?_, ?_, ?_, ?_⟩
  · rw [harr, List.map_set]
  · intro d hd
    rcases List.mem_or_eq_of_mem_set hd with h1 | rfl
    · obtain ⟨i, hi, rfl⟩ := List.mem_iff_getElem.mp hd
      rw [List.length_set] at hi
      rw [List.getElem_set]
      split
      · exact hok
      · rename_i hne
        refine (R.ok _ (List.getElem_mem hi)).mono fun a ha => ?_
        obtain ⟨g1, g2⟩ := addrs_other nd.2 hb hi (fun e => hne e.symm) ha
        exact hsame a (fun e => nd.1 (e ▸ g1)) g2 g1
    · exact hok
  · rw [addrs_set hb, List.nodup_cons, List.nodup_append, List.nodup_append]
    refine ⟨?_, hnd.1, ⟨hn, hnd.2.1.2.1, ?_⟩, ?_⟩
    · simp only [List.mem_append, not_or]
      refine ⟨fun h => nd.1 (hl _ h), fun h => ?_, fun h => nd.1 (hr _ h)⟩
      rcases hm _ h with h | h
      · exact nd.1 (hin _ h)
      · exact h.1 rfl
    · intro a ha x hx e
      subst e
      rcases hm a ha with h1 | h1
      · exact hnd.2.1.2.2 a h1 a hx rfl
      · exact h1.2 (hr _ hx)
    · intro a ha x hx e
      subst e
      rcases List.mem_append.mp hx with hx | hx
      · rcases hm a hx with h1 | h1
        · exact hnd.2.2 a ha a (List.mem_append_left _ h1) rfl
        · exact h1.2 (hl _ ha)
      · exact hnd.2.2 a ha a (List.mem_append_right _ hx) rfl
  · intro a ha
    rw [addrs_set hb] at ha
    rcases List.mem_append.mp ha with h1 | h1
    · exact R.nz a (hl a h1)
    · rcases List.mem_append.mp h1 with h1 | h1
      · exact hnz a h1
      · exact R.nz a (hr a h1)

theorem getSlot_eq {sl : List Nat} {b : Nat} (ha : h B = some (.arr sl)) (hb : b < sl.length) : getSlot h B b = some sl[b] := by
  simp [getSlot, ha, read_eq hb]

theorem setSlot_eq {sl : List Nat} {b n : Nat} (ha : h B = some (.arr sl)) (hb : b < sl.length) :
    setSlot h B b n = some (upd h B (some (.arr (sl.set b n)))) := by
  simp [setSlot, ha, write_eq hb]

theorem Rep.slot (R : Rep h B D) {b : Nat} (hb : b < D.length) : getSlot h B b = some (hd D[b] 0) := by
  rw [getSlot_eq R.arr (by simpa using hb)]; simp

theorem upd_same (a : Nat) (x : Option (Cell (K × V))) : upd h a x a = x := by simp [upd]
theorem upd_ne {a b : Nat} (x : Option (Cell (K × V))) (hne : b ≠ a) : upd h a x b = h b := by simp [upd, hne]

/-! ## Finding -/

theorem findLoop_sim (key : K) : ∀ (c : List (DItem K V)) (n : Nat), Seg h c 0 → (∀ a ∈ c.map adr, a ≠ 0) → c.length < n →
    findLoop f key h n (hd c 0) = some (((c.find? (hit (lift f) (0, key))).map adr).getD 0) := by
  intro c
  induction c with
  | nil => intro n _ _ hn; cases n with
    | zero => omega
    | succ n => simp [findLoop, hd]
  | cons p c ih =>
    intro n hs hz hn
    cases n with
    | zero => omega
    | succ n =>
      simp only [List.map_cons, List.mem_cons, forall_eq_or_imp] at hz
      rw [show hd (p :: c) 0 = adr p from rfl]
      simp only [findLoop, if_neg hz.1, getPay, hs.1, getNext, Option.bind_eq_bind, Option.bind_some]
      simp only [List.find?_cons]
      by_cases he : f.eq p.1.2 key = true
      · simp [bare, he, hit, lift]
      · have := ih n hs.2 hz.2 (by simpa using hn)
        simp [bare, he, hit, lift]
        simpa [hit, lift] using this

/-! ## Rehashing -/

theorem moveChain_sim {size : Nat} (hs : ∃ i, size = 2 ^ i) : ∀ (c : List (DItem K V)) (g : Heap (K × V)) (D D' : List (List (DItem K V)))
    (n : Nat), Rep g B D → D.length = size → Seg g c 0 → ((B :: addrs D) ++ c.map adr).Nodup → (∀ a ∈ c.map adr, a ≠ 0) → c.length < n →
    CMap.moveChain (lift f) size D c = some D' →
    ∃ g', moveChain f size B n g (hd c 0) = some g' ∧ Rep g' B D' ∧ ∀ x, x ≠ B → x ∉ c.map adr → g' x = g x := by
  intro c
  induction c with
  | nil =>
    intro g D D' n R _ _ _ _ hn e
    cases n with
    | zero => omega
    | succ n =>
      simp only [CMap.moveChain, Option.some.injEq] at e
      subst e
      exact ⟨g, by simp [moveChain, hd], R, fun _ _ _ => rfl⟩
  | cons p c ih =>
    intro g D D' n R hl hseg hnd hz hn e
    cases n with
    | zero => omega
    | succ n =>
      have hb : f.hash p.1.2 % size < D.length := by rw [hl]; exact Nat.mod_lt _ (pow_pos' hs)
      simp only [List.map_cons, List.mem_cons, forall_eq_or_imp] at hz
      simp only [CMap.moveChain, getBucket_spec (lift f) hs, Option.bind_eq_bind, Option.bind_some] at e
      rw [show (lift f).hash p.1 = f.hash p.1.2 from rfl, read_eq hb, Option.bind_some, write_eq hb, Option.bind_some] at e
      have hpB : adr p ≠ B := by
        rintro rfl
        simp at hnd
      have hpD : adr p ∉ addrs D := by
        intro hx
        rw [List.cons_append, List.nodup_cons, List.nodup_append] at hnd
        exact hnd.2.2.2 _ hx _ (by simp) rfl
      let g2 : Heap (K × V) := upd (upd g (adr p) (some (.item (hd D[f.hash p.1.2 % size] 0) (some (bare p))))) B
        (some (.arr ((D.map fun c => hd c 0).set (f.hash p.1.2 % size) (adr p))))
      have hg2 : ∀ x, x ≠ B → x ≠ adr p → g2 x = g x := fun x h1 h2 => by simp only [g2]; rw [upd_ne _ h1, upd_ne _ h2]
      have hin : ∀ a ∈ D[f.hash p.1.2 % size].map adr, a ∈ addrs D := by
        intro a ha; obtain ⟨p, hp, rfl⟩ := List.mem_map.mp ha; exact mem_addrs.mpr ⟨_, List.getElem_mem hb, p, hp, rfl⟩
      have nd := List.nodup_cons.mp R.nd
      have hndb : (D[f.hash p.1.2 % size].map adr).Nodup := by
        have := nd.2
        rw [addrs_split hb, List.nodup_append, List.nodup_append] at this
        exact this.2.1.1
      have R2 : Rep g2 B (D.set (f.hash p.1.2 % size) (p :: D[f.hash p.1.2 % size])) := by
        refine R.set hb ?_ ?_ ?_ ?_ ?_ ?_
        · simp [g2, upd_same, hd]
        · refine ⟨?_, (R.ok _ (List.getElem_mem hb)).mono fun a ha => ?_⟩
          · simp only [g2]; rw [upd_ne _ hpB, upd_same]
          · exact hg2 a (fun e => nd.1 (e ▸ hin a ha)) (fun e => hpD (e ▸ hin a ha))
        · intro x h1 h2 h3
          exact hg2 x h1 (fun e => hpD (e ▸ h3))
        · rw [List.map_cons, List.nodup_cons]
          exact ⟨fun hx => hpD (hin _ hx), hndb⟩
        · intro a ha
          rcases List.mem_cons.mp ha with rfl | ha
          · exact Or.inr ⟨hpB, hpD⟩
          · exact Or.inl ha
        · intro a ha
          rcases List.mem_cons.mp ha with rfl | ha
          · exact hz.1
          · exact R.nz a (hin a ha)
      have hpc : adr p ∉ c.map adr := by
        rw [List.nodup_append] at hnd
        exact (List.nodup_cons.mp hnd.2.1).1
      have hBc : B ∉ c.map adr := by
        intro hx
        rw [List.cons_append, List.nodup_cons] at hnd
        exact hnd.1 (by simp only [List.mem_append]; exact Or.inr (List.mem_cons_of_mem _ hx))
      have hseg2 : Seg g2 c 0 := hseg.2.mono fun a ha => hg2 a (fun e => hBc (e ▸ ha)) (fun e => hpc (e ▸ ha))
      have hnd2 : ((B :: addrs (D.set (f.hash p.1.2 % size) (p :: D[f.hash p.1.2 % size]))) ++ c.map adr).Nodup := by
        have hp : ((B :: addrs (D.set (f.hash p.1.2 % size) (p :: D[f.hash p.1.2 % size]))) ++ c.map adr).Perm
            ((B :: addrs D) ++ (p :: c).map adr) := by
          rw [addrs_set hb, addrs_split hb]
          simp only [List.map_cons, List.cons_append]
          refine List.Perm.cons _ ?_
          refine (List.Perm.append_right _ List.perm_middle).trans ?_
          exact List.perm_middle.symm
        exact hp.nodup_iff.mpr hnd
      obtain ⟨g', e', R', out⟩ := ih g2 _ D' n R2 (by simpa using hl) hseg2 hnd2 hz.2 (by simpa using hn) e
      refine ⟨g', ?_, R', ?_⟩
      · have hnb : upd g (adr p) (some (.item (hd D[f.hash p.1.2 % size] 0) (some (bare p)))) B = some (.arr (D.map fun c => hd c 0)) := by
          rw [upd_ne _ hpB.symm]; exact R.arr
        simp only [moveChain, hd, if_neg hz.1, getNext, getPay, hseg.1, Option.bind_eq_bind, Option.bind_some,
          getBucket_spec f hs, setNext]
        rw [show (bare p).1 = p.1.2 from rfl, R.slot hb, Option.bind_some, setSlot_eq hnb (by simpa using hb), Option.bind_some]
        exact e'
      · intro x h1 h2
        simp only [List.map_cons, List.mem_cons, not_or] at h2
        rw [out x h1 h2.2, hg2 x h1 h2.1]

theorem set_replicate (i : Nat) (x : Nat) (r : List Nat) : (List.replicate i 0 ++ x :: r).set i 0 = List.replicate (i + 1) 0 ++ r := by
  induction i with
  | zero => rfl
  | succ i ih => simp only [List.replicate_succ, List.cons_append, List.set_cons_succ, ih]

theorem moveAll_sim {size NB load : Nat} (hs : ∃ i, size = 2 ^ i) : ∀ (cs : List (List (DItem K V))) (g : Heap (K × V))
    (D D' : List (List (DItem K V))) (i : Nat),
    Rep g NB D → D.length = size → Placed (lift f) size D → g B = some (.arr (List.replicate i 0 ++ cs.map fun c => hd c 0)) →
    (∀ c ∈ cs, Seg g c 0) → (B :: NB :: (addrs D ++ addrs cs)).Nodup → (∀ a ∈ addrs cs, a ≠ 0) → (∀ c ∈ cs, c.length ≤ load) →
    CMap.moveAll (lift f) size D cs = some D' →
    ∃ g', moveAll f size NB B load cs.length i g = some g' ∧ Rep g' NB D' ∧ (∃ y, g' B = some y) ∧
      ∀ x, x ≠ B → x ≠ NB → x ∉ addrs cs → g' x = g x := by
  intro cs
  induction cs with
  | nil =>
    intro g D D' i R _ _ hB _ _ _ _ e
    simp only [CMap.moveAll, Option.some.injEq] at e
    subst e
    exact ⟨g, rfl, R, ⟨_, hB⟩, fun _ _ _ _ => rfl⟩
  | cons c cs ih =>
    intro g D D' i R hl hP hB hseg hnd hz hld e
    obtain ⟨D1, e1, l1, P1, q1⟩ := CMap.moveChain_spec (f := lift f) hs c D hl hP
    simp only [CMap.moveAll, e1, Option.bind_eq_bind, Option.bind_some] at e
    have acs : addrs (c :: cs) = c.map adr ++ addrs cs := by simp [addrs]
    rw [acs] at hnd hz
    have n1 := List.nodup_cons.mp hnd
    have n2 := List.nodup_cons.mp n1.2
    have n3 := List.nodup_append.mp n2.2
    have n4 := List.nodup_append.mp n3.2.1
    simp only [List.mem_cons, List.mem_append, not_or] at n1 n2
    let g1 : Heap (K × V) := upd g B (some (.arr (List.replicate (i + 1) 0 ++ cs.map fun c => hd c 0)))
    have hBNB : NB ≠ B := fun e => n1.1.1 e.symm
    have R1 : Rep g1 NB D := by
      refine ⟨by simp only [g1]; rw [upd_ne _ hBNB]; exact R.arr, fun d hd => (R.ok d hd).mono fun a ha => ?_, R.nd, R.nz⟩
      simp only [g1]
      refine upd_ne _ fun e => n1.1.2.1 (e ▸ ?_)
      obtain ⟨p, hp, rfl⟩ := List.mem_map.mp ha
      exact mem_addrs.mpr ⟨d, hd, p, hp, rfl⟩
    have hc1 : Seg g1 c 0 := (hseg c (by simp)).mono fun a ha => upd_ne _ fun e => n1.1.2.2.1 (e ▸ ha)
    have hnd1 : ((NB :: addrs D) ++ c.map adr).Nodup := by
      rw [List.cons_append, List.nodup_cons, List.nodup_append]
      refine ⟨by simp only [List.mem_append, not_or]; exact ⟨n2.1.1, n2.1.2.1⟩, n3.1, n4.1, fun a ha b hb => n3.2.2 a ha b (List.mem_append_left _ hb)⟩
    obtain ⟨g2, e2, R2, out2⟩ := moveChain_sim hs c g1 D D1 (load + 1) R1 hl hc1 hnd1 (fun a ha => hz a (List.mem_append_left _ ha))
      (Nat.lt_succ_of_le (hld c (by simp))) e1
    have q1' : (addrs D1).Perm (c.map adr ++ addrs D) := by
      have := q1.map adr; simpa [addrs] using this
    have hg2B : g2 B = g1 B := out2 B hBNB.symm n1.1.2.2.1
    obtain ⟨g3, e3, R3, al3, out3⟩ := ih g2 D1 D' (i + 1) R2 l1 P1 (by rw [hg2B]; simp [g1, upd_same])
      (fun d hd => (hseg d (List.mem_cons_of_mem _ hd)).mono fun a ha => by
        have had : a ∈ addrs cs := by
          obtain ⟨p, hp, rfl⟩ := List.mem_map.mp ha
          exact mem_addrs.mpr ⟨d, hd, p, hp, rfl⟩
        have haB : a ≠ B := fun e => n1.1.2.2.2 (e ▸ had)
        rw [out2 a (fun e => n2.1.2.2 (e ▸ had)) (fun hx => n4.2.2 a hx a had rfl)]
        exact upd_ne _ haB)
      (by
        have : (B :: NB :: (addrs D1 ++ addrs cs)).Perm (B :: NB :: (addrs D ++ (c.map adr ++ addrs cs))) := by
          refine (List.Perm.cons _ (List.Perm.cons _ ?_))
          rw [← List.append_assoc]
          exact (List.Perm.append_right _ (q1'.trans List.perm_append_comm))
        exact this.nodup_iff.mpr hnd)
      (fun a ha => hz a (List.mem_append_right _ ha)) (fun d hd => hld d (List.mem_cons_of_mem _ hd)) e
    refine ⟨g3, ?_, R3, al3, ?_⟩
    · simp only [List.length_cons, moveAll]
      rw [getSlot_eq hB (by simp), Option.bind_eq_bind, Option.bind_some, setSlot_eq hB (by simp), Option.bind_eq_bind, Option.bind_some]
      simp only [List.map_cons, set_replicate]
      simp only [List.getElem_append_right (Nat.le_of_eq (List.length_replicate)), List.length_replicate, Nat.sub_self, List.getElem_cons_zero]
      rw [show upd g B (some (.arr (List.replicate (i + 1) 0 ++ cs.map fun c => hd c 0))) = g1 from rfl, e2]
      exact e3
    · intro x h1 h2 h3
      rw [acs, List.mem_append, not_or] at h3
      rw [out3 x h1 h2 h3.2, out2 x h2 h3.1]
      exact upd_ne _ h1

end HashPtr
