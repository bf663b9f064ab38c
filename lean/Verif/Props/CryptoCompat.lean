import Verif.Spec.CryptoCompat
/-! # Property C149: accessors of keys -/
open CryptoCompat CryptoSpec

namespace CryptoCompat

/-- The call on an object. -/
def callOn (bits : Nat → Int) (w : W) (o : Nat) : Call → Option (W × Int)
  | .rsaKey n e d => rsaSetKey w o n e d
  | .rsaFactors p q => rsaSetFactors w o p q
  | .rsaCrt a b c => rsaSetCrt w o a b c
  | .dsaPqg p q g => dsaSetPqg w o p q g
  | .key a b => setKey w o a b
  | .sig r s => sigSet w o r s
  | .dhPqg p q g => dhSetPqg bits w o p q g

/-- Every field holds a number of its own, which is allocated. -/
structure Inv (w : W) : Prop where
  nodup : w.live.Nodup
  live : ∀ o x b, w.slots o x = some b → b ∈ w.live
  own : ∀ o x o' x' b, w.slots o x = some b → w.slots o' x' = some b → o = o' ∧ x = x'

/-- A number that is the caller's: allocated, and in no field. -/
def Owned (w : W) (b : Nat) : Prop := b ∈ w.live ∧ ∀ o x, w.slots o x ≠ some b

/-- One assignment. -/
theorem assign_ok {w : W} (h : Inv w) (o : Nat) (x : Slot) (v : Option Nat) (hv : ∀ b, v = some b → Owned w b) :
    ∃ w', assign w o x v = some w' ∧ Inv w' ∧ (∀ o' x', w'.slots o' x' = if o' = o ∧ x' = x then v.or (w.slots o x) else w.slots o' x') ∧
      w'.live = (if v = none then w.live else w.live.removeAll (w.slots o x).toList) ∧ w'.length = w.length ∧
      (∀ b, Owned w b → v ≠ some b → Owned w' b) := by
  cases v with
  | none =>
    refine ⟨w, rfl, h, ?_, by simp, rfl, fun b hb _ => hb⟩
    intro o' x'
    split
    · rename_i hh; rw [hh.1, hh.2]; rfl
    · rfl
  | some b =>
    obtain ⟨hb1, hb2⟩ := hv b rfl
    cases hc : w.slots o x with
    | none =>
      refine ⟨store w o x (some b), by simp [assign, hc, bnFree], ?_, ?_, by simp [store, List.removeAll], rfl, ?_⟩
      · refine ⟨h.nodup, ?_, ?_⟩
        · intro o' x' c hh
          simp only [store] at hh
          split at hh
          · cases hh; exact hb1
          · exact h.live _ _ _ hh
        · intro o1 x1 o2 x2 c h1 h2
          simp only [store] at h1 h2
          split at h1 <;> split at h2
          · rename_i g1 g2; exact ⟨g1.1.trans g2.1.symm, g1.2.trans g2.2.symm⟩
          · cases h1; exact absurd h2 (hb2 _ _)
          · cases h2; exact absurd h1 (hb2 _ _)
          · exact h.own _ _ _ _ _ h1 h2
      · intro o' x'; simp [store]
      · intro c hc2 hne
        refine ⟨hc2.1, fun o' x' hh => ?_⟩
        simp only [store] at hh
        split at hh
        · exact hne hh
        · exact hc2.2 _ _ hh
    | some a =>
      have ha := h.live _ _ _ hc
      refine ⟨store { w with live := w.live.erase a } o x (some b), by simp [assign, hc, bnFree, ha], ?_, ?_, ?_, rfl, ?_⟩
      · have hab : b ≠ a := by rintro rfl; exact hb2 _ _ hc
        refine ⟨h.nodup.erase _, ?_, ?_⟩
        · intro o' x' c hh
          simp only [store] at hh ⊢
          split at hh
          · cases hh; exact (List.mem_erase_of_ne hab).mpr hb1
          · rename_i hn
            refine (List.mem_erase_of_ne ?_).mpr (h.live _ _ _ hh)
            rintro rfl
            exact hn (h.own _ _ _ _ _ hh hc)
        · intro o1 x1 o2 x2 c h1 h2
          simp only [store] at h1 h2
          split at h1 <;> split at h2
          · rename_i g1 g2; exact ⟨g1.1.trans g2.1.symm, g1.2.trans g2.2.symm⟩
          · cases h1; exact absurd h2 (hb2 _ _)
          · cases h2; exact absurd h1 (hb2 _ _)
          · exact h.own _ _ _ _ _ h1 h2
      · intro o' x'; simp [store]
      · simp only [store, reduceCtorEq, if_false, Option.toList]
        rw [List.Nodup.erase_eq_filter h.nodup]
        simp [List.removeAll, bne, List.elem_cons, beq_eq_decide]
      · intro c hc2 hne
        have hca : c ≠ a := by rintro rfl; exact hc2.2 _ _ hc
        refine ⟨(List.mem_erase_of_ne hca).mpr hc2.1, fun o' x' hh => ?_⟩
        simp only [store] at hh
        split at hh
        · exact hne hh
        · exact hc2.2 _ _ hh


/-- Assigning several fields. -/
def assignAll (o : Nat) : W → List (Slot × Option Nat) → Option W
  | w, [] => some w
  | w, (x, v) :: rest => (assign w o x v).bind fun w => assignAll o w rest

/-- What is given for a field. -/
def valueIn (gs : List (Slot × Option Nat)) (x : Slot) : Option Nat := ((gs.find? (·.1 = x)).map (·.2)).join

theorem valueIn_cons (y : Slot) (v : Option Nat) (gs : List (Slot × Option Nat)) (x : Slot) :
    valueIn ((y, v) :: gs) x = if y = x then v else valueIn gs x := by
  by_cases h : y = x <;> simp [valueIn, List.find?_cons, h]

theorem valueIn_none {gs : List (Slot × Option Nat)} {x : Slot} (h : x ∉ gs.map (·.1)) : valueIn gs x = none := by
  have : gs.find? (·.1 = x) = none := by
    rw [List.find?_eq_none]
    intro p hp
    simp only [decide_eq_true_eq]
    rintro rfl
    exact h (List.mem_map_of_mem hp)
  simp [valueIn, this]

def replacedIn (gs : List (Slot × Option Nat)) (now : Slot → Option Nat) : List Nat :=
  gs.filterMap fun (x, v) => if v = none then none else now x

theorem removeAll_append (L A B : List Nat) : (L.removeAll A).removeAll B = L.removeAll (A ++ B) := by
  simp only [List.removeAll, List.filter_filter]
  congr 1
  funext y
  by_cases h1 : y ∈ A <;> by_cases h2 : y ∈ B <;> simp [h1, h2]

theorem assignAll_ok : ∀ (gs : List (Slot × Option Nat)) {w : W} (_ : Inv w) (o : Nat), (gs.map (·.1)).Nodup →
    (gs.filterMap (·.2)).Nodup → (∀ b ∈ gs.filterMap (·.2), Owned w b) →
    ∃ w', assignAll o w gs = some w' ∧ Inv w' ∧
      (∀ o' x', w'.slots o' x' = if o' = o then (valueIn gs x').or (w.slots o x') else w.slots o' x') ∧
      w'.live = w.live.removeAll (replacedIn gs (w.slots o)) ∧ w'.length = w.length ∧
      (∀ b, Owned w b → b ∉ gs.filterMap (·.2) → Owned w' b) := by
  intro gs
  induction gs with
  | nil =>
    intro w h o _ _ _
    refine ⟨w, rfl, h, ?_, by simp [replacedIn, List.removeAll], rfl, fun b hb _ => hb⟩
    intro o' x'
    split
    · rename_i hh; simp [valueIn, hh]
    · rfl
  | cons g gs ih =>
    obtain ⟨x, v⟩ := g
    intro w h o hn hb ho
    simp only [List.map_cons, List.nodup_cons] at hn
    have hv : ∀ b, v = some b → Owned w b := by
      rintro b rfl
      exact ho b (by simp)
    obtain ⟨w1, e1, i1, s1, l1, n1, o1⟩ := assign_ok h o x v hv
    have hb' : (gs.filterMap (·.2)).Nodup := by
      cases v with
      | none => simpa using hb
      | some b => exact (List.nodup_cons.mp (by simpa using hb)).2
    have hx : ∀ b ∈ gs.filterMap (·.2), v ≠ some b := by
      rintro b hbm rfl
      simp only [List.filterMap_cons, List.nodup_cons] at hb
      exact hb.1 hbm
    obtain ⟨w2, e2, i2, s2, l2, n2, o2⟩ := ih i1 o hn.2 hb' (fun b hbm => o1 b (ho b (by
      cases v with
      | none => simpa using hbm
      | some c => simp only [List.filterMap_cons, List.mem_cons]; exact Or.inr hbm)) (hx b hbm))
    refine ⟨w2, by simp only [assignAll, e1, Option.bind_some, e2], i2, ?_, ?_, n2.trans n1, ?_⟩
    · intro o' x'
      rw [s2]
      by_cases hoo : o' = o
      · subst hoo
        simp only [if_true, valueIn_cons, s1, true_and]
        by_cases hxx : x = x'
        · subst hxx
          rw [valueIn_none hn.1]
          simp
        · simp [hxx, Ne.symm hxx]
      · simp [hoo, s1]
    · have hr : replacedIn gs (w1.slots o) = replacedIn gs (w.slots o) := by
        simp only [replacedIn]
        refine List.filterMap_congr ?_
        rintro ⟨y, u⟩ hy
        have : y ≠ x := by rintro rfl; exact hn.1 (List.mem_map_of_mem (f := (·.1)) hy)
        simp [s1, this]
      rw [l2, hr, l1]
      cases v with
      | none => simp [replacedIn]
      | some b =>
        simp only [reduceCtorEq, if_false]
        rw [removeAll_append]
        congr 1
        cases hc : w.slots o x <;> simp [replacedIn, hc]
    · intro b hb1 hb2
      refine o2 b (o1 b hb1 ?_) ?_
      · rintro rfl; exact hb2 (by simp)
      · intro hh
        refine hb2 ?_
        cases v with
        | none => simpa using hh
        | some c => simp only [List.filterMap_cons, List.mem_cons]; exact Or.inr hh

/-- The two fields of a signature may be assigned one after the other. -/
theorem sigSet_eq (w : W) (o : Nat) (r s : Nat) :
    sigSet w o (some r) (some s) = (assignAll o w [(.r, some r), (.s, some s)]).map fun w => (w, 1) := by
  simp only [sigSet, assignAll, assign]
  cases h1 : bnFree w (w.slots o .r) with
  | none => simp [h1]
  | some w1 =>
    have hs : w1.slots = w.slots := by
      unfold bnFree at h1
      split at h1
      · cases h1; rfl
      · split at h1
        · cases h1; rfl
        · cases h1
    have hst : (store w1 o .r (some r)).slots o .s = w.slots o .s := by simp [store, hs]
    have hc : ∀ a, bnFree (store w1 o .r (some r)) a = (bnFree w1 a).map fun w => store w o .r (some r) := by
      intro a
      cases a with
      | none => rfl
      | some a =>
        by_cases ha : a ∈ w1.live <;> simp [bnFree, store, ha]
    simp only [Option.isNone_some, Bool.or_self, Bool.false_eq_true, if_false, Option.bind_eq_bind, Option.bind_some, Option.map_some, hst, hs, hc, h1]
    cases bnFree w1 (w.slots o .s) <;> rfl

theorem nodup_slots (c : Call) : (c.given.map (·.1)).Nodup := by
  cases c <;> simp [Call.given]

/-- Does a needed field stay empty? -/
theorem missing_false (w : W) (o : Nat) (x : Slot) (v : Option Nat) : missing w o x v = false ↔ (w.slots o x ≠ none ∨ v ≠ none) := by
  cases h1 : w.slots o x <;> cases v <;> simp [missing, h1]

/-- The length that `DH_set0_pqg` stores. -/
def newLength (bits : Nat → Int) (c : Call) (old : Int) : Int :=
  match c with
  | .dhPqg _ (some q) _ => bits q
  | _ => old

end CryptoCompat

/-- C149. Setting fields of a key or signature with numbers that are the caller's (allocated, distinct, in no field): the call succeeds exactly when every
field that must have a value has or gets one, and otherwise changes nothing, so the numbers stay the caller's. On success exactly the fields given
hold the new numbers, every other field of every object is as before, exactly the numbers replaced are freed, each once, and no number is in
two fields; the caller's other numbers stay theirs. -/
theorem C149_set (bits : Nat → Int) (w : W) (h : Inv w) (o : Nat) (c : Call) (hn : c.numbers.Nodup) (ho : ∀ b ∈ c.numbers, Owned w b) :
    (¬ c.accepted (w.slots o) → callOn bits w o c = some (w, 0)) ∧
    (c.accepted (w.slots o) → ∃ w', callOn bits w o c = some (w', 1) ∧ Inv w' ∧
      (∀ o' x, w'.slots o' x = if o' = o then c.fields (w.slots o) x else w.slots o' x) ∧
      w'.live = w.live.removeAll (c.replaced (w.slots o)) ∧
      (∀ o', w'.length o' = if o' = o then newLength bits c (w.length o) else w.length o') ∧
      (∀ b, Owned w b → b ∉ c.numbers → Owned w' b)) := by
  obtain ⟨w', e, i, s, l, n, own⟩ := assignAll_ok c.given h o (nodup_slots c) hn ho
  have fin : callOn bits w o c = some (w', 1) → newLength bits c = id →
      ∃ w', callOn bits w o c = some (w', 1) ∧ Inv w' ∧
      (∀ o' x, w'.slots o' x = if o' = o then c.fields (w.slots o) x else w.slots o' x) ∧
      w'.live = w.live.removeAll (c.replaced (w.slots o)) ∧
      (∀ o', w'.length o' = if o' = o then newLength bits c (w.length o) else w.length o') ∧
      (∀ b, Owned w b → b ∉ c.numbers → Owned w' b) := by
    intro e hl
    refine ⟨w', e, i, s, l, ?_, own⟩
    intro o'
    rw [n, hl]
    split
    · rename_i hh; rw [hh]; rfl
    · rfl
  cases c with
  | rsaKey a b d =>
    have hacc : (missing w o .n a || missing w o .e b) = false ↔ (Call.rsaKey a b d).accepted (w.slots o) := by
      simp only [Bool.or_eq_false_iff, missing_false, Call.accepted, Call.needed, Call.value, Call.given]
      simp [Option.join, and_assoc]
    refine ⟨fun hna => ?_, fun ha => fin ?_ rfl⟩
    · have := (Bool.not_eq_false _).mp fun hh => hna (hacc.mp hh)
      simp [callOn, rsaSetKey, this]
    · simp only [callOn, rsaSetKey, hacc.mpr ha]
      simp only [assignAll, Call.given, Option.bind_eq_some_iff] at e
      obtain ⟨w1, e1, w2, e2, w3, e3, e9⟩ := e
      cases e9
      simp [e1, e2, e3]
  | rsaFactors a b =>
    have hacc : (missing w o .p a || missing w o .q b) = false ↔ (Call.rsaFactors a b).accepted (w.slots o) := by
      simp only [Bool.or_eq_false_iff, missing_false, Call.accepted, Call.needed, Call.value, Call.given]
      simp [Option.join, and_assoc]
    refine ⟨fun hna => ?_, fun ha => fin ?_ rfl⟩
    · have := (Bool.not_eq_false _).mp fun hh => hna (hacc.mp hh)
      simp [callOn, rsaSetFactors, this]
    · simp only [callOn, rsaSetFactors, hacc.mpr ha]
      simp only [assignAll, Call.given, Option.bind_eq_some_iff] at e
      obtain ⟨w1, e1, w2, e2, e9⟩ := e
      cases e9
      simp [e1, e2]
  | rsaCrt a b d =>
    have hacc : (missing w o .dmp1 a || missing w o .dmq1 b || missing w o .iqmp d) = false ↔ (Call.rsaCrt a b d).accepted (w.slots o) := by
      simp only [Bool.or_eq_false_iff, missing_false, Call.accepted, Call.needed, Call.value, Call.given]
      simp [Option.join, and_assoc]
    refine ⟨fun hna => ?_, fun ha => fin ?_ rfl⟩
    · have := (Bool.not_eq_false _).mp fun hh => hna (hacc.mp hh)
      simp [callOn, rsaSetCrt, this]
    · simp only [callOn, rsaSetCrt, hacc.mpr ha]
      simp only [assignAll, Call.given, Option.bind_eq_some_iff] at e
      obtain ⟨w1, e1, w2, e2, w3, e3, e9⟩ := e
      cases e9
      simp [e1, e2, e3]
  | dsaPqg a b d =>
    have hacc : (missing w o .p a || missing w o .q b || missing w o .g d) = false ↔ (Call.dsaPqg a b d).accepted (w.slots o) := by
      simp only [Bool.or_eq_false_iff, missing_false, Call.accepted, Call.needed, Call.value, Call.given]
      simp [Option.join, and_assoc]
    refine ⟨fun hna => ?_, fun ha => fin ?_ rfl⟩
    · have := (Bool.not_eq_false _).mp fun hh => hna (hacc.mp hh)
      simp [callOn, dsaSetPqg, this]
    · simp only [callOn, dsaSetPqg, hacc.mpr ha]
      simp only [assignAll, Call.given, Option.bind_eq_some_iff] at e
      obtain ⟨w1, e1, w2, e2, w3, e3, e9⟩ := e
      cases e9
      simp [e1, e2, e3]
  | key a b =>
    have hacc : (missing w o .pub_key a) = false ↔ (Call.key a b).accepted (w.slots o) := by
      simp only [Bool.or_eq_false_iff, missing_false, Call.accepted, Call.needed, Call.value, Call.given]
      simp [Option.join, and_assoc]
    refine ⟨fun hna => ?_, fun ha => fin ?_ rfl⟩
    · have := (Bool.not_eq_false _).mp fun hh => hna (hacc.mp hh)
      simp [callOn, setKey, this]
    · simp only [callOn, setKey, hacc.mpr ha]
      simp only [assignAll, Call.given, Option.bind_eq_some_iff] at e
      obtain ⟨w1, e1, w2, e2, e9⟩ := e
      cases e9
      simp [e1, e2]
  | sig a b =>
    cases a with
    | none => exact ⟨fun _ => by simp [callOn, sigSet], fun ha => absurd rfl ha.1⟩
    | some a =>
      cases b with
      | none => exact ⟨fun _ => by simp [callOn, sigSet], fun ha => absurd rfl ha.2⟩
      | some b =>
        refine ⟨fun hna => absurd ⟨by simp, by simp⟩ hna, fun ha => fin ?_ rfl⟩
        simp only [Call.given] at e
        simp only [callOn, sigSet_eq, e, Option.map_some]
  | dhPqg a b d =>
    have hacc : (missing w o .p a || missing w o .g d) = false ↔ (Call.dhPqg a b d).accepted (w.slots o) := by
      simp only [Bool.or_eq_false_iff, missing_false, Call.accepted, Call.needed, Call.value, Call.given]
      simp [Option.join, and_assoc]
    refine ⟨fun hna => ?_, fun ha => ?_⟩
    · have := (Bool.not_eq_false _).mp fun hh => hna (hacc.mp hh)
      simp [callOn, dhSetPqg, this]
    · simp only [assignAll, Call.given, Option.bind_eq_some_iff] at e
      obtain ⟨w1, e1, w2, e2, w3, e3, e9⟩ := e
      cases e9
      cases b with
      | none => exact fin (by simp [callOn, dhSetPqg, hacc.mpr ha, e1, e2, e3]) rfl
      | some q =>
        refine ⟨{ w' with length := fun o' => if o' = o then bits q else w'.length o' }, by simp [callOn, dhSetPqg, hacc.mpr ha, e1, e2, e3], ⟨i.nodup, i.live, i.own⟩, s, l, ?_, fun b h1 h2 => own b h1 h2⟩
        intro o'
        simp only [n, newLength]

/-- Two objects: an RSA key that gets n and e, then another n. -/
example : Inv ⟨[3, 2, 1], fun o x => if o = 0 ∧ x = .n then some 1 else if o = 0 ∧ x = .e then some 2 else none, fun _ => 0⟩ ∧
    (Call.rsaKey (some 3) none none).accepted (fun x => if x = .n then some 1 else if x = .e then some 2 else none) ∧
    Owned ⟨[3, 2, 1], fun o x => if o = 0 ∧ x = .n then some 1 else if o = 0 ∧ x = .e then some 2 else none, fun _ => 0⟩ 3 := by
  refine ⟨⟨by decide, ?_, ?_⟩, ?_, ?_, ?_⟩
  · intro o x b h
    simp only at h
    split at h
    · cases h; decide
    · split at h
      · cases h; decide
      · cases h
  · intro o x o' x' b h h'
    simp only at h h'
    split at h <;> split at h'
    · rename_i g1 g2; exact ⟨g1.1.trans g2.1.symm, g1.2.trans g2.2.symm⟩
    · cases h; split at h' <;> cases h'
    · cases h'; split at h <;> cases h
    · split at h <;> split at h' <;> simp_all
  · simp [Call.accepted, Call.needed]
  · decide
  · intro o x h
    simp only at h
    split at h
    · cases h
    · split at h <;> cases h

/-- C149. The get functions hand out exactly what is in the fields, to those who ask. -/
theorem C149_get (bits : Nat → Int) (w : W) (h : Inv w) (o : Nat) (c : Call) (hn : c.numbers.Nodup) (ho : ∀ b ∈ c.numbers, Owned w b)
    (ha : c.accepted (w.slots o)) (x : Slot) (b : Nat) (hx : (x, some b) ∈ c.given) :
    ∃ w', callOn bits w o c = some (w', 1) ∧ get w' o x true = some (some b) ∧ get w' o x false = none := by
  obtain ⟨w', e, -, s, -, -, -⟩ := (C149_set bits w h o c hn ho).2 ha
  refine ⟨w', e, ?_, rfl⟩
  simp only [CryptoCompat.get, if_true, s, Call.fields]
  have : c.value x = some b := by
    have hd := nodup_slots c
    have hf : c.given.find? (·.1 = x) = some (x, some b) := by
      have : ∀ l : List (Slot × Option Nat), (l.map (·.1)).Nodup → (x, some b) ∈ l → l.find? (·.1 = x) = some (x, some b) := by
        intro l
        induction l with
        | nil => intro _ h; cases h
        | cons y l ih =>
          intro hl hm
          simp only [List.map_cons, List.nodup_cons] at hl
          rcases List.mem_cons.mp hm with rfl | hm
          · simp [List.find?_cons]
          · have hy : y.1 ≠ x := by rintro rfl; exact hl.1 (List.mem_map_of_mem (f := (·.1)) hm)
            simp [List.find?_cons, hy, ih hl.2 hm]
      exact this _ hd hx
    simp [Call.value, hf]
  simp [this]

/-- Finding: handing back the number a field already holds frees it and leaves it in the field: `Inv` is lost (the next call frees it again). -/
theorem C149_same_number_negated :
    ∃ w w' : W, callOn (fun _ => 0) w 0 (.key (some 1) none) = some (w', 1) ∧ Inv w ∧ w'.live = [] ∧ w'.slots 0 .pub_key = some 1 ∧
      callOn (fun _ => 0) w' 0 (.key (some 2) none) = none := by
  refine ⟨⟨[1], fun o x => if o = 0 ∧ x = .pub_key then some 1 else none, fun _ => 0⟩, _, rfl, ⟨by decide, ?_, ?_⟩, rfl, rfl, rfl⟩
  · intro o x b h
    simp only at h
    split at h
    · cases h; decide
    · cases h
  · intro o x o' x' b h h'
    simp only at h h'
    split at h <;> split at h'
    · rename_i g1 g2; exact ⟨g1.1.trans g2.1.symm, g1.2.trans g2.2.symm⟩
    all_goals simp_all

/-! ## Methods -/

namespace CryptoCompat
open PcreJob (H)

/-- A call on the methods held (newest first). -/
inductive MOp where
  | dup
  | setName (i : Nat)
  | free (i : Nat)

def mstep (h : H) (held : List Meth) : MOp → Option (H × List Meth)
  | .dup => do
    let (h, m) ← methDup h
    some (h, m.toList ++ held)
  | .setName i =>
    match held[i]? with
    | none => some (h, held)
    | some m => do
      let (h, m, _) ← methSetName h m
      some (h, held.set i m)
  | .free i =>
    match held[i]? with
    | none => some (h, held)
    | some m => do
      let h ← methFree h m
      some (h, held.eraseIdx i)

def mrun : H → List Meth → List MOp → Option (H × List Meth)
  | h, held, [] => some (h, held)
  | h, held, o :: os => do
    let (h, held) ← mstep h held o
    mrun h held os

def Meth.blocks (m : Meth) : List Nat := [m.self, m.name]

theorem free_perm {h : H} {p : Nat} {rest : List Nat} (hp : h.live.Perm (p :: rest)) :
    ∃ l, PcreJob.free h p = some { h with live := l } ∧ l.Perm rest := by
  refine ⟨h.live.erase p, ?_, ?_⟩
  · have : p ∈ h.live := hp.mem_iff.mpr List.mem_cons_self
    simp [PcreJob.free, this]
  · have := hp.erase p
    rwa [List.erase_cons_head] at this

theorem malloc_cases (h : H) : (∃ pl, PcreJob.malloc h = ({ h with plan := pl }, none)) ∨
    (∃ pl, PcreJob.malloc h = ({ live := h.next :: h.live, next := h.next + 1, plan := pl }, some h.next)) := by
  unfold PcreJob.malloc
  split
  · exact Or.inl ⟨_, rfl⟩
  · exact Or.inr ⟨_, rfl⟩

theorem perm_flat : ∀ (held : List Meth) (i : Nat) (m : Meth), held[i]? = some m →
    (held.flatMap Meth.blocks).Perm (m.blocks ++ (held.eraseIdx i).flatMap Meth.blocks) ∧
    ∀ m', ((held.set i m').flatMap Meth.blocks).Perm (m'.blocks ++ (held.eraseIdx i).flatMap Meth.blocks) := by
  intro held
  induction held with
  | nil => intro i c h; simp at h
  | cons x held ih =>
    intro i c h
    cases i with
    | zero => simp at h; subst h; simp
    | succ i =>
      simp only [List.getElem?_cons_succ] at h
      obtain ⟨h1, h2⟩ := ih i c h
      have key : ∀ A B : List Nat, (x.blocks ++ (A ++ B)).Perm (A ++ (x.blocks ++ B)) := by
        intro A B
        rw [← List.append_assoc, ← List.append_assoc]
        exact List.Perm.append_right _ List.perm_append_comm
      simp only [List.flatMap_cons, List.eraseIdx_cons_succ, List.set_cons_succ]
      exact ⟨(List.Perm.append_left _ h1).trans (key _ _), fun m' => (List.Perm.append_left _ (h2 m')).trans (key _ _)⟩

theorem mstep_ok (h : H) (held : List Meth) (hp : h.live.Perm (held.flatMap Meth.blocks)) (o : MOp) :
    ∃ h' held', mstep h held o = some (h', held') ∧ h'.live.Perm (held'.flatMap Meth.blocks) := by
  cases o with
  | dup =>
    simp only [mstep, methDup]
    rcases malloc_cases h with ⟨pl, e⟩ | ⟨pl, e⟩
    · exact ⟨{ h with plan := pl }, held, by simp [e], hp⟩
    · rcases malloc_cases { live := h.next :: h.live, next := h.next + 1, plan := pl } with ⟨pl2, e2⟩ | ⟨pl2, e2⟩
      · obtain ⟨l, e3, q3⟩ := free_perm (h := { live := h.next :: h.live, next := h.next + 1, plan := pl2 }) (p := h.next) (List.Perm.refl _)
        exact ⟨_, held, by simp [e, e2, e3]; rfl, q3.trans hp⟩
      · refine ⟨_, ⟨h.next, h.next + 1⟩ :: held, by simp [e, e2]; rfl, ?_⟩
        simp only [List.flatMap_cons, Meth.blocks, List.cons_append, List.nil_append]
        exact ((hp.cons _).cons _).trans (List.Perm.swap _ _ _)
  | setName i =>
    simp only [mstep]
    cases hi : held[i]? with
    | none => exact ⟨h, held, rfl, hp⟩
    | some m =>
      obtain ⟨p1, p2⟩ := perm_flat held i m hi
      simp only [methSetName]
      rcases malloc_cases h with ⟨pl, e⟩ | ⟨pl, e⟩
      · exact ⟨{ h with plan := pl }, held.set i m, by simp [e], hp.trans (p1.trans (p2 m).symm)⟩
      · obtain ⟨l, e3, q3⟩ := free_perm (h := { live := h.next :: h.live, next := h.next + 1, plan := pl }) (p := m.name)
          (rest := h.next :: m.self :: (held.eraseIdx i).flatMap Meth.blocks) (by
            refine List.perm_iff_count.mpr fun x => ?_
            have := (hp.trans p1).count_eq x
            simp only [Meth.blocks, List.count_cons, List.count_append, List.count_nil, List.cons_append, List.nil_append] at this ⊢
            omega)
        refine ⟨_, held.set i { m with name := h.next }, by simp [e, e3]; rfl, q3.trans (((List.Perm.swap _ _ _)).trans (p2 { m with name := h.next }).symm)⟩
  | free i =>
    simp only [mstep]
    cases hi : held[i]? with
    | none => exact ⟨h, held, rfl, hp⟩
    | some m =>
      obtain ⟨p1, p2⟩ := perm_flat held i m hi
      obtain ⟨l, e3, q3⟩ := free_perm (h := h) (p := m.name) (rest := m.self :: (held.eraseIdx i).flatMap Meth.blocks)
        ((hp.trans p1).trans (List.Perm.swap _ _ _))
      obtain ⟨l2, e4, q4⟩ := free_perm (h := { h with live := l }) (p := m.self) q3
      exact ⟨_, held.eraseIdx i, by simp [methFree, e3, e4]; rfl, q4⟩

end CryptoCompat

/-- C149. For every history of duplicating, renaming and freeing methods, whichever allocations fail: nothing is freed twice, and the memory in use is
exactly that of the methods held. -/
theorem C149_methods (plan : List Bool) (ops : List MOp) :
    ∃ h held, mrun ⟨[], 0, plan⟩ [] ops = some (h, held) ∧ h.live.Perm (held.flatMap Meth.blocks) := by
  have : ∀ (ops : List MOp) (h : PcreJob.H) (held : List Meth), h.live.Perm (held.flatMap Meth.blocks) →
      ∃ h' held', mrun h held ops = some (h', held') ∧ h'.live.Perm (held'.flatMap Meth.blocks) := by
    intro ops
    induction ops with
    | nil => intro h held hp; exact ⟨h, held, rfl, hp⟩
    | cons o ops ih =>
      intro h held hp
      obtain ⟨h1, held1, e1, q1⟩ := mstep_ok h held hp o
      obtain ⟨h2, held2, e2, q2⟩ := ih h1 held1 q1
      exact ⟨h2, held2, by simp [mrun, e1, e2], q2⟩
  exact this ops _ _ (by simp)

example : (mrun ⟨[], 0, [true, false, true, true, true, false]⟩ [] [.dup, .dup, .setName 0, .setName 0]).map (fun r => (r.1.live, r.2.length)) = some ([3, 1], 1) := by
  decide +kernel

theorem CryptoCompat.erase_new (a b : Nat) (l : List Nat) (h : b ∈ l) : ((a :: l).erase b).Perm (a :: l.erase b) := by
  by_cases e : a = b
  · subst e; rw [List.erase_cons_head]; exact List.perm_cons_erase h
  · rw [List.erase_cons_tail (by simpa using e)]

/-- C149. Renaming a method answers 0 exactly when the memory for the name is refused, and the method and the memory in use are then as before; otherwise
it answers 1, the method's name is a new block, and the block of the old name has been given back. -/
theorem C149_rename_answer (h : PcreJob.H) (m : Meth) (hn : m.name ∈ h.live) :
    ∃ h' m' r, methSetName h m = some (h', m', r) ∧
      (h.plan.head? = some false → r = 0 ∧ m' = m ∧ h'.live = h.live) ∧
      (h.plan.head? ≠ some false → r = 1 ∧ m' = ⟨m.self, h.next⟩ ∧ h'.live.Perm (h.next :: h.live.erase m.name)) := by
  unfold methSetName PcreJob.malloc
  cases hp : h.plan with
  | nil => 
    refine ⟨{ h with live := (h.next :: h.live).erase m.name, next := h.next + 1, plan := [] }, ⟨m.self, h.next⟩, 1, by simp [PcreJob.free, hn], by simp, ?_⟩
    intro _
    exact ⟨rfl, rfl, CryptoCompat.erase_new _ _ _ hn⟩
  | cons b l =>
    cases b with
    | false => exact ⟨{ h with plan := l }, m, 0, by simp, by simp, by simp⟩
    | true =>
      refine ⟨{ h with live := (h.next :: h.live).erase m.name, next := h.next + 1, plan := l }, ⟨m.self, h.next⟩, 1, by simp [PcreJob.free, hn], by simp, ?_⟩
      intro _
      exact ⟨rfl, rfl, CryptoCompat.erase_new _ _ _ hn⟩

example : (methSetName ⟨[1, 0], 2, [false]⟩ ⟨0, 1⟩).map (·.2.2) = some 0 ∧ (methSetName ⟨[1, 0], 2, [true]⟩ ⟨0, 1⟩).map (fun r => (r.1.live, r.2.2)) = some ([2, 0], 1) := by
  decide +kernel
