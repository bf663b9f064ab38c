import Verif.Lemmas.SeqSort
/-! # Sorting and mapping: the sort looks at items through the comparison only -/
namespace Seqn
open CMem

variable {P Q : Type} (f : P → Q) {cp : Cmp P} {cq : Cmp Q}

theorem get_map (m : List (Option P)) (i : Nat) : CMem.get (m.map (Option.map f)) i = (CMem.get m i).map f := by
  simp only [CMem.get, List.getElem?_map]
  cases m[i]? <;> rfl

theorem write_map (m : List (Option P)) (i : Nat) (v : P) : CMem.write (m.map (Option.map f)) i (some (f v)) = (CMem.write m i (some v)).map (List.map (Option.map f)) := by
  unfold write
  by_cases h : i < m.length <;> simp [h, List.map_set]

theorem swap_map (m : List (Option P)) (l r : Nat) : swap (m.map (Option.map f)) l r = (swap m l r).map (List.map (Option.map f)) := by
  simp only [swap, get_map, Option.bind_eq_bind]
  cases CMem.get m l with
  | none => rfl
  | some t =>
    cases CMem.get m r with
    | none => rfl
    | some u =>
      simp only [Option.map_some, Option.bind_some, write_map]
      cases CMem.write m l (some u) with
      | none => rfl
      | some m' => simp only [Option.map_some, Option.bind_some, write_map]

theorem scanUp_map (hc : ∀ a b, cp a b = cq (f a) (f b)) (m : List (Option P)) (p : P) : ∀ (n l : Nat), scanUp cq (m.map (Option.map f)) (f p) n l = scanUp cp m p n l := by
  intro n
  induction n with
  | zero => intro l; rfl
  | succ n ih =>
    intro l
    simp only [scanUp, get_map, Option.bind_eq_bind]
    cases CMem.get m l with
    | none => rfl
    | some x => simp only [Option.map_some, Option.bind_some, ← hc, ih]

theorem scanDown_map (hc : ∀ a b, cp a b = cq (f a) (f b)) (m : List (Option P)) (p : P) : ∀ (n r : Nat), scanDown cq (m.map (Option.map f)) (f p) n r = scanDown cp m p n r := by
  intro n
  induction n with
  | zero => intro r; rfl
  | succ n ih =>
    intro r
    cases r with
    | zero => rfl
    | succ r =>
      simp only [scanDown, get_map, Option.bind_eq_bind]
      cases CMem.get m r with
      | none => rfl
      | some x => simp only [Option.map_some, Option.bind_some, ← hc, ih]

theorem partition_map (hc : ∀ a b, cp a b = cq (f a) (f b)) (p : P) : ∀ (n : Nat) (m : List (Option P)) (l r : Nat),
    partition cq (f p) n (m.map (Option.map f)) l r = (partition cp p n m l r).map fun x => (x.1.map (Option.map f), x.2) := by
  intro n
  induction n with
  | zero => intro m l r; rfl
  | succ n ih =>
    intro m l r
    simp only [partition, List.length_map, scanUp_map f hc, scanDown_map f hc]
    split
    · simp only [Option.bind_eq_bind]
      cases scanUp cp m p (m.length + 1) l with
      | none => rfl
      | some l1 =>
        simp only [Option.bind_some]
        cases scanDown cp m p (m.length + 1) r with
        | none => rfl
        | some r1 =>
          simp only [Option.bind_some]
          split
          · rw [swap_map]
            cases swap m l1 (r1 - 1) with
            | none => rfl
            | some m' => simp only [Option.map_some, Option.bind_some, ih]
          · exact ih m l1 r1
    · rfl

theorem quickSort_map (hc : ∀ a b, cp a b = cq (f a) (f b)) : ∀ (n : Nat) (m : List (Option P)) (off k : Nat),
    quickSort cq n (m.map (Option.map f)) off k = (quickSort cp n m off k).map (List.map (Option.map f)) := by
  intro n
  induction n with
  | zero => intro m off k; rfl
  | succ n ih =>
    intro m off k
    simp only [quickSort]
    split
    · rfl
    · simp only [Option.bind_eq_bind, get_map]
      cases CMem.get m (off + k / 2) with
      | none => rfl
      | some p =>
        simp only [Option.map_some, Option.bind_some, partition_map f hc]
        cases partition cp p (k + 2) m off (off + k) with
        | none => rfl
        | some x =>
          simp only [Option.map_some, Option.bind_some, ih]
          cases quickSort cp n x.1 off (x.2.2 - off) with
          | none => rfl
          | some m' => simp only [Option.map_some, Option.bind_some, ih]

/-- The items of a sequence that holds exactly these, sorted. -/
def sorted {P : Type} (c : Cmp P) (l : List P) : Option (List P) :=
  (sort c { hasDestroy := true, data := l.map some ++ [none], length := l.length, capacity := l.length + 1 }).bind fun s => CMem.getRange s.data 0 s.length

theorem getRange_map (m : List (Option P)) : ∀ (n i : Nat), CMem.getRange (m.map (Option.map f)) i n = (CMem.getRange m i n).map (List.map f) := by
  intro n
  induction n with
  | zero => intro i; rfl
  | succ n ih =>
    intro i
    simp only [CMem.getRange, get_map, Option.bind_eq_bind]
    cases CMem.get m i with
    | none => rfl
    | some x =>
      simp only [Option.map_some, Option.bind_some, ih]
      cases CMem.getRange m (i + 1) n <;> rfl

theorem sorted_map (hc : ∀ a b, cp a b = cq (f a) (f b)) (l : List P) : sorted cq (l.map f) = (sorted cp l).map (List.map f) := by
  have e : (l.map f).map some ++ [none] = (l.map some ++ [none]).map (Option.map f) := by simp
  simp only [sorted, sort, Option.bind_eq_bind, e, List.length_map, quickSort_map f hc]
  cases quickSort cp (l.length + 1) (l.map some ++ [none]) 0 l.length with
  | none => rfl
  | some m => simp only [Option.map_some, Option.bind_some, getRange_map]

theorem sorted_spec {c : Cmp P} (hc : SeqSpec.TotalPreorder c) (l : List P) : ∃ l', sorted c l = some l' ∧ l'.Perm l ∧ SeqSpec.Sorted c l' := by
  have h : Has { hasDestroy := true, data := l.map some ++ [none], length := l.length, capacity := l.length + 1 } l := Rep.has (rest := [none]) ⟨rfl, rfl, by simp, by simp, rfl⟩
  obtain ⟨s', l', e, hs, hp, ho, _⟩ := sort_spec hc h
  refine ⟨l', ?_, hp, ho⟩
  have hl : s'.length = l'.length := hs.2.1
  rw [sorted, e, Option.bind_some, hl, getRange_mid hs 0 l'.length (by omega)]
  simp

end Seqn
