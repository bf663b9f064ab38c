import Verif.Lemmas.Map
import Verif.Spec.Set
import Verif.Props.Map
/-! # C09, C56: set.c -/
open CMap MapSpec

namespace CMap
/-- Set histories are map histories. -/
def toMapOp {K : Type} : SetSpec.Op K → Op K K
  | .add x => .insert x x
  | .remove x => .remove x
  | .clear => .clear

theorem set_run_eq {K : Type} (f : Fns K) (h : List (SetSpec.Op K)) :
    SetSpec.runImpl f h = (MapSpec.runImpl f (h.map toMapOp)).map (·.1) := by
  induction h with
  | nil => rfl
  | cons op h ih =>
    simp only [SetSpec.runImpl, List.map_cons, MapSpec.runImpl, ih]
    cases MapSpec.runImpl f (h.map toMapOp) with
    | none => rfl
    | some r =>
      cases op with
      | add x =>
        simp only [toMapOp, stepImpl, setAdd, Option.map_some, Option.bind_eq_bind, Option.bind_some]
        cases mapInsert f r.1 x x <;> rfl
      | remove x =>
        simp only [toMapOp, stepImpl, Option.map_some, Option.bind_eq_bind, Option.bind_some]
        cases mapRemove f r.1 x <;> rfl
      | clear =>
        simp only [toMapOp, stepImpl, Option.map_some, Option.bind_eq_bind, Option.bind_some]
        cases mapClear r.1 <;> rfl

theorem mem_eq {K : Type} (f : Fns K) (h : List (SetSpec.Op K)) (x : K) :
    SetSpec.mem f.eq h x = (lookup f.eq (h.map toMapOp) x).isSome := by
  induction h with
  | nil => rfl
  | cons op h ih =>
    cases op with
    | add y => simp only [SetSpec.mem, List.map_cons, toMapOp, lookup, ih]; split <;> simp_all
    | remove y => simp only [SetSpec.mem, List.map_cons, toMapOp, lookup, ih]; split <;> simp_all
    | clear => rfl

theorem set_run_spec {K : Type} {f : Fns K} (hf : Lawful f) (h : List (SetSpec.Op K)) :
    ∃ m d l, SetSpec.runImpl f h = some m ∧ Hist f (h.map toMapOp) m d l := by
  obtain ⟨m, d, l, e, H⟩ := CMap.run_spec hf (h.map toMapOp)
  exact ⟨m, d, l, by rw [set_run_eq, e]; rfl, H⟩

theorem joinLoop_spec {K : Type} {f : Fns K} (hf : Lawful f) (copy : K → K) (xs : List K) :
    ∀ {h : List (SetSpec.Op K)} {m : Map K K} {d : Destroyed K K} {l : List (K × K)}, Hist f (h.map toMapOp) m d l →
      ∃ m' d' l', joinLoop f copy m xs = some (m', d') ∧
        Hist f (((xs.map (fun x => SetSpec.Op.add (copy x))).reverse ++ h).map toMapOp) m' (d.append d') l' := by
  induction xs with
  | nil => intro h m d l H; exact ⟨m, {}, l, rfl, by simpa [Destroyed.append] using H⟩
  | cons x xs ih =>
    intro h m d l H
    obtain ⟨m1, d1, l1, e1, H1, -⟩ := step_spec hf H (toMapOp (.add (copy x)))
    obtain ⟨m2, d2, l2, e2, H2⟩ := ih (h := .add (copy x) :: h) H1
    refine ⟨m2, d1.append d2, l2, ?_, ?_⟩
    · simp only [toMapOp, stepImpl] at e1
      simp [joinLoop, setAdd, e1, e2]
    · simpa [Destroyed.append, List.append_assoc] using H2

theorem mem_adds {K : Type} (eq : K → K → Bool) (xs : List K) (h : List (SetSpec.Op K)) (x : K) :
    SetSpec.mem eq (xs.map SetSpec.Op.add ++ h) x = (xs.any (fun y => eq y x) || SetSpec.mem eq h x) := by
  induction xs with
  | nil => rfl
  | cons y xs ih => simp [SetSpec.mem, ih, Bool.or_assoc]

theorem any_keys {K V : Type} {f : Fns K} (l : List (K × V)) (x : K) :
    (l.map (·.1)).any (fun y => f.eq y x) = (l.find? (hit f x)).isSome := by
  induction l with
  | nil => rfl
  | cons p l ih =>
    by_cases h : hit f x p = true
    · rw [List.find?_cons_of_pos h]; simp only [hit] at h; simp [h]
    · rw [List.find?_cons_of_neg h, ← ih]; simp only [hit] at h; simp [h]
end CMap

/-- **C09**. For any histories `h1`, `h2` of two sets with the same lawful callbacks: no undefined behaviour; `SetContains`
is membership; `SetRemove` reports membership; the iterator lists each member class exactly once and `SetSize` counts them;
`SetIsEqual` is extensional equality; `SetJoin` makes the first set the union (for a copy function that maps each element to
an equal one) and leaves the second unchanged. -/
theorem C09_set_is_a_set {K : Type} (f : Fns K) (hf : Lawful f) (h1 h2 : List (SetSpec.Op K)) (copy : K → K)
    (hcopy : ∀ x, f.eq (copy x) x = true) :
    ∃ s1 s2 xs, SetSpec.runImpl f h1 = some s1 ∧ SetSpec.runImpl f h2 = some s2 ∧
      (∀ x, mapHasKey f s1 x = some (SetSpec.mem f.eq h1 x)) ∧
      (∀ x, ∃ s' d, mapRemove f s1 x = some (s', SetSpec.mem f.eq h1 x, d)) ∧
      setElements s1 = some xs ∧ mapSize s1 = some xs.length ∧
      xs.Pairwise (fun a b => f.eq a b = false) ∧ (∀ x, SetSpec.mem f.eq h1 x = true ↔ ∃ y ∈ xs, f.eq y x = true) ∧
      (∃ b, setIsEqual f s1 s2 = some b ∧ (b = true ↔ ∀ x, SetSpec.mem f.eq h1 x = SetSpec.mem f.eq h2 x)) ∧
      (∃ s d, setJoin f copy s1 s2 = some (s, d) ∧
        ∀ x, mapHasKey f s x = some (SetSpec.mem f.eq h1 x || SetSpec.mem f.eq h2 x)) := by
  obtain ⟨s1, d1, l1, e1, H1⟩ := set_run_spec hf h1
  obtain ⟨s2, d2, l2, e2, H2⟩ := set_run_spec hf h2
  have k1 : ∀ x, (l1.find? (hit f x)).isSome = SetSpec.mem f.eq h1 x := fun x => by rw [H1.look, mem_eq]
  have k2 : ∀ x, (l2.find? (hit f x)).isSome = SetSpec.mem f.eq h2 x := fun x => by rw [H2.look, mem_eq]
  refine ⟨s1, s2, l1.map (·.1), e1, e2, ?_, ?_, ?_, ?_, ?_, ?_, ?_, ?_⟩
  · intro x; simp [mapHasKey, mapGetRaw_spec hf H1.inv, k1]
  · intro x
    obtain ⟨m', l', e, -⟩ := mapRemove_spec hf H1.inv x
    rw [k1] at e; exact ⟨m', _, e⟩
  · simp [setElements, mapIterate_spec H1.inv]
  · simp [mapSize_spec H1.inv]
  · rw [List.pairwise_map]; exact H1.inv.nodup
  · intro x; rw [← k1, ← any_keys, List.any_eq_true]
  · classical
    refine ⟨_, ?_, Iff.rfl.trans (b := decide (∀ x, SetSpec.mem f.eq h1 x = SetSpec.mem f.eq h2 x) = true) (by simp)⟩
    simp only [setIsEqual, mapContainsSameKeys, mapIterate_spec H1.inv, Option.bind_eq_bind, Option.bind_some,
      sameKeysLoop_spec hf H2.inv, mapSize_spec H2.inv]
    by_cases hall : l1.all (fun p => (l2.find? (hit f p.1)).isSome) = true
    · rw [if_pos hall]
      simp only [Nat.zero_add]
      have hall' := List.all_eq_true.mp hall
      obtain ⟨p1, p2⟩ := pigeon hf l1 l2 H1.inv.nodup H2.inv.nodup hall'
      congr 1
      rw [Bool.eq_iff_iff]
      simp only [beq_iff_eq, decide_eq_true_eq]
      constructor
      · intro hlen x
        rw [Bool.eq_iff_iff, ← k1, ← k2]
        constructor
        · intro hx
          obtain ⟨p, hp⟩ := Option.isSome_iff_exists.mp hx
          have h3 := hall' p (List.mem_of_find?_eq_some hp)
          obtain ⟨q, hq⟩ := Option.isSome_iff_exists.mp h3
          have hpx : f.eq p.1 x = true := List.find?_some (p := hit f x) hp
          have hqp : f.eq q.1 p.1 = true := List.find?_some (p := hit f p.1) hq
          rw [List.find?_isSome]
          exact ⟨q, List.mem_of_find?_eq_some hq, hf.trans _ _ _ hqp hpx⟩
        · intro hx
          obtain ⟨p, hp⟩ := Option.isSome_iff_exists.mp hx
          have h3 := p2 hlen p (List.mem_of_find?_eq_some hp)
          obtain ⟨q, hq⟩ := Option.isSome_iff_exists.mp h3
          have hpx : f.eq p.1 x = true := List.find?_some (p := hit f x) hp
          have hqp : f.eq q.1 p.1 = true := List.find?_some (p := hit f p.1) hq
          rw [List.find?_isSome]
          exact ⟨q, List.mem_of_find?_eq_some hq, hf.trans _ _ _ hqp hpx⟩
      · intro hx
        have := pigeon hf l2 l1 H2.inv.nodup H1.inv.nodup (by
          intro q hq
          rw [k1, hx, ← k2, List.find?_isSome]; exact ⟨q, hq, hf.refl _⟩)
        omega
    · rw [if_neg hall]
      symm
      refine congrArg some ?_
      rw [decide_eq_false_iff_not]
      intro hx; apply hall
      rw [List.all_eq_true]
      intro p hp
      rw [k2, ← hx, ← k1, List.find?_isSome]; exact ⟨p, hp, hf.refl _⟩
  · obtain ⟨s, d, l, e, H⟩ := joinLoop_spec hf copy (l2.map (·.1)) H1
    refine ⟨s, d, by simp [setJoin, setElements, mapIterate_spec H2.inv, e], ?_⟩
    intro x
    simp only [mapHasKey, mapGetRaw_spec hf H.inv, Option.bind_eq_bind, Option.bind_some, H.look]
    rw [← mem_eq]
    congr 1
    rw [show (List.map (fun x => SetSpec.Op.add (copy x)) (List.map (fun x => x.fst) l2)).reverse =
      ((l2.map (·.1)).map copy).reverse.map SetSpec.Op.add by simp [List.map_reverse]]
    rw [mem_adds, ← k2, ← any_keys, Bool.or_comm]
    congr 1
    rw [List.any_reverse, List.any_map]
    congr 1; funext y
    simp only [Function.comp]
    rw [Bool.eq_iff_iff]
    exact ⟨fun h => hf.trans _ _ _ (hf.symm _ _ (hcopy y)) h, fun h => hf.trans _ _ _ (hcopy y) h⟩

-- Non-vacuity: two sets with different histories and equal contents modulo 100.
example : (do
    let s1 ← SetSpec.runImpl demoFns [.remove 3, .add 103, .add 5, .add 7]
    let s2 ← SetSpec.runImpl demoFns [.add 205, .add 7, .clear, .add 9]
    let b ← setIsEqual demoFns s1 s2
    let (s, _) ← setJoin demoFns id s1 s2
    let l ← setElements s
    some (b, l)) = some (true, [7, 205]) := by decide +kernel

/-- **C56** (splitting). The pieces `StringSetAddSplit` adds contain no delimiter, and joined by the delimiter they give the
input back, except that a final empty piece (input ending in the delimiter, or empty) is dropped. -/
theorem C56_addSplit_pieces (delim : Char) (str : List Char) :
    (∀ p ∈ splitPieces delim [] str, delim ∉ p) ∧
    str = [delim].intercalate (splitPieces delim [] str) ++ (if str.getLast? = some delim then [delim] else []) := by
  have gen : ∀ (s prev : List Char), delim ∉ prev →
      (∀ p ∈ splitPieces delim prev s, delim ∉ p) ∧
      prev ++ s = [delim].intercalate (splitPieces delim prev s) ++
        (if (prev ++ s).getLast? = some delim then [delim] else []) ∧
      (splitPieces delim prev s = [] → prev ++ s = []) := by
    intro s
    induction s with
    | nil =>
      intro prev hp
      cases prev with
      | nil => simp [splitPieces, List.intercalate]
      | cons a b =>
        refine ⟨by simp_all [splitPieces], ?_, by simp [splitPieces]⟩
        rw [if_neg]
        · simp [splitPieces, List.intercalate]
        · intro h
          rw [List.append_nil] at h
          exact hp (List.mem_of_getLast? h)
    | cons c cs ih =>
      intro prev hp
      simp only [splitPieces]
      by_cases hc : c = delim
      · subst hc
        rw [if_pos rfl]
        obtain ⟨i1, i2, i4⟩ := ih [] (by simp)
        simp only [List.nil_append] at i2 i4
        refine ⟨?_, ?_, by simp⟩
        · intro p hpm
          rcases List.mem_cons.mp hpm with rfl | hpm
          · exact hp
          · exact i1 p hpm
        · cases hs : splitPieces c [] cs with
          | nil =>
            have := i4 hs
            subst this
            simp [List.intercalate]
          | cons q qs =>
            rw [hs] at i2
            have hne : cs ≠ [] := by
              intro h; rw [h] at hs; simp [splitPieces] at hs
            have hlast : (prev ++ c :: cs).getLast? = cs.getLast? := by
              rw [List.getLast?_append, List.getLast?_cons]
              cases h : cs.getLast? with
              | none => exact absurd (List.getLast?_eq_none_iff.mp h) hne
              | some x => simp
            rw [hlast]
            conv => lhs; rw [i2]
            simp [List.intercalate]
      · rw [if_neg hc]
        obtain ⟨i1, i2, i4⟩ := ih (prev ++ [c]) (by simp [hp, Ne.symm hc])
        simp only [List.append_assoc, List.singleton_append] at i2 i4
        exact ⟨i1, i2, i4⟩
  obtain ⟨g1, g2, -⟩ := gen str [] (by simp)
  exact ⟨g1, by simpa using g2⟩

example : splitPieces ',' [] "a,,b,".toList = ["a".toList, [], "b".toList] := by decide

/-- **C56** (joining). `StringSetToBuffer` yields the elements, in iteration order, separated by single delimiters. -/
theorem C56_toBuffer_joins (f : Fns (List Char)) (hf : Lawful f) (h : List (SetSpec.Op (List Char))) (delim : Char) :
    ∃ s xs, SetSpec.runImpl f h = some s ∧ setElements s = some xs ∧
      setToBuffer delim s = some ([delim].intercalate xs) := by
  obtain ⟨s, d, l, e, H⟩ := set_run_spec hf h
  refine ⟨s, l.map (·.1), e, by simp [setElements, mapIterate_spec H.inv], ?_⟩
  simp only [setToBuffer, setElements, mapIterate_spec H.inv, mapSize_spec H.inv, Option.bind_eq_bind, Option.bind_some]
  congr 1
  have gen : ∀ (xs : List (List Char)) (pos n : Nat), pos + xs.length = n →
      toBufferLoop delim n pos xs = [delim].intercalate xs := by
    intro xs
    induction xs with
    | nil => intro pos n _; simp [toBufferLoop, List.intercalate]
    | cons x xs ih =>
      intro pos n hn
      simp only [List.length_cons] at hn
      rw [toBufferLoop, ih (pos + 1) n (by omega)]
      cases xs with
      | nil =>
        rw [if_neg (by simp at hn; omega)]
        simp [List.intercalate]
      | cons y ys =>
        rw [if_pos (by simp at hn; omega)]
        simp [List.intercalate]
  exact gen _ 0 _ (by simp)

example : (do
    let s ← SetSpec.runImpl ⟨fun a b => a == b, fun a => a.length⟩ [.add "b".toList, .add "".toList, .add "a".toList]
    setToBuffer ';' s) = some "a;;b".toList := by decide +kernel

namespace CMap
theorem splitPieces_app (delim : Char) (p s : List Char) (hp : delim ∉ p) :
    ∀ prev, splitPieces delim prev (p ++ s) = splitPieces delim (prev ++ p) s := by
  induction p with
  | nil => intro prev; simp
  | cons c cs ih =>
    intro prev
    simp only [List.mem_cons, not_or] at hp
    simp only [List.cons_append, splitPieces]
    rw [if_neg (Ne.symm hp.1), ih hp.2]; simp

theorem splitPieces_intercalate (delim : Char) (ps : List (List Char)) (hd : ∀ p ∈ ps, delim ∉ p) :
    (ps.getLast? ≠ some [] → splitPieces delim [] ([delim].intercalate ps) = ps) ∧
    (ps ≠ [] → splitPieces delim [] ([delim].intercalate ps ++ [delim]) = ps) := by
  induction ps with
  | nil => simp [splitPieces, List.intercalate]
  | cons p ps ih =>
    have hp := hd p (by simp)
    have ih := ih (fun q hq => hd q (by simp [hq]))
    cases ps with
    | nil =>
      have e : [delim].intercalate [p] = p := by simp [List.intercalate]
      rw [e]
      constructor
      · intro h
        have := splitPieces_app delim p [] hp []
        rw [List.append_nil] at this
        rw [this]
        have : p ≠ [] := by simpa using h
        simp [splitPieces, List.length_pos_iff.mpr this]
      · intro _
        rw [splitPieces_app delim p [delim] hp []]
        simp [splitPieces]
    | cons q qs =>
      have e : [delim].intercalate (p :: q :: qs) = p ++ delim :: [delim].intercalate (q :: qs) := by
        simp [List.intercalate, List.intersperse]
      rw [e]
      constructor
      · intro h
        rw [splitPieces_app delim p _ hp []]
        simp only [splitPieces, if_true, List.nil_append]
        rw [ih.1 (by simpa using h)]
      · intro _
        rw [List.append_assoc, splitPieces_app delim p _ hp []]
        simp only [List.cons_append, splitPieces, if_true, List.nil_append]
        rw [ih.2 (by simp)]
end CMap

/-- **C56** (splitting into the set). Given any pieces without the delimiter, adding their delimiter-joined text to any set adds
exactly those pieces: afterwards an element is a member iff it was one before or equals a piece. A last empty piece needs the
trailing delimiter form (`a,b,` is the two pieces `a`, `b`). -/
theorem C56_addSplit_adds_exactly_the_pieces (f : Fns (List Char)) (hf : Lawful f) (h : List (SetSpec.Op (List Char))) (delim : Char)
    (ps : List (List Char)) (hd : ∀ p ∈ ps, delim ∉ p) (str : List Char)
    (hs : (str = [delim].intercalate ps ∧ ps.getLast? ≠ some []) ∨ (str = [delim].intercalate ps ++ [delim] ∧ ps ≠ [])) :
    ∃ s s' d, SetSpec.runImpl f h = some s ∧ addSplit f delim s str = some (s', d) ∧
      ∀ x, mapHasKey f s' x = some (SetSpec.mem f.eq h x || ps.any fun p => f.eq p x) := by
  obtain ⟨s, d0, l0, e0, H0⟩ := set_run_spec hf h
  obtain ⟨s', d, l, e, H⟩ := joinLoop_spec hf id ps H0
  have hps : splitPieces delim [] str = ps := by
    rcases hs with ⟨rfl, h⟩ | ⟨rfl, h⟩
    · exact (splitPieces_intercalate delim ps hd).1 h
    · exact (splitPieces_intercalate delim ps hd).2 h
  refine ⟨s, s', d, e0, by rw [addSplit, hps, e], ?_⟩
  intro x
  simp only [mapHasKey, mapGetRaw_spec hf H.inv, Option.bind_eq_bind, Option.bind_some, H.look]
  rw [← mem_eq]
  congr 1
  rw [show (List.map (fun x => SetSpec.Op.add (id x)) ps).reverse = ps.reverse.map SetSpec.Op.add by simp [List.map_reverse]]
  rw [mem_adds, Bool.or_comm, List.any_reverse]

example : (do
    let s ← SetSpec.runImpl (K := List Char) ⟨fun a b => a == b, fun _ => 0⟩ [.add ['z']]
    let (s, _) ← addSplit ⟨fun a b => a == b, fun _ => 0⟩ ',' s ['a', ',', 'b', ',']
    setElements s) = some [['z'], ['a'], ['b']] := by decide +kernel
