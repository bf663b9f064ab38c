import Verif.Spec.Seq
import Verif.Lemmas.Stack
namespace Seqn
open SeqSpec

/-- Proof-friendly form of "well-formed with contents `xs`". -/
structure Rep {P : Type} (s : Seq P) (xs rest : List (Option P)) (l : List P) : Prop where
  hx : xs = l.map some
  dat : s.data = xs ++ rest
  cap : s.data.length = s.capacity
  pos : 0 < s.capacity
  len : s.length = l.length

theorem rep_of {P : Type} {s : Seq P} {l : List P} (hw : WellFormed s) (hc : Contents s l) :
    ∃ rest, Rep s (l.map some) rest l := by
  obtain ⟨h1, h2, h3⟩ := hw
  obtain ⟨h4, h5⟩ := hc
  refine ⟨s.data.drop l.length, rfl, ?_, h2, h1, h4⟩
  conv => lhs; rw [← List.take_append_drop l.length s.data]
  congr 1
  apply List.ext_getElem?
  intro i
  by_cases hi : i < l.length
  · have := h5 i (by omega)
    simp only [at_] at this
    rw [List.getElem?_take_of_lt hi]
    rw [List.getElem?_eq_getElem hi] at this
    rw [CMem.get_eq] at this
    rw [this]
    simp [hi]
  · rw [List.getElem?_eq_none (by simp; omega), List.getElem?_eq_none (by simp; omega)]

theorem get_app {P : Type} {l : List P} {rest : List (Option P)} {i : Nat} (hi : i < l.length) :
    CMem.get (l.map some ++ rest) i = some l[i] := by
  rw [CMem.get_eq, List.getElem?_append_left (by simpa using hi)]
  simp [hi]

theorem Rep.wf {P : Type} {s : Seq P} {rest : List (Option P)} {l : List P} (h : Rep s (l.map some) rest l) :
    WellFormed s := by
  obtain ⟨_, dat, cap, pos, len⟩ := h
  refine ⟨pos, cap, ?_⟩
  have := congrArg List.length dat
  simp at this; omega

theorem Rep.contents {P : Type} {s : Seq P} {rest : List (Option P)} {l : List P} (h : Rep s (l.map some) rest l) :
    Contents s l := by
  obtain ⟨_, dat, cap, pos, len⟩ := h
  refine ⟨len, ?_⟩
  intro i hi
  rw [at_, dat, get_app (by omega)]
  simp [show i < l.length by omega]

/-- Packaged: well-formed and contents. -/
def Has {P : Type} (s : Seq P) (l : List P) : Prop := WellFormed s ∧ Contents s l

theorem Rep.has {P : Type} {s : Seq P} {rest : List (Option P)} {l : List P} (h : Rep s (l.map some) rest l) :
    Has s l := ⟨h.wf, h.contents⟩

theorem Has.rep {P : Type} {s : Seq P} {l : List P} (h : Has s l) : ∃ rest, Rep s (l.map some) rest l := rep_of h.1 h.2

theorem has_new {P : Type} (c : Nat) (hd : Bool) : Has (new c hd : Seq P) [] := by
  refine Rep.has (rest := (new c hd : Seq P).data) ⟨rfl, by simp, by simp [new], ?_, rfl⟩
  simp only [new]; split <;> omega

theorem append_spec {P : Type} {s : Seq P} {l : List P} (h : Has s l) (x : P) :
    ∃ s', append s x = some s' ∧ Has s' (l ++ [x]) ∧ s'.hasDestroy = s.hasDestroy := by
  obtain ⟨rest, hx, dat, cap, pos, len⟩ := h.rep
  have hlen : s.data.length = l.length + rest.length := by rw [dat]; simp
  have hw : ∀ (r : List (Option P)) (hr : r ≠ []), (l.map some ++ r).set l.length (some x) =
      (l ++ [x]).map some ++ r.tail := by
    intro r hr
    cases r with
    | nil => exact absurd rfl hr
    | cons y r => simp [List.set_append]
  unfold append expand
  have hle : s.length ≤ s.capacity := by omega
  by_cases hf : s.length = s.capacity
  · have hr : rest = [] := List.eq_nil_of_length_eq_zero (by omega)
    subst hr
    simp only [hle, hf, if_true, Option.bind_eq_bind, Option.bind_some]
    have hre : CMem.realloc s.data (s.capacity * 2) = l.map some ++ List.replicate s.capacity none := by
      rw [CMem.realloc_ge (by omega), dat]
      simp; simp at hlen; omega
    have hne : List.replicate s.capacity (none : Option P) ≠ [] := by simp; omega
    rw [hre]
    simp only [Nat.le_refl, if_true, Option.bind_some]
    rw [CMem.write_eq (by simp; simp at hlen; omega)]
    simp only [Option.bind_some]
    refine ⟨_, rfl, Rep.has (rest := (List.replicate s.capacity none).tail) ⟨rfl, ?_, ?_, ?_, ?_⟩, rfl⟩
    · show (l.map some ++ List.replicate s.capacity none).set s.capacity (some x) = _
      rw [← hw _ hne]; congr 1; omega
    · simp; simp at hlen; omega
    · simp; omega
    · simp; omega
  · have hne : rest ≠ [] := by
      intro hr; subst hr; simp at hlen; omega
    simp only [hle, hf, if_true, if_false, Option.bind_eq_bind, Option.bind_some]
    rw [CMem.write_eq (by omega)]
    refine ⟨_, rfl, Rep.has (rest := rest.tail) ⟨rfl, ?_, by simpa using cap, pos, by simp [len]⟩, rfl⟩
    show s.data.set s.length (some x) = _
    rw [dat, len, hw _ hne]

theorem set_spec {P : Type} {s : Seq P} {l : List P} (h : Has s l) (i : Nat) (hi : i < l.length) (x : P) :
    ∃ s', set s i x = some (s', if s.hasDestroy then [l[i]] else []) ∧ Has s' (l.set i x) ∧
      s'.hasDestroy = s.hasDestroy := by
  obtain ⟨rest, hx, dat, cap, pos, len⟩ := h.rep
  have hlen : s.data.length = l.length + rest.length := by rw [dat]; simp
  have hg : CMem.get s.data i = some l[i] := by rw [dat, get_app hi]
  have hi' : i < s.length := by omega
  simp only [set, hi', if_true, hg, CMem.write_eq (show i < s.data.length by omega), Option.map_some]
  have hr : Has { s with data := s.data.set i (some x) } (l.set i x) := by
    refine Rep.has (rest := rest) ⟨rfl, ?_, by simpa using cap, pos, by simp [len]⟩
    show s.data.set i (some x) = _
    rw [dat, List.set_append, if_pos (by simpa using hi), List.map_set]
  cases s.hasDestroy <;> exact ⟨_, rfl, hr, rfl⟩

theorem getRange_mid {P : Type} {s : Seq P} {l : List P} (h : Has s l) (start n : Nat) (hn : start + n ≤ l.length) :
    CMem.getRange s.data start n = some ((l.drop start).take n) := by
  obtain ⟨rest, hx, dat, cap, pos, len⟩ := h.rep
  have := CMem.getRange_eq ((l.take start).map some) ((l.drop start).take n) ((l.drop (start + n)).map some ++ rest)
  have e : (l.take start).map some ++ ((l.drop start).take n).map some ++ ((l.drop (start + n)).map some ++ rest) =
      s.data := by
    rw [dat, ← List.append_assoc, ← List.map_append, ← List.map_append]
    congr 2
    rw [List.append_assoc, ← List.drop_drop, List.take_append_drop, List.take_append_drop]
  rw [e] at this
  simp only [List.length_map, List.length_take, List.length_drop] at this
  rw [show min start l.length = start by omega, show min n (l.length - start) = n by omega] at this
  exact this

theorem memmove_spec {P : Type} {s : Seq P} {l : List P} (h : Has s l) (start stop : Nat) (h1 : stop < l.length)
    (h2 : start ≤ stop) :
    ∃ data, (if s.length - stop - 1 > 0 then CMem.memmove s.data start (stop + 1) (s.length - stop - 1)
        else some s.data) = some data ∧
      Has { s with data := data, length := s.length - (stop - start + 1) } (l.take start ++ l.drop (stop + 1)) := by
  obtain ⟨rest, hx, dat, cap, pos, len⟩ := h.rep
  have hlen : s.data.length = l.length + rest.length := by rw [dat]; simp
  by_cases hz : s.length - stop - 1 > 0
  · simp only [hz, if_true, CMem.memmove]
    have hc : start + (s.length - stop - 1) ≤ s.data.length ∧ stop + 1 + (s.length - stop - 1) ≤ s.data.length := by
      omega
    rw [if_pos hc]
    refine ⟨_, rfl, Rep.has (rest := s.data.drop (start + (s.length - stop - 1)))
      ⟨rfl, ?_, ?_, pos, ?_⟩⟩
    · simp only
      congr 1
      rw [dat, List.take_append_of_le_length (by simp; omega), List.drop_append_of_le_length (by simp; omega),
        List.take_append_of_le_length (by simp; omega), List.map_append, List.map_take, List.map_drop]
      congr 1
      apply List.take_of_length_le
      simp; omega
    · simp; omega
    · simp; omega
  · simp only [hz, if_false]
    have hs : stop + 1 = l.length := by omega
    refine ⟨_, rfl, Rep.has (rest := s.data.drop start) ⟨rfl, ?_, cap, pos, ?_⟩⟩
    · simp only
      rw [hs]
      conv => lhs; rw [← List.take_append_drop start s.data]
      congr 1
      rw [dat, List.take_append_of_le_length (by simp; omega)]
      simp [List.map_take]
    · simp [hs]; omega

theorem softRemoveRange_spec {P : Type} {s : Seq P} {l : List P} (h : Has s l) (start stop : Nat)
    (h1 : stop < l.length) (h2 : start ≤ stop) :
    ∃ s', softRemoveRange s start stop = some s' ∧ Has s' (l.take start ++ l.drop (stop + 1)) ∧
      s'.hasDestroy = s.hasDestroy := by
  obtain ⟨data, e, r⟩ := memmove_spec h start stop h1 h2
  have hl : stop < s.length ∧ start ≤ stop := ⟨by rw [h.2.1]; exact h1, h2⟩
  refine ⟨_, ?_, r, rfl⟩
  simp only [softRemoveRange, hl, and_self, if_true, Option.bind_eq_bind]
  split at e <;> rename_i hz <;> simp only [hz, if_true, if_false, e, Option.bind_some]

theorem removeRange_spec {P : Type} {s : Seq P} {l : List P} (h : Has s l) (start stop : Nat)
    (h1 : stop < l.length) (h2 : start ≤ stop) :
    ∃ s', removeRange s start stop =
        some (s', if s.hasDestroy then (l.drop start).take (stop + 1 - start) else []) ∧
      Has s' (l.take start ++ l.drop (stop + 1)) ∧ s'.hasDestroy = s.hasDestroy := by
  obtain ⟨data, e, r⟩ := memmove_spec h start stop h1 h2
  have hl : stop < s.length ∧ start ≤ stop := ⟨by rw [h.2.1]; exact h1, h2⟩
  refine ⟨_, ?_, r, rfl⟩
  simp only [removeRange, hl, and_self, if_true, Option.bind_eq_bind, destroyRange]
  rw [getRange_mid h _ _ (by omega)]
  split at e <;> rename_i hz <;> simp only [hz, if_true, if_false, e, Option.bind_some] <;>
    cases s.hasDestroy <;> simp

theorem clear_spec {P : Type} {s : Seq P} {l : List P} (h : Has s l) :
    ∃ s', clear s = some (s', if s.hasDestroy then l else []) ∧ Has s' [] ∧ s'.hasDestroy = s.hasDestroy := by
  have hl := h.2.1
  unfold clear
  by_cases hz : s.length > 0
  · obtain ⟨s', e, r, d⟩ := removeRange_spec h 0 (s.length - 1) (by omega) (by omega)
    refine ⟨s', ?_, ?_, d⟩
    · rw [if_pos hz, e, List.drop_zero, List.take_of_length_le (by omega)]
    · rw [List.drop_eq_nil_of_le (by omega)] at r; simpa using r
  · have : l = [] := List.eq_nil_of_length_eq_zero (by omega)
    subst this
    exact ⟨s, by simp [hz], h, rfl⟩

theorem findLoop_spec {P : Type} (cmp : Cmp P) (key : P) {s : Seq P} {l : List P} (h : Has s l) :
    ∀ n i, i + n = l.length →
      findLoop cmp key s.data i n =
        some (((l.drop i).findIdx? fun x => decide (cmp key x = 0)).map (i + ·)) := by
  obtain ⟨rest, hx, dat, cap, pos, len⟩ := h.rep
  intro n
  induction n with
  | zero => intro i hi; simp [findLoop, show l.drop i = [] from List.drop_eq_nil_of_le (by omega)]
  | succ n ih =>
    intro i hi
    have hlt : i < l.length := by omega
    simp only [findLoop, dat, get_app hlt, Option.bind_eq_bind, Option.bind_some]
    rw [List.drop_eq_getElem_cons hlt, List.findIdx?_cons]
    by_cases hc : cmp key l[i] = 0
    · simp [hc]
    · simp only [hc, if_false, decide_false, Bool.false_eq_true]
      have := ih (i+1) (by omega)
      rw [dat] at this
      rw [this]
      cases (l.drop (i+1)).findIdx? fun x => decide (cmp key x = 0) <;> simp <;> omega

theorem indexOf_spec {P : Type} (cmp : Cmp P) (key : P) {s : Seq P} {l : List P} (h : Has s l) :
    indexOf cmp s key = some (match l.findIdx? fun x => decide (cmp key x = 0) with
      | none => -1 | some i => (i : Int)) := by
  have := findLoop_spec cmp key h l.length 0 (by omega)
  rw [indexOf, h.2.1, this]
  simp
  cases l.findIdx? fun x => decide (cmp key x = 0) <;> rfl

theorem lookup_spec {P : Type} (cmp : Cmp P) (key : P) {s : Seq P} {l : List P} (h : Has s l) :
    lookup cmp s key = some (l.find? fun x => decide (cmp key x = 0)) := by
  have := findLoop_spec cmp key h l.length 0 (by omega)
  rw [lookup, h.2.1, this]
  obtain ⟨rest, hx, dat, cap, pos, len⟩ := h.rep
  simp only [List.drop_zero, Nat.zero_add, Option.map_id', Option.bind_eq_bind, Option.bind_some]
  rw [List.find?_eq_bind_findIdx?_getElem?]
  cases hf : l.findIdx? fun x => decide (cmp key x = 0) with
  | none => rfl
  | some i =>
    have hi : i < l.length := by
      have := List.findIdx?_eq_some_iff_findIdx_eq.mp hf
      omega
    simp [dat, get_app hi, hi]

theorem appendOnce_spec {P : Type} (cmp : Cmp P) {s : Seq P} {l : List P} (h : Has s l) (x : P) :
    ∃ s', appendOnce cmp s x =
        some (s', if (l.any fun y => decide (cmp x y = 0)) && s.hasDestroy then [x] else []) ∧
      Has s' (if l.any fun y => decide (cmp x y = 0) then l else l ++ [x]) ∧ s'.hasDestroy = s.hasDestroy := by
  rw [appendOnce, lookup_spec cmp x h]
  obtain ⟨s', e, r, d⟩ := append_spec h x
  cases hf : l.find? fun y => decide (cmp x y = 0) with
  | none =>
    have ha : (l.any fun y => decide (cmp x y = 0)) = false := by
      rw [List.any_eq_false]; intro y hy
      exact List.find?_eq_none.mp hf y hy
    refine ⟨s', ?_, ?_, d⟩
    · simp [e, ha]
    · simpa [ha] using r
  | some y =>
    have ha : (l.any fun y => decide (cmp x y = 0)) = true := by
      rw [List.any_eq_true]
      exact ⟨y, List.mem_of_find?_eq_some hf, by simpa using List.find?_some hf⟩
    refine ⟨s, ?_, ?_, rfl⟩
    · simp [ha]
    · simpa [ha] using h

theorem appendSeqLoop_spec {P : Type} {items : Seq P} {m : List P} (hm : Has items m) :
    ∀ n i (s : Seq P) (l : List P), Has s l → i + n = m.length →
      ∃ s', appendSeqLoop items s i n = some s' ∧ Has s' (l ++ m.drop i) ∧ s'.hasDestroy = s.hasDestroy := by
  intro n
  induction n with
  | zero =>
    intro i s l h hi
    exact ⟨s, rfl, by simpa [show m.drop i = [] from List.drop_eq_nil_of_le (by omega)] using h, rfl⟩
  | succ n ih =>
    intro i s l h hi
    have hlt : i < m.length := by omega
    have hat : at_ items i = some m[i] := by
      rw [hm.2.2 i (by rw [hm.2.1]; omega)]; simp [hlt]
    obtain ⟨s1, e1, r1, d1⟩ := append_spec h m[i]
    obtain ⟨s2, e2, r2, d2⟩ := ih (i+1) s1 _ r1 (by omega)
    refine ⟨s2, ?_, ?_, by rw [d2, d1]⟩
    · simp [appendSeqLoop, hat, e1, e2]
    · rw [List.drop_eq_getElem_cons hlt]; simpa using r2

theorem getRangeLoop_spec {P : Type} {s : Seq P} {m : List P} (hm : Has s m) :
    ∀ n i (sub : Seq P) (l : List P), Has sub l → i + n ≤ m.length →
      ∃ s', getRangeLoop s sub i n = some s' ∧ Has s' (l ++ (m.drop i).take n) ∧ s'.hasDestroy = sub.hasDestroy := by
  intro n
  induction n with
  | zero =>
    intro i sub l h hi
    exact ⟨sub, rfl, by simpa using h, rfl⟩
  | succ n ih =>
    intro i sub l h hi
    have hlt : i < m.length := by omega
    have hlt' : i < s.length := by rw [hm.2.1]; exact hlt
    have hat : at_ s i = some m[i] := by
      rw [hm.2.2 i hlt']; simp [hlt]
    obtain ⟨s1, e1, r1, d1⟩ := append_spec h m[i]
    obtain ⟨s2, e2, r2, d2⟩ := ih (i+1) s1 _ r1 (by omega)
    refine ⟨s2, ?_, ?_, by rw [d2, d1]⟩
    · simp [getRangeLoop, hlt', hat, e1, e2]
    · rw [List.drop_eq_getElem_cons hlt, List.take_succ_cons]; simpa using r2

theorem getRange_spec {P : Type} {s : Seq P} {l : List P} (h : Has s l) (start stop : Nat) :
    (stop < l.length ∧ start ≤ stop ∧
      ∃ s', getRange s start stop = some (some s') ∧ Has s' ((l.drop start).take (stop + 1 - start)) ∧
        s'.hasDestroy = s.hasDestroy) ∨
    (¬ (stop < l.length ∧ start ≤ stop) ∧ getRange s start stop = some none) := by
  have hl := h.2.1
  unfold getRange
  by_cases hb : start > stop ∨ start ≥ s.length ∨ stop ≥ s.length
  · right
    exact ⟨by omega, by rw [if_pos hb]⟩
  · left
    refine ⟨by omega, by omega, ?_⟩
    rw [if_neg hb]
    obtain ⟨s', e, r, d⟩ := getRangeLoop_spec h (stop + 1 - start) start _ _
      (has_new (stop - start + 1) s.hasDestroy) (by omega)
    exact ⟨s', by rw [e]; rfl, by simpa using r, d⟩

theorem split_spec' {P : Type} {s : Seq P} {l : List P} (h : Has s l) (i : Nat) (hi : i ≤ l.length) :
    ∃ s' t, split s i = some (s', t) ∧ Has s' (l.take i) ∧ Has t (l.drop i) ∧ s'.hasDestroy = s.hasDestroy := by
  have hl := h.2.1
  have hi' : i ≤ s.length := by omega
  unfold split
  rw [if_pos hi']
  by_cases hz : i ≥ s.length
  · rw [if_pos hz]
    refine ⟨s, _, rfl, ?_, ?_, rfl⟩
    · rw [List.take_of_length_le (by omega)]; exact h
    · rw [List.drop_eq_nil_of_le (by omega)]; exact has_new _ _
  · rw [if_neg hz]
    rcases getRange_spec h i (s.length - 1) with ⟨_, _, t, e, r, d⟩ | ⟨hn, _⟩
    · obtain ⟨s', e', r', d'⟩ := softRemoveRange_spec h i (s.length - 1) (by omega) (by omega)
      refine ⟨s', t, ?_, ?_, ?_, d'⟩
      · simp [e, e']
      · rw [List.drop_eq_nil_of_le (by omega)] at r'; simpa using r'
      · rw [List.take_of_length_le (by simp; omega)] at r; exact r
    · exact absurd ⟨by omega, by omega⟩ hn

theorem split_spec {P : Type} {s : Seq P} {l : List P} (h : Has s l) (i : Nat) (hi : i ≤ l.length) :
    ∃ s' t, split s i = some (s', t) ∧ Has s' (l.take i) ∧ Has t (l.drop i) := by
  obtain ⟨s', t, e, r, r', _⟩ := split_spec' h i hi
  exact ⟨s', t, e, r, r'⟩

theorem destroy_spec {P : Type} {s : Seq P} {l : List P} (h : Has s l) :
    destroy s = some (if s.hasDestroy then l else []) := by
  have hl := h.2.1
  unfold destroy
  by_cases hz : s.length > 0
  · rw [if_pos hz, destroyRange, getRange_mid h _ _ (by omega), List.drop_zero, List.take_of_length_le (by omega)]
    cases s.hasDestroy <;> simp
  · have : l = [] := List.eq_nil_of_length_eq_zero (by omega)
    subst this
    simp [hz]

theorem removeNullsLoop_spec {P : Type} (isNull : P → Bool) :
    ∀ n fr to (l : List P) (rest : List (Option P)), fr + n = l.length → to ≤ fr →
      ∃ l' : List P, l'.length = l.length ∧
      removeNullsLoop isNull (l.map some ++ rest) fr to n =
        some (l'.map some ++ rest, to + ((l.drop fr).filter fun x => !isNull x).length) ∧
      l'.take (to + ((l.drop fr).filter fun x => !isNull x).length) =
        l.take to ++ (l.drop fr).filter fun x => !isNull x := by
  intro n
  induction n with
  | zero =>
    intro fr to l rest h1 h2
    refine ⟨l, rfl, ?_, ?_⟩ <;> simp [removeNullsLoop, show l.drop fr = [] from List.drop_eq_nil_of_le (by omega)]
  | succ n ih =>
    intro fr to l rest h1 h2
    have hlt : fr < l.length := by omega
    simp only [removeNullsLoop, get_app hlt, Option.bind_eq_bind, Option.bind_some]
    by_cases hn : isNull l[fr] = true
    · have hF : (l.drop fr).filter (fun x => !isNull x) = (l.drop (fr + 1)).filter (fun x => !isNull x) := by
        rw [List.drop_eq_getElem_cons hlt, List.filter_cons, if_neg (by simp [hn])]
      rw [hF]
      obtain ⟨l', e0, e1, e2⟩ := ih (fr + 1) to l rest (by omega) (by omega)
      exact ⟨l', e0, by simp [hn, e1], by simp [hn, e2]⟩
    · have hF : (l.drop fr).filter (fun x => !isNull x) =
          l[fr] :: (l.drop (fr + 1)).filter (fun x => !isNull x) := by
        rw [List.drop_eq_getElem_cons hlt, List.filter_cons, if_pos (by simp [hn])]
      rw [hF]
      have hw : CMem.write (l.map some ++ rest) to (some l[fr]) = some ((l.set to l[fr]).map some ++ rest) := by
        rw [CMem.write_eq (by simp; omega), List.set_append, if_pos (by simp; omega), List.map_set]
      obtain ⟨l', e0, e1, e2⟩ := ih (fr + 1) (to + 1) (l.set to l[fr]) rest (by simp; omega) (by omega)
      have hd : (l.set to l[fr]).drop (fr + 1) = l.drop (fr + 1) := by
        rw [List.drop_set, if_pos (by omega)]
      have ht : (l.set to l[fr]).take (to + 1) = l.take to ++ [l[fr]] := by
        rw [List.take_add_one, List.take_set_of_le (Nat.le_refl _)]
        simp [show to < l.length by omega]
      rw [hd, ht] at e2
      rw [hd] at e1
      refine ⟨l', by simpa using e0, ?_, ?_⟩
      · simp only [hn, hw, Option.bind_some, if_false, e1, Bool.false_eq_true]
        simp only [List.length_cons, Option.some.injEq, Prod.mk.injEq, true_and]; omega
      · simp only [List.append_assoc, List.singleton_append] at e2
        rw [← e2, List.length_cons]
        congr 1; omega

theorem removeNulls_spec {P : Type} (isNull : P → Bool) {s : Seq P} {l : List P} (h : Has s l) :
    ∃ s', removeNulls isNull s = some s' ∧ Has s' (l.filter fun x => !isNull x) ∧ s'.hasDestroy = s.hasDestroy := by
  obtain ⟨rest, hx, dat, cap, pos, len⟩ := h.rep
  obtain ⟨l', e0, e1, e2⟩ := removeNullsLoop_spec isNull l.length 0 0 l rest (by omega) (by omega)
  simp only [List.drop_zero, Nat.zero_add, List.take_zero, List.nil_append] at e1 e2
  refine ⟨{ s with data := l'.map some ++ rest, length := (l.filter fun x => !isNull x).length }, ?_, ?_, rfl⟩
  · rw [removeNulls, dat, len, e1]; rfl
  · refine Rep.has (rest := (l'.drop (l.filter fun x => !isNull x).length).map some ++ rest) ⟨rfl, ?_, ?_, pos, rfl⟩
    · rw [← e2, ← List.append_assoc, ← List.map_append]
      simp only
      congr 2
      conv => lhs; rw [← List.take_append_drop (l.filter fun x => !isNull x).length l']
      rw [e2]
    · simp only [List.length_append, List.length_map, e0]
      rw [← cap, dat]; simp

end Seqn
