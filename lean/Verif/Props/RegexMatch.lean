import Verif.Model.RegexMatch
import Verif.Props.Buffer
import Verif.Props.Json
/-! # Properties of regular expression matching -/
namespace RegexMatch
open RegexSpec

/-- Offsets as the library stores them. -/
def ovOf (m : Match) (n : Nat) : List Int :=
  (List.range n).flatMap fun i => match m.getD i none with
    | some (a, b) => [(a : Int), (b : Int)]
    | none => [-1, -1]

theorem ovOf_get (m : Match) : ∀ (n i : Nat), i < n →
    (ovOf m n)[2 * i]? = some (match m.getD i none with | some (a, _) => (a : Int) | none => -1) ∧
    (ovOf m n)[2 * i + 1]? = some (match m.getD i none with | some (_, b) => (b : Int) | none => -1) := by
  intro n
  induction n with
  | zero => intro i h; omega
  | succ n ih =>
    intro i hi
    have hlen : ∀ k, (ovOf m k).length = 2 * k := by
      intro k
      induction k with
      | zero => rfl
      | succ k ihk =>
        rw [ovOf, List.range_succ, List.flatMap_append, List.length_append]
        rw [ovOf] at ihk
        rw [ihk]
        simp only [List.flatMap_cons, List.flatMap_nil, List.append_nil]
        split <;> simp <;> omega
    have hs : ovOf m (n + 1) = ovOf m n ++ (match m.getD n none with | some (a, b) => [(a : Int), (b : Int)] | none => [-1, -1]) := by
      rw [ovOf, List.range_succ, List.flatMap_append]
      simp only [List.flatMap_cons, List.flatMap_nil, List.append_nil]
      rfl
    rw [hs]
    by_cases h : i < n
    · rw [List.getElem?_append_left (by rw [hlen]; omega), List.getElem?_append_left (by rw [hlen]; omega)]
      exact ih i h
    · have : i = n := by omega
      subst this
      rw [List.getElem?_append_right (by rw [hlen]; omega), List.getElem?_append_right (by rw [hlen]; omega), hlen]
      rw [show 2 * i - 2 * i = 0 by omega, show 2 * i + 1 - 2 * i = 1 by omega]
      split <;> simp

/-- The highest group that took part, plus one. -/
def top (m : Match) : Nat := m.length - (m.reverse.takeWhile (· == none)).length

theorem top_pos {m : Match} {a b : Nat} (h : m[0]? = some (some (a, b))) : 0 < top m := by
  have hm : some (a, b) ∈ m := List.mem_of_getElem? h
  have hl : (m.reverse.takeWhile (· == none)).length < m.length := by
    rcases Nat.lt_or_ge (m.reverse.takeWhile (· == none)).length m.length with hlt | hge
    · exact hlt
    · have hs := List.takeWhile_sublist (· == none) (l := m.reverse)
      have he : m.reverse.takeWhile (· == none) = m.reverse := hs.eq_of_length_le (by simpa using hge)
      have hall := List.all_eq_true.1 (List.all_takeWhile (p := (· == (none : Option (Nat × Nat)))) (l := m.reverse))
      rw [he] at hall
      have := hall (some (a, b)) (by simpa using hm)
      simp at this
  rw [top]; omega

theorem takeWhile_all {α : Type} (p : α → Bool) : ∀ (l k : List α), (∀ x ∈ l, p x = true) → l.length ≤ ((l ++ k).takeWhile p).length := by
  intro l
  induction l with
  | nil => intro k _; simp
  | cons a l ih =>
    intro k h
    rw [List.cons_append, List.takeWhile_cons_of_pos (h a (by simp))]
    have := ih k (fun x hx => h x (by simp [hx]))
    simp; omega

theorem top_le {m : Match} {n : Nat} (h : ∀ i, n ≤ i → m.getD i none = none) : top m ≤ n := by
  rw [top]
  by_cases hn : m.length ≤ n
  · omega
  · have he : m.reverse = (m.drop n).reverse ++ (m.take n).reverse := by
      rw [← List.reverse_append, List.take_append_drop]
    have := takeWhile_all (· == (none : Option (Nat × Nat))) (m.drop n).reverse (m.take n).reverse (by
      intro x hx
      rw [List.mem_reverse] at hx
      obtain ⟨j, hj, rfl⟩ := List.getElem_of_mem hx
      rw [List.length_drop] at hj
      have := h (n + j) (by omega)
      rw [List.getElem_drop]
      rw [List.getD_eq_getElem?_getD, List.getElem?_eq_getElem (by omega)] at this
      simpa using this)
    rw [← he] at this
    rw [List.length_reverse, List.length_drop] at this
    omega

theorem few_of_top {m : Match} (h : top m ≤ 10) : FewGroups m := by
  intro i hi
  rw [List.getD_eq_getElem?_getD]
  by_cases hl : i < m.length
  · have hk : m.length - 1 - i < (m.reverse.takeWhile (· == none)).length := by rw [top] at h; omega
    have e := (List.takeWhile_prefix (p := (· == none)) (l := m.reverse)).getElem hk
    have hmem := List.all_eq_true.mp (List.all_takeWhile (p := (· == none)) (l := m.reverse)) _ (List.getElem_mem hk)
    rw [e, List.getElem_reverse] at hmem
    rw [List.getElem?_eq_getElem hl]
    have : m.length - 1 - (m.length - 1 - i) = i := by omega
    simp only [this, beq_iff_eq] at hmem
    simpa using hmem
  · rw [List.getElem?_eq_none (by omega)]; rfl

theorem whole_eq {m : Match} {a b : Nat} (h : m[0]? = some (some (a, b))) : whole m = (a, b) ∧ m.getD 0 none = some (a, b) := by
  have : m.getD 0 none = some (a, b) := by rw [List.getD_eq_getElem?_getD, h]; rfl
  exact ⟨by rw [whole, this]; rfl, this⟩

/-- C119: the offsets and the answer of a match, and of no match. `FewGroups`: see the finding below. -/
theorem C119_match_partial (p : Pattern) (hp : Good p) (s : Bytes) :
    (∀ m, p.find s = some m → FewGroups m → matchPre p s = some (true, ((whole m).1 : Int), ((whole m).2 : Int))) ∧
    (p.find s = none → matchPre p s = some (false, 0, 0)) := by
  refine ⟨fun m hm hf => ?_, fun hn => ?_⟩
  · obtain ⟨_, ⟨a, b, h0⟩, _⟩ := hp.shape s m hm
    obtain ⟨hw, hg⟩ := whole_eq h0
    have ht := top_pos h0
    have hle : top m ≤ 10 := top_le hf
    have hov := ovOf_get m 10 0 (by omega)
    rw [hg] at hov
    have hex : exec p s slots10 (List.replicate 20 0) = ((top m : Int), ovOf m 10) := by
      rw [exec, hm]
      show (if top m ≤ 10 then (top m : Int) else 0, ovOf m 10) = _
      rw [if_pos hle]
    rw [matchPre, hex]
    simp only
    rw [if_pos (by omega), hov.1, hov.2, hw]
    simp
  · have hex : exec p s slots10 (List.replicate 20 0) = (-1, List.replicate 20 0) := by rw [exec, hn]
    rw [matchPre, hex]
    rfl

/-- C119: whatever the number of groups, the answer is whether the pattern finds something, and nothing is undefined; beyond ten groups the offsets are those of the finding below. -/
theorem C119_answer (p : Pattern) (hp : Good p) (s : Bytes) :
    ∃ a b, matchPre p s = some ((p.find s).isSome, a, b) ∧ stringMatch (some p) s = some ((p.find s).isSome, some (a, b)) ∧
      ∀ m, p.find s = some m → ¬ FewGroups m → a = 0 ∧ b = 0 := by
  cases hm : p.find s with
  | none =>
    have h := (C119_match_partial p hp s).2 hm
    exact ⟨0, 0, by rw [h]; rfl, by rw [stringMatch, h]; rfl, by simp⟩
  | some m =>
    by_cases hf : FewGroups m
    · have h := (C119_match_partial p hp s).1 m hm hf
      refine ⟨_, _, by rw [h]; rfl, by rw [stringMatch, h]; rfl, ?_⟩
      intro m' e hn
      cases e
      exact absurd hf hn
    · have h : matchPre p s = some (true, 0, 0) := by
        obtain ⟨_, ⟨a, b, h0⟩, _⟩ := hp.shape s m hm
        have hle : ¬ top m ≤ 10 := fun h => hf (few_of_top h)
        have hex : exec p s slots10 (List.replicate 20 0) = (0, ovOf m 10) := by
          rw [exec, hm]
          show (if top m ≤ 10 then (top m : Int) else 0, ovOf m 10) = _
          rw [if_neg hle]
        rw [matchPre, hex]
        rfl
      exact ⟨0, 0, by rw [h]; rfl, by rw [stringMatch, h]; rfl, fun _ _ _ => ⟨rfl, rfl⟩⟩

/-- C119: a full match is a match that begins at the beginning and ends at the end; a string compared with a pattern matches fully, compared
with a text is equal to it; an empty or absent right-hand side matches everything. -/
theorem C119_full_partial (p : Pattern) (hp : Good p) (s : Bytes) (hf : ∀ m, p.find s = some m → FewGroups m) :
    ∃ b, matchFullPre p s = some b ∧ (b = true ↔ ∃ m, p.find s = some m ∧ whole m = (0, s.length)) := by
  obtain ⟨h1, h2⟩ := C119_match_partial p hp s
  cases hm : p.find s with
  | none => exact ⟨false, by rw [matchFullPre, h2 hm]; rfl, by simp⟩
  | some m =>
    rw [matchFullPre, h1 m hm (hf m hm)]
    refine ⟨_, rfl, ?_⟩
    simp only [if_true, Bool.and_eq_true, beq_iff_eq]
    constructor
    · rintro ⟨ha, hb⟩
      exact ⟨m, rfl, Prod.ext (by simpa using ha) (by exact_mod_cast hb)⟩
    · rintro ⟨m', e, hw⟩
      cases e
      rw [hw]; simp

theorem C119_compare (compile : Bytes → Option Pattern) (value t : Bytes) :
    compareStringOrRegex compile value none true = some true ∧ compareStringOrRegex compile value none false = some true ∧
    compareStringOrRegex compile value (some []) true = some true ∧
    compareStringOrRegex compile value (some t) false = some (decide (t = [] ∨ t = value)) ∧
    (t ≠ [] → compile t = none → compareStringOrRegex compile value (some t) true = some false) ∧
    (∀ p, t ≠ [] → compile t = some p → compareStringOrRegex compile value (some t) true = matchFullPre p value) := by
  refine ⟨rfl, rfl, rfl, ?_, ?_, ?_⟩
  · simp only [compareStringOrRegex, Bool.false_eq_true, if_false]
    by_cases h1 : t = []
    · simp [h1]
    · by_cases h2 : t = value <;> simp [h1, h2]
  · intro h hc; simp [compareStringOrRegex, h, hc, matchFull]
  · intro p h hc; simp [compareStringOrRegex, h, hc, matchFull]

/-- C119: the quick test says whether there is a match, whatever the number of groups. -/
theorem C119_partialMatch (p : Pattern) (s : Bytes) : partialMatch p s = true ↔ (p.find s).isSome := by
  rw [partialMatch, exec]
  cases p.find s with
  | none => simp
  | some m => simp only [Option.isSome_some, decide_eq_true_eq, iff_true]; split <;> omega

/-- Finding: a pattern in whose match a group numbered 10 or more takes part is reported as matching the empty text at offset 0
(regex.c:59-85: `pcre_exec` answers 0 when its vector of ten pairs is too small), so a text it matches in full is not a full match. -/
theorem C119_ten_groups_negated :
    ¬ ∀ (p : Pattern), Good p → ∀ s m, p.find s = some m → whole m = (0, s.length) → matchFullPre p s = some true := by
  intro h
  let m : Match := some (0, 10) :: (List.range 10).map fun i => some (i, i + 1)
  let p : Pattern := ⟨10, [], fun s => if s = List.replicate 10 97 then some m else none⟩
  have hg : Good p := by
    refine ⟨?_, by simp [p]⟩
    intro s m' hm
    simp only [p] at hm
    split at hm
    · next hs =>
      cases hm
      subst hs
      refine ⟨rfl, ⟨0, 10, rfl⟩, ?_⟩
      intro g hg
      simp only [m, List.mem_cons, List.mem_map, List.mem_range] at hg
      rcases hg with rfl | ⟨i, hi, rfl⟩
      · simp [Inside]
      · simp only [Inside, List.length_replicate]; omega
    · cases hm
  have hfind : p.find (List.replicate 10 97) = some m := by simp [p]
  have := h p hg (List.replicate 10 97) m hfind rfl
  rw [matchFullPre, matchPre, exec, hfind] at this
  exact absurd this (by decide)

theorem newFrom_data (mem : Bytes) (n : Nat) (h : n ≤ mem.length ∨ 0 ∈ mem) (hs : mem.length + 4 ≤ 2 ^ 32) :
    (Buffer.newFrom mem n).bind Buffer.data = some ((mem.take n).takeWhile (· ≠ 0)) := by
  obtain ⟨b, h1, _, h3, _⟩ := C18_newFrom mem n h hs
  rw [h1, Option.bind_some, h3]

theorem takeWhile_no_nul (l : Bytes) (h : 0 ∉ l) : l.takeWhile (· ≠ 0) = l := by
  induction l with
  | nil => rfl
  | cons a l ih =>
    simp at h
    rw [List.takeWhile_cons_of_pos (by simp; exact fun e => h.1 e.symm), ih h.2]

theorem piece_ok (s : Bytes) (h0 : 0 ∉ s) (hs : s.length + 5 ≤ 2 ^ 32) (g : Option (Nat × Nat)) :
    Inside s.length g → piece (s ++ [0]) (match g with | some (a, _) => (a : Int) | none => -1) (match g with | some (_, b) => (b : Int) | none => -1) =
      some (textOf s g) := by
  intro hg
  have hempty : (Buffer.newFrom [] 0).bind Buffer.data = some [] := newFrom_data [] 0 (by simp) (by simp)
  cases g with
  | none => simp [piece, textOf, hempty]
  | some g =>
    obtain ⟨a, b⟩ := g
    obtain ⟨hab, hb⟩ := hg
    simp only [piece, textOf]
    rw [if_neg (by omega)]
    by_cases he : a = b
    · subst he; rw [if_pos (by omega)]; simpa using hempty
    · rw [if_neg (by omega), if_neg (by omega), Int.toNat_natCast, show ((b : Int) - a).toNat = b - a by omega]
      rw [newFrom_data _ _ (by simp; omega) (by simp; omega)]
      rw [List.drop_append_of_le_length (by omega), List.take_append_of_le_length (by simp; omega)]
      rw [takeWhile_no_nul]
      intro h
      exact h0 (List.mem_of_mem_drop (List.mem_of_mem_take h))

theorem foldl_max_le : ∀ (l : List Nat) (a : Nat), a ≤ l.foldl max a ∧ (∀ x ∈ l, x ≤ l.foldl max a) := by
  intro l
  induction l with
  | nil => intro a; simp
  | cons b l ih =>
    intro a
    rw [List.foldl_cons]
    obtain ⟨h1, h2⟩ := ih (max a b)
    refine ⟨by omega, ?_⟩
    intro x hx
    rcases List.mem_cons.1 hx with rfl | hx
    · omega
    · exact h2 x hx

theorem foldl_max_bound : ∀ (l : List Nat) (a n : Nat), a ≤ n → (∀ x ∈ l, x ≤ n) → l.foldl max a ≤ n := by
  intro l
  induction l with
  | nil => intro a n h _; exact h
  | cons b l ih =>
    intro a n h hx
    rw [List.foldl_cons]
    exact ih _ _ (by have := hx b (by simp); omega) (fun x h => hx x (by simp [h]))

theorem le_entrySize (p : Pattern) (n : Nat × Bytes) (h : n ∈ p.names) : n.2.length + 3 ≤ entrySize p := by
  rw [entrySize]
  have := (foldl_max_le (p.names.map fun n => n.2.length) 0).2 n.2.length (List.mem_map.2 ⟨n, h, rfl⟩)
  omega

theorem entrySize_le (p : Pattern) (hp : Good p) : entrySize p ≤ 35 := by
  rw [entrySize]
  have := foldl_max_bound (p.names.map fun n => n.2.length) 0 32 (by omega) (by
    intro x hx
    obtain ⟨n, hn, rfl⟩ := List.mem_map.1 hx
    exact (hp.names n hn).2.2.1)
  omega

/-- One entry of the name table. -/
def entry (size : Nat) (n : Nat × Bytes) : Bytes :=
  [UInt8.ofNat (n.1 / 256), UInt8.ofNat (n.1 % 256)] ++ n.2 ++ List.replicate (size - 2 - n.2.length) 0

theorem scan_ok (size i : Nat) (hsz : size ≤ 35) : ∀ (l : List (Nat × Bytes)) (rest : Bytes),
    (∀ n ∈ l, n.1 < 65536 ∧ 0 ∉ n.2 ∧ n.2.length + 3 ≤ size) → l.length * 35 + rest.length + 100 ≤ 2 ^ 32 →
    scan size i l.length (l.flatMap (entry size) ++ rest) = some ((l.find? (fun n => n.1 == i)).map (·.2)) := by
  intro l
  induction l with
  | nil => intro rest _ _; rfl
  | cons n l ih =>
    intro rest h hlen
    obtain ⟨h1, h2, h3⟩ := h n (by simp)
    have hentry : (entry size n).length = size := by simp [entry]; omega
    have hnum : (UInt8.ofNat (n.1 / 256)).toNat * 256 + (UInt8.ofNat (n.1 % 256)).toNat = n.1 := by
      rw [UInt8.toNat_ofNat', UInt8.toNat_ofNat']
      have : n.1 / 256 < 2 ^ 8 := by omega
      rw [Nat.mod_eq_of_lt this, Nat.mod_eq_of_lt (by omega : n.1 % 256 < 2 ^ 8)]
      omega
    have hdrop : (entry size n ++ (l.flatMap (entry size) ++ rest)).drop size = l.flatMap (entry size) ++ rest := by
      rw [List.drop_append_of_le_length (by omega), List.drop_of_length_le (by omega), List.nil_append]
    rw [List.flatMap_cons, List.length_cons, List.append_assoc]
    have hx : entry size n ++ (l.flatMap (entry size) ++ rest) = UInt8.ofNat (n.1 / 256) :: UInt8.ofNat (n.1 % 256) ::
        (n.2 ++ (List.replicate (size - 2 - n.2.length) 0 ++ (l.flatMap (entry size) ++ rest))) := by
      simp [entry]
    have hfl : (l.flatMap (entry size)).length ≤ l.length * 35 := by
      clear ih hdrop hx hlen
      induction l with
      | nil => simp
      | cons m l ihl =>
        have hm : (entry size m).length = size := by
          have := (h m (by simp)).2.2
          simp [entry]; omega
        rw [List.flatMap_cons, List.length_append, hm, List.length_cons]
        have := ihl (fun k hk => h k (by simp at hk ⊢; rcases hk with rfl | hk <;> simp [*]))
        omega
    rw [hx, scan, hnum, List.find?_cons]
    by_cases hi : n.1 = i
    · rw [if_pos hi, show (n.1 == i) = true by simpa using hi]
      rw [newFrom_data _ _ (Or.inr (by
        apply List.mem_append_right; apply List.mem_append_left
        rw [List.mem_replicate]; exact ⟨by omega, rfl⟩)) (by simp at hlen hfl ⊢; omega)]
      congr 2
      have : List.take (size - 3) (n.2 ++ (List.replicate (size - 2 - n.2.length) 0 ++ (l.flatMap (entry size) ++ rest)))
          = n.2 ++ List.replicate (size - 3 - n.2.length) 0 := by
        rw [List.take_append, List.take_of_length_le (by omega), List.take_append_of_le_length (by simp; omega), List.take_replicate]
        congr 2; omega
      rw [this]
      by_cases hz : size - 3 - n.2.length = 0
      · rw [hz]; simpa using takeWhile_no_nul n.2 h2
      · obtain ⟨k, hk⟩ : ∃ k, size - 3 - n.2.length = k + 1 := ⟨_, (Nat.succ_pred_eq_of_ne_zero hz).symm⟩
        rw [hk, List.replicate_succ]
        clear hx hdrop this hnum hentry hlen hfl ih hk hz h
        have : ∀ l : Bytes, 0 ∉ l → ∀ r, (l ++ 0 :: r).takeWhile (· ≠ 0) = l := by
          intro l
          induction l with
          | nil => intro _ r; simp
          | cons a l ih =>
            intro h r
            simp at h
            rw [List.cons_append, List.takeWhile_cons_of_pos (by simp; exact fun e => h.1 e.symm), ih h.2]
        rw [this n.2 h2 _]; rfl
    · rw [if_neg hi, show (n.1 == i) = false by simpa using hi, ← hx, hdrop]
      exact ih rest (fun k hk => h k (by simp [hk])) (by simp at hlen; omega)

theorem label_ok (p : Pattern) (hp : Good p) (hn : p.names.length * 35 + 100 ≤ 2 ^ 32) (i : Nat) (hi : i < 2 ^ 31) :
    groupLabel p i = some (label p i) := by
  have hscan : scan (entrySize p) i p.names.length (table p) = some ((p.names.find? (fun n => n.1 == i)).map (·.2)) := by
    have := scan_ok (entrySize p) i (entrySize_le p hp) p.names [] (fun n h => ⟨(hp.names n h).1, (hp.names n h).2.1, le_entrySize p n h⟩)
      (by simpa using hn)
    rw [List.append_nil] at this
    exact this
  have hdec : ∃ b, Buffer.newWithCapacity 4096 = some b ∧ (Buffer.appendF b (Str.natText i)).bind Buffer.data = some (NumSpec.decimal i) := by
    obtain ⟨b, h1, h2, _⟩ := Buffer.new_ok 4096 (by omega)
    have hlen : (Str.natText i).length ≤ 100 := by
      rw [NumSpec.natText_eq]
      exact Nat.le_trans ((NumSpec.decimal_length i 10 (by omega)).1 (by omega)) (by omega)
    obtain ⟨b', e1, e2, _⟩ := Buffer.appendF_ok h2 (Str.natText i) (by simp; omega)
    refine ⟨b, h1, ?_⟩
    rw [e1, Option.bind_some, Buffer.data_ok e2, ← NumSpec.natText_eq]; rfl
  obtain ⟨b, hb1, hb2⟩ := hdec
  rw [groupLabel, label]
  by_cases hl : 0 < p.names.length
  · rw [if_pos hl, hscan]
    cases hf : p.names.find? (fun n => n.1 == i) with
    | none => simp only [Option.map_none, hb1, hb2]
    | some n => rfl
  · have : p.names = [] := by simpa using hl
    rw [if_neg hl, this]
    simp only [List.find?_nil, hb1, hb2]

theorem groupLoop_ok (p : Pattern) (hp : Good p) (hn : p.names.length * 35 + 100 ≤ 2 ^ 32) (hgr : p.groups < 65536) (s : Bytes) (h0 : 0 ∉ s)
    (hs : s.length < 2 ^ 31) (m : Match) (hm : p.find s = some m) (names : Bool) : ∀ (n i : Nat), i + n = p.groups + 1 →
    groupLoop p (s ++ [0]) names (ovOf m (p.groups + 1)) n i =
      some (((List.range' i n).map fun j => (label p j, textOf s (m.getD j none))).flatMap fun c => if names then [c.1, c.2] else [c.2]) := by
  intro n
  induction n with
  | zero => intro i _; rfl
  | succ n ih =>
    intro i hi
    obtain ⟨e1, e2⟩ := ovOf_get m (p.groups + 1) i (by omega)
    have hin : Inside s.length (m.getD i none) := by
      rw [List.getD_eq_getElem?_getD]
      cases hg : m[i]? with
      | none => trivial
      | some g => exact (hp.shape s m hm).2.2 g (List.mem_of_getElem? hg)
    rw [groupLoop, e1, e2]
    simp only
    rw [piece_ok s h0 (by omega) _ hin, ih (i + 1) (by omega), label_ok p hp hn i (by omega), List.range'_succ]
    cases names <;> simp

/-- C119: the captures of a match are the whole match and then every group of the pattern, in order, each preceded by its name (or number)
if names are asked for; groups that took no part give the empty text; without a match there is no sequence. -/
theorem C119_captures (p : Pattern) (hp : Good p) (hn : p.names.length ≤ p.groups) (hgr : p.groups < 65536) (s : Bytes) (h0 : 0 ∉ s)
    (hs : s.length < 2 ^ 31) (names : Bool) :
    capturesPre p s names = some ((p.find s).map fun m => (captures p s m).flatMap fun c => if names then [c.1, c.2] else [c.2]) := by
  rw [capturesPre]
  cases hm : p.find s with
  | none => rw [exec, hm]; rfl
  | some m =>
    obtain ⟨hl, ⟨a, b, hz⟩, _⟩ := hp.shape s m hm
    have ht := top_pos hz
    have hle : top m ≤ p.groups + 1 := by rw [top, hl]; omega
    have hex : exec p s (p.groups + 1) [] = ((top m : Int), ovOf m (p.groups + 1)) := by
      rw [exec, hm]
      show (if top m ≤ p.groups + 1 then (top m : Int) else 0, ovOf m (p.groups + 1)) = _
      rw [if_pos hle]
    rw [hex]
    simp only
    rw [if_neg (by omega), groupLoop_ok p hp (by omega) hgr s h0 hs m hm names (p.groups + 1) 0 (by omega)]
    simp [captures, List.range_eq_range']

/-- The date pattern `(?<year>..)-(..)?` on "19-": group 1 named, group 2 not taking part. -/
def sample : Pattern :=
  ⟨2, [(1, [121, 101, 97, 114])], fun s => if s = [49, 57, 45] then some [some (0, 3), some (0, 2), none] else none⟩

theorem decimal_digit (n : Nat) (h : n < 10) : NumSpec.decimal n = [UInt8.ofNat (48 + n)] := by rw [NumSpec.decimal, if_pos h]

theorem sample_good : Good sample := by
  refine ⟨?_, by simp [sample]⟩
  intro s m hm
  simp only [sample] at hm
  split at hm
  · next hs => cases hm; subst hs; exact ⟨rfl, ⟨0, 3, rfl⟩, by simp [Inside]⟩
  · cases hm

example : capturesPre sample [49, 57, 45] true = some (some [[48], [49, 57, 45], [121, 101, 97, 114], [49, 57], [50], []]) := by
  rw [C119_captures sample sample_good (by decide) (by decide) _ (by decide) (by decide)]
  simp [captures, label, sample, decimal_digit 0, decimal_digit 2, textOf, List.range_succ]
example : matchFullPre sample [49, 57, 45] = some true := by decide

open Json JsonSpec in
theorem pairLoop_ok : ∀ (cs : List (List UInt8 × List UInt8)) (kids : List Elem), (keys kids).Nodup → (∀ n ∈ keys kids, n ≠ none) →
    (keys (pairLoop kids (cs.flatMap fun c => [c.1, c.2]))).Nodup ∧ (∀ n ∈ keys (pairLoop kids (cs.flatMap fun c => [c.1, c.2])), n ≠ none) ∧
    ∀ k, toMap (pairLoop kids (cs.flatMap fun c => [c.1, c.2])) k =
      match cs.reverse.find? (fun c => c.1 == k) with
      | some c => some (.prim (some k) .string c.2)
      | none => toMap kids k := by
  intro cs
  induction cs with
  | nil => intro kids h1 h2; exact ⟨h1, h2, fun k => rfl⟩
  | cons c cs ih =>
    intro kids h1 h2
    have h1' := nodup_append c.1 (stringCreate c.2) h1
    have h2' : ∀ n ∈ keys (appendElement kids c.1 (stringCreate c.2)), n ≠ none := by
      intro n hn
      rw [keys_append] at hn
      rcases List.mem_append.1 hn with hn | hn
      · exact h2 n (List.mem_of_mem_erase hn)
      · simp at hn; rw [hn]; simp
    obtain ⟨g1, g2, g3⟩ := ih _ h1' h2'
    refine ⟨g1, g2, fun k => ?_⟩
    have := g3 k
    simp only [List.flatMap_cons, List.cons_append, List.nil_append, pairLoop]
    rw [this, List.reverse_cons, List.find?_append]
    cases hf : cs.reverse.find? (fun c => c.1 == k) with
    | some d => rfl
    | none =>
      simp only [Option.none_or]
      rw [toMap_append c.1 (stringCreate c.2) h1]
      by_cases hk : c.1 = k
      · subst hk; simp [Map.set, stringCreate, Elem.setName]
      · have hk' : k ≠ c.1 := fun e => hk e.symm
        simp [Map.set, hk, hk']

/-- C119: the JSON object of a match has, under the name (or number) of each group other than the whole match, the text of that group
(of the last one when several groups share a name), and nothing else; without a match, or a pattern that does not
compile, there is no object. -/
theorem C119_captureData (p : Pattern) (hp : Good p) (hn : p.names.length ≤ p.groups) (hgr : p.groups < 65536) (s : Bytes) (h0 : 0 ∉ s)
    (hs : s.length < 2 ^ 31) :
    (p.find s = none → captureData (some p) s = some none) ∧ captureData none s = some none ∧
    ∀ m, p.find s = some m → ∃ kids, captureData (some p) s = some (some kids) ∧
      ∀ k, Json.get kids k = some ((member p s m k).map fun t => .prim (some k) .string t) := by
  have hc := C119_captures p hp hn hgr s h0 hs true
  refine ⟨fun hm => ?_, rfl, fun m hm => ?_⟩
  · rw [hm] at hc; simp only [captureData, stringMatchCaptures, hc, Option.map_none]
  · rw [hm] at hc
    simp only [Option.map_some, if_true] at hc
    have hlen : ((captures p s m).flatMap fun c => [c.1, c.2]).length ≠ 0 := by
      simp [captures, List.range_succ_eq_map]
    obtain ⟨g1, g2, g3⟩ := pairLoop_ok (captures p s m) [] (by simp [JsonSpec.keys]) (by simp [JsonSpec.keys])
    refine ⟨_, by simp only [captureData, stringMatchCaptures, hc]; rw [if_neg hlen], fun k => ?_⟩
    rw [Json.get, Json.removeKey_eq]
    simp only
    rw [Json.lookup_get (by
      intro n hn
      rw [Json.keys_eraseP] at hn
      exact g2 n (List.mem_of_mem_erase hn))]
    congr 1
    have := congrFun (Json.toMap_eraseP _ [48] g1) k
    rw [Json.toMap] at this
    rw [this, JsonSpec.Map.set, member]
    by_cases hk : k = [48]
    · rw [if_pos hk, if_pos hk]; rfl
    · rw [if_neg hk, if_neg hk, g3 k]
      cases (captures p s m).reverse.find? (fun c => c.1 == k) with
      | none => rfl
      | some c => rfl

example : member sample [49, 57, 45] [some (0, 3), some (0, 2), none] [121, 101, 97, 114] = some [49, 57] ∧
    member sample [49, 57, 45] [some (0, 3), some (0, 2), none] [50] = some [] := by
  simp [member, captures, label, sample, decimal_digit 0, decimal_digit 2, textOf, List.range_succ]

end RegexMatch
