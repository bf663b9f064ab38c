import Verif.Model.KeyValue
/-! # Properties of parsing `key: value` files -/
namespace KeyValue
open KeyValueSpec

theorem takeLine_lines : ∀ (s : Bytes) (n : Nat), s ≠ [] → ∀ l ls, lines s = l :: ls → l.length ≤ n →
    (takeLine n s).1 = l ∧ lines (takeLine n s).2 = ls ∧ (takeLine n s).2.length < s.length ∧ s = l ++ (takeLine n s).2 := by
  intro s
  induction s with
  | nil => intro n h; exact absurd rfl h
  | cons c s ih =>
    intro n _ l ls hl hn
    rw [lines] at hl
    by_cases hc : c = 10
    · rw [if_pos hc] at hl
      cases hl
      cases n with
      | zero => simp at hn
      | succ n => rw [takeLine, if_pos hc]; simp [hc]
    · rw [if_neg hc] at hl
      cases hls : lines s with
      | nil =>
        rw [hls] at hl
        cases hl
        have hs : s = [] := by
          cases s with
          | nil => rfl
          | cons d s =>
            rw [lines] at hls
            split at hls
            · cases hls
            · split at hls <;> cases hls
        subst hs
        cases n with
        | zero => simp at hn
        | succ n => cases n <;> simp [takeLine, hc, lines]
      | cons l' ls' =>
        rw [hls] at hl
        cases hl
        have hs : s ≠ [] := by rintro rfl; simp [lines] at hls
        cases n with
        | zero => simp at hn
        | succ n =>
          obtain ⟨h1, h2, h3, h4⟩ := ih n hs l' ls hls (by simpa using hn)
          rw [takeLine, if_neg hc]
          refine ⟨by simp [h1], h2, by simp; omega, ?_⟩
          simp only [List.cons_append]
          rw [← h4]

theorem strchr_ok : ∀ (l : Bytes), 0 ∉ l → strchr 58 l = if 58 ∈ l then some (l.takeWhile (· ≠ 58)).length else none := by
  intro l
  induction l with
  | nil => intro _; rfl
  | cons c l ih =>
    intro h
    simp only [List.mem_cons, not_or] at h
    rw [strchr, if_neg (fun e => h.1 e.symm)]
    by_cases hc : c = 58
    · simp [hc]
    · rw [if_neg hc, ih h.2]
      have : ¬ (58 : UInt8) = c := fun e => hc e.symm
      by_cases hm : 58 ∈ l <;> simp [hc, hm, this]

theorem cstr_id (l : Bytes) (h : 0 ∉ l) : cstr l = l := by
  rw [cstr]
  induction l with
  | nil => rfl
  | cons a l ih =>
    simp at h
    rw [List.takeWhile_cons_of_pos (by simp; exact fun e => h.1 e.symm), ih h.2]

theorem take_takeWhile (l : Bytes) : l.take (l.takeWhile (· ≠ 58)).length = l.takeWhile (· ≠ 58) := by
  induction l with
  | nil => rfl
  | cons c l ih =>
    by_cases hc : c = 58
    · simp [hc]
    · rw [List.takeWhile_cons_of_pos (by simpa using hc), List.length_cons, List.take_succ_cons, ih]

theorem drop_takeWhile (l : Bytes) : l.drop ((l.takeWhile (· ≠ 58)).length + 1) = (l.dropWhile (· ≠ 58)).drop 1 := by
  induction l with
  | nil => rfl
  | cons c l ih =>
    by_cases hc : c = 58
    · simp [hc]
    · rw [List.takeWhile_cons_of_pos (by simpa using hc), List.dropWhile_cons_of_pos (by simpa using hc), List.length_cons, List.drop_succ_cons, ih]

theorem lines_ne (s : Bytes) : ∀ l ∈ lines s, l ≠ [] ∧ (0 ∈ l → 0 ∈ s) := by
  induction s with
  | nil => simp [lines]
  | cons c s ih =>
    intro l hl
    rw [lines] at hl
    split at hl
    · next hc =>
      rcases List.mem_cons.1 hl with rfl | hl
      · exact ⟨by simp, by simp⟩
      · exact ⟨(ih l hl).1, fun h => List.mem_cons_of_mem _ ((ih l hl).2 h)⟩
    · split at hl
      · simp at hl; subst hl; simp
        intro h; exact Or.inl h
      · next l' ls hls =>
        rcases List.mem_cons.1 hl with rfl | hl
        · refine ⟨by simp, ?_⟩
          intro h
          rcases List.mem_cons.1 h with h | h
          · simp [h]
          · exact List.mem_cons_of_mem _ ((ih l' (by rw [hls]; simp)).2 h)
        · exact ⟨(ih l (by rw [hls]; simp [hl])).1, fun h => List.mem_cons_of_mem _ ((ih l (by rw [hls]; simp [hl])).2 h)⟩

/-- C120: a file of lines of at most 1023 bytes (newline included) without NUL bytes, read without error: the user function gets, in order,
what is before and after the first colon of each line; parsing stops at the first line without a colon or at the first refusal, and
succeeds exactly when neither happens. When reading ends with an error after a complete line, the lines before are given and the
answer is failure. -/
theorem C120_parse_partial {σ : Type} (cb : Callback σ) (st : σ) (text : Bytes) (err : Bool) (h0 : 0 ∉ text) (hl : ∀ l ∈ lines text, l.length ≤ 1023)
    (herr : err = true → text = [] ∨ text.getLast? = some 10) :
    parse cb err (text.length + 1) st text = some (KeyValueSpec.parse cb st text err) := by
  have gen : ∀ (fuel : Nat) (text : Bytes) (st : σ), text.length < fuel → 0 ∉ text → (∀ l ∈ lines text, l.length ≤ 1023) →
      (err = true → text = [] ∨ text.getLast? = some 10) →
      parse cb err fuel st text = some (KeyValueSpec.parse cb st text err) := by
    intro fuel
    induction fuel with
    | zero => intro text st h; omega
    | succ fuel ih =>
      intro text st hf h0 hl herr
      by_cases ht : text = []
      · subst ht; rfl
      · cases hls : lines text with
        | nil =>
          cases text with
          | nil => exact absurd rfl ht
          | cons d s =>
            rw [lines] at hls
            split at hls
            · cases hls
            · split at hls <;> cases hls
        | cons l ls =>
          have hlen := hl l (by rw [hls]; simp)
          obtain ⟨h1, h2, h3, h4⟩ := takeLine_lines text 1023 ht l ls hls hlen
          have hlast : (err = true → (takeLine 1023 text).2 = [] ∨ (takeLine 1023 text).2.getLast? = some 10) := by
            intro he
            by_cases hr : (takeLine 1023 text).2 = []
            · exact Or.inl hr
            · right
              rcases herr he with h | h
              · exact absurd h ht
              · rw [h4, List.getLast?_append] at h
                cases hg : (takeLine 1023 text).2.getLast? with
                | none => exact absurd (List.getLast?_eq_none_iff.1 hg) hr
                | some x => rw [hg] at h; simpa using h
          have hfg : fgets 1024 text err = some (l, (takeLine 1023 text).2) := by
            cases text with
            | nil => exact absurd rfl ht
            | cons d s =>
              rw [fgets]
              case x_1 => exact ht
              simp only [show 1024 - 1 = 1023 from rfl]
              rw [if_neg]
              · rw [← h1]
              · intro hc
                simp only [Bool.and_eq_true, decide_eq_true_eq, Bool.not_eq_true'] at hc
                obtain ⟨⟨⟨c1, c2⟩, c3⟩, c4⟩ := hc
                rcases herr c2 with h | h
                · exact absurd h ht
                · rw [h4, c1, List.append_nil] at h
                  rw [h1, h] at c3
                  simp at c3
          have hl0 : 0 ∉ l := fun h => h0 ((lines_ne text l (by rw [hls]; simp)).2 h)
          have hr0 : 0 ∉ (takeLine 1023 text).2 := fun h => h0 (by rw [h4]; exact List.mem_append_right _ h)
          have hrl : ∀ l' ∈ lines (takeLine 1023 text).2, l'.length ≤ 1023 := fun l' h => hl l' (by rw [hls]; rw [h2] at h; simp [h])
          rw [parse, hfg]
          simp only
          rw [strchr_ok l hl0, KeyValueSpec.parse, hls, feed]
          by_cases hm : 58 ∈ l
          · simp only [hm, if_true]
            rw [take_takeWhile, drop_takeWhile, cstr_id _ (fun h => hl0 ((List.takeWhile_sublist _).mem h)),
              cstr_id _ (fun h => hl0 ((List.dropWhile_sublist _).mem (List.mem_of_mem_drop h)))]
            cases hcb : cb st (l.takeWhile (· ≠ 58)) ((l.dropWhile (· ≠ 58)).drop 1) with
            | mk st' b =>
              cases b with
              | false => rfl
              | true =>
                simp only
                rw [ih _ st' (by omega) hr0 hrl hlast, KeyValueSpec.parse, h2]
          · simp only [hm, if_false]
  exact gen _ _ _ (by omega) h0 hl herr

/-- C120 for numeric values: same, a value that is no number stops the parsing. -/
theorem C120_numeric_partial {σ : Type} (num : Bytes → Option Int) (cb : σ → Bytes → Int → σ × Bool) (st : σ) (text : Bytes) (err : Bool)
    (h0 : 0 ∉ text) (hl : ∀ l ∈ lines text, l.length ≤ 1023) (herr : err = true → text = [] ∨ text.getLast? = some 10) :
    parseNumeric num cb err (text.length + 1) st text = some (KeyValueSpec.parse (numeric num cb) st text err) := by
  have := C120_parse_partial (numeric num cb) st text err h0 hl herr
  rw [← this, parseNumeric]
  congr 1
  funext st k v
  rw [numeric]
  cases num v <;> rfl

/-- Two lines, the second without newline: "a:1\nb:" -/
example : KeyValueSpec.parse (fun (s : List (Bytes × Bytes)) k v => (s ++ [(k, v)], true)) [] [97, 58, 49, 10, 98, 58] false =
    ([([97], [49, 10]), ([98], [])], true) := by decide

/-- Finding: what a line has beyond 1023 bytes is taken for another line (proc_keyvalue.c:61-63), so a long value containing a colon makes the user
function see a key that is not in the file. -/
theorem C120_long_line_negated :
    ¬ ∀ (text : Bytes), 0 ∉ text →
      parse (fun (s : List (Bytes × Bytes)) k v => (s ++ [(k, v)], true)) false (text.length + 1) [] text =
        some (KeyValueSpec.parse (fun s k v => (s ++ [(k, v)], true)) [] text false) := by
  intro h
  have := h ([97, 58] ++ List.replicate 1021 98 ++ [99, 58, 100, 10]) (by decide +kernel)
  exact absurd this (by decide +kernel)

theorem takeLine_long : ∀ (n : Nat) (s l : Bytes) (ls : List Bytes), lines s = l :: ls → n < l.length →
    takeLine n s = (l.take n, s.drop n) ∧ lines (s.drop n) = l.drop n :: ls ∧ n < s.length := by
  intro n
  induction n with
  | zero =>
    intro s l ls h hn
    cases s with
    | nil => cases h
    | cons c s => exact ⟨rfl, h, by simp⟩
  | succ n ih =>
    intro s l ls h hn
    cases s with
    | nil => cases h
    | cons c s =>
      rw [lines] at h
      by_cases hc : c = 10
      · rw [if_pos hc] at h
        injection h with h1 h2
        subst h1
        simp at hn
      · rw [if_neg hc] at h
        cases hl : lines s with
        | nil =>
          rw [hl] at h
          injection h with h1 h2
          subst h1
          simp at hn
        | cons l' ls' =>
          rw [hl] at h
          injection h with h1 h2
          subst h1 h2
          obtain ⟨e1, e2, e3⟩ := ih s l' ls' hl (by simpa using hn)
          refine ⟨by simp [takeLine, hc, e1], by simpa using e2, by simp; omega⟩

theorem lines_cons {s : Bytes} (h : s ≠ []) : ∃ l ls, lines s = l :: ls := by
  cases hls : lines s with
  | cons l ls => exact ⟨l, ls, rfl⟩
  | nil =>
    cases s with
    | nil => exact absurd rfl h
    | cons d s =>
      rw [lines] at hls
      split at hls
      · cases hls
      · split at hls <;> cases hls

/-- One `fgets` takes the first piece and leaves the others. -/
theorem takeLine_piece {s : Bytes} (h : s ≠ []) : (takeLine 1023 s).2.length < s.length ∧ allPieces s = (takeLine 1023 s).1 :: allPieces (takeLine 1023 s).2 ∧ (takeLine 1023 s).1 ≠ [] := by
  obtain ⟨l, ls, hl⟩ := lines_cons h
  have hne := (lines_ne s l (by rw [hl]; simp)).1
  by_cases hn : l.length ≤ 1023
  · obtain ⟨h1, h2, h3, h4⟩ := takeLine_lines s 1023 h l ls hl hn
    refine ⟨h3, ?_, by rw [h1]; exact hne⟩
    rw [allPieces, allPieces, h2, h1, hl, List.flatMap_cons, pieces, if_pos hn, if_neg hne, List.singleton_append]
  · obtain ⟨h1, h2, h3⟩ := takeLine_long 1023 s l ls hl (by omega)
    rw [h1]
    refine ⟨by simp; omega, ?_, by simp [hne]⟩
    rw [allPieces, allPieces, h2, hl, List.flatMap_cons, List.flatMap_cons, pieces, if_neg hn, List.cons_append]

theorem allPieces_nil_iff (s : Bytes) : allPieces s = [] ↔ s = [] := by
  constructor
  · intro h
    apply Decidable.byContradiction
    intro hs
    rw [(takeLine_piece hs).2.1] at h
    cases h
  · rintro rfl; rfl

theorem readPieces_cons {s : Bytes} {err : Bool} {p r : Bytes} (h : allPieces s = p :: allPieces r) :
    readPieces s err = if r = [] ∧ err = true ∧ short p = true then [] else p :: readPieces r err := by
  unfold readPieces
  rw [h]
  by_cases hr : r = []
  · subst hr
    have : allPieces [] = [] := rfl
    rw [this]
    cases err <;> cases hp : short p <;> simp [hp]
  · have hr' : allPieces r ≠ [] := fun e => hr ((allPieces_nil_iff r).1 e)
    obtain ⟨q, qs, hq⟩ := List.exists_cons_of_ne_nil hr'
    rw [hq]
    simp only [List.getLast?_cons_cons, hr, false_and, if_false]
    split <;> simp

theorem nul_takeWhile (p : Bytes) : 0 ∉ p.takeWhile (· ≠ 0) := by
  induction p with
  | nil => simp
  | cons c p ih =>
    by_cases h : c = 0
    · simp [h]
    · rw [List.takeWhile_cons_of_pos (by simpa using h)]
      simp only [List.mem_cons, not_or]
      exact ⟨fun e => h e.symm, ih⟩

theorem strchr_any : ∀ (l : Bytes), strchr 58 l = strchr 58 (l.takeWhile (· ≠ 0)) ∧ ∀ i, strchr 58 l = some i →
    cstr (l.take i) = (l.takeWhile (· ≠ 0)).take i ∧ cstr (l.drop (i + 1)) = (l.takeWhile (· ≠ 0)).drop (i + 1) := by
  intro l
  induction l with
  | nil => exact ⟨rfl, by simp [strchr]⟩
  | cons c l ih =>
    by_cases h0 : c = 0
    · subst h0; exact ⟨by simp [strchr], by simp [strchr]⟩
    · rw [List.takeWhile_cons_of_pos (by simpa using h0)]
      by_cases hc : c = 58
      · refine ⟨by simp [strchr, h0, hc], ?_⟩
        intro i hi
        subst hc
        have : i = 0 := by simpa [strchr] using hi.symm
        subst this
        simp [cstr]
      · refine ⟨by simp only [strchr, h0, hc, if_false]; rw [ih.1], ?_⟩
        intro i hi
        simp only [strchr, h0, hc, if_false, Option.map_eq_some_iff] at hi
        obtain ⟨j, hj, rfl⟩ := hi
        obtain ⟨e1, e2⟩ := ih.2 j hj
        refine ⟨?_, by simpa using e2⟩
        rw [List.take_succ_cons, List.take_succ_cons, ← e1, cstr, List.takeWhile_cons_of_pos (by simpa using h0)]
        rfl

/-- **C120** for every text, with lines of any length, NUL bytes and read errors anywhere: the pieces of the lines are given to the user function as if they were lines. -/
theorem C120_any_text {σ : Type} (cb : Callback σ) (st : σ) (text : Bytes) (err : Bool) :
    parse cb err (text.length + 1) st text = some (parseAny cb st text err) := by
  have gen : ∀ (fuel : Nat) (text : Bytes) (st : σ), text.length < fuel → parse cb err fuel st text = some (parseAny cb st text err) := by
    intro fuel
    induction fuel with
    | zero => intro text st h; omega
    | succ fuel ih =>
      intro text st hf
      by_cases ht : text = []
      · subst ht
        cases err <;> rfl
      · obtain ⟨h1, h2, h3⟩ := takeLine_piece ht
        have hrp := readPieces_cons (err := err) h2
        generalize hp : (takeLine 1023 text).1 = p at *
        generalize hr : (takeLine 1023 text).2 = r at *
        have hfg : fgets 1024 text err = if r = [] ∧ err = true ∧ short p = true then none else some (p, r) := by
          cases text with
          | nil => exact absurd rfl ht
          | cons d s =>
            rw [fgets]
            case x_1 => exact ht
            simp only [show 1024 - 1 = 1023 from rfl, hp, hr, short]
            have : takeLine 1023 (d :: s) = (p, r) := by rw [← hp, ← hr]
            rw [this]
            congr 1
            simp only [Bool.and_eq_true, decide_eq_true_eq, Bool.not_eq_true', beq_eq_false_iff_ne, bne_iff_ne, eq_iff_iff]
            constructor
            · rintro ⟨⟨⟨a, b⟩, c⟩, d⟩; exact ⟨a, b, d, c⟩
            · rintro ⟨a, b, d, c⟩; exact ⟨⟨⟨a, b⟩, c⟩, d⟩
        rw [parse, hfg, parseAny, hrp]
        by_cases hc : r = [] ∧ err = true ∧ short p = true
        · rw [if_pos hc, if_pos hc]
          rfl
        · rw [if_neg hc, if_neg hc]
          simp only [List.map_cons]
          obtain ⟨g1, g2⟩ := strchr_any p
          have g0 : 0 ∉ p.takeWhile (· ≠ 0) := nul_takeWhile p
          rw [strchr_ok _ g0] at g1
          rw [feed]
          by_cases hm : 58 ∈ p.takeWhile (· ≠ 0)
          · rw [if_pos hm] at g1
            obtain ⟨g3, g4⟩ := g2 _ g1
            simp only [g1, if_pos hm]
            rw [g3, g4, take_takeWhile, drop_takeWhile]
            cases hcb : cb st ((p.takeWhile (· ≠ 0)).takeWhile (· ≠ 58)) (((p.takeWhile (· ≠ 0)).dropWhile (· ≠ 58)).drop 1) with
            | mk st' b =>
              cases b with
              | false => rfl
              | true => simp only; rw [ih r st' (by omega), parseAny]
          · rw [if_neg hm] at g1
            simp only [g1, if_neg hm]
  exact gen _ _ _ (by omega)

/-- **C120** for numbers, every text. -/
theorem C120_any_numeric {σ : Type} (num : Bytes → Option Int) (cb : σ → Bytes → Int → σ × Bool) (st : σ) (text : Bytes) (err : Bool) :
    parseNumeric num cb err (text.length + 1) st text = some (parseAny (numeric num cb) st text err) := by
  rw [← C120_any_text, parseNumeric]
  congr 1
  funext st k v
  rw [numeric]
  cases num v <;> rfl

/-- A line with a NUL, one complete, one cut short by a read error: "a:1\0x\nb:2\nc:3" -/
example : parseAny (fun (s : List (Bytes × Bytes)) k v => (s ++ [(k, v)], true)) [] [97, 58, 49, 0, 120, 10, 98, 58, 50, 10, 99, 58, 51] true =
    ([([97], [49]), ([98], [50, 10])], false) := by decide +kernel

end KeyValue
