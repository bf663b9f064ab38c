import Verif.Model.Format
import Verif.Model.Bytes
import Verif.Spec.Format
import Verif.Props.Snprintf
/-! # C154: formatted output is complete -/
namespace Format
open Snprintf (Bytes Arg)
open FormatSpec

/-- **C154.** Every call is one of three kinds: undefined, refused, or there is a text. -/
theorem C154_kinds (sep format : Bytes) (args : List Arg) : Undefined sep format args ∨ Refused sep format args ∨ ∃ t, Prints sep format args t := by
  obtain ⟨r, hr⟩ := C98_one_text_for_every_buffer sep format args
  cases r with
  | none => left; intro str size hs; rw [hr str size hs]; rfl
  | some x =>
    obtain ⟨t, big, st⟩ := x
    right
    by_cases hb : big = true ∨ t.length ≥ 2147483647
    · left
      intro str size hs
      rw [hr str size hs]
      exact ⟨_, st, by simp only [Option.map_some, if_pos hb]; rfl⟩
    · right
      refine ⟨t, by omega, fun str size hs => ⟨st, ?_⟩⟩
      rw [hr str size hs]
      simp only [Option.map_some, if_neg hb]
      cases str <;> rfl

theorem asSize_nat (n : Nat) (h : n < 18446744073709551616) : asSize (n : Int) = n := by unfold asSize; omega

theorem mapM_some (l : Bytes) : (l.map some).mapM id = some l := by
  induction l with
  | nil => rfl
  | cons a l ih => rw [List.map_cons, List.mapM_cons, ih]; rfl

theorem readBytes_filled (blk : List (Option UInt8)) (size : Nat) (t : Bytes) (h : size ≤ blk.length) (ht : t.length < size) : readBytes (Snprintf.Spec.filled blk size t) t.length = some t := by
  have h1 : t.take (size - 1) = t := List.take_of_length_le (by omega)
  rw [Snprintf.Spec.filled, if_neg (by omega), h1, readBytes, if_pos (by simp)]
  rw [List.take_append_of_le_length (by simp), List.take_of_length_le (by simp), mapM_some]

theorem toStream_filled (k : Nat) (blk : List (Option UInt8)) (size : Nat) (t : Bytes) (h : size ≤ blk.length) (ht : t.length < size) :
    toStream k (Snprintf.Spec.filled blk size t) (t.length : Int) = some (t.take k, ((t.take k).length : Int)) := by
  rw [toStream]
  by_cases h0 : t = []
  · subst h0; simp
  · have := List.length_pos_iff.2 h0
    rw [if_pos (by omega), fwrite, Int.toNat_natCast, readBytes_filled blk size t h ht]; rfl

/-- **C154.** `fprintf`, `printf` and their `va_list` forms hand the stream the whole text, whatever its length, and return its length; the stream may take fewer bytes, then the number it
took is returned. -/
theorem C154_stream_gets_the_text (sep format : Bytes) (args : List Arg) (t : Bytes) (h : Prints sep format args t) (k : Nat) :
    vfprintf sep true k format args = some (t.take k, ((t.take k).length : Int)) := by
  obtain ⟨hl, hp⟩ := h
  obtain ⟨st, h1⟩ := hp (some (List.replicate 1024 none)) 1024 (by intro b hb; cases hb; exact (Nat.le_of_eq List.length_replicate.symm))
  rw [vfprintf, h1, Option.bind_some]
  simp only
  rw [asSize_nat _ (by omega)]
  by_cases hbig : 1024 ≤ t.length
  · rw [if_pos hbig, if_neg (by omega), if_neg (by simp)]
    have e : asSize ((t.length : Int) + 1) = t.length + 1 := asSize_nat (t.length + 1) (by omega)
    rw [e]
    obtain ⟨st', h2⟩ := hp (some (List.replicate (t.length + 1) none)) (t.length + 1) (by intro b hb; cases hb; simp)
    rw [h2, Option.bind_some]
    simp only
    rw [asSize_nat _ (by omega), if_neg (by omega)]
    exact toStream_filled k _ _ t (Nat.le_of_eq List.length_replicate.symm) (by omega)
  · rw [if_neg hbig]
    exact toStream_filled k _ _ t (Nat.le_of_eq List.length_replicate.symm) (by omega)

/-- **C154.** What cannot be formatted is not written at all and gives -1; so does a text of 1024 bytes or more when there is no memory. -/
theorem C154_stream_refused (sep format : Bytes) (args : List Arg) :
    (Refused sep format args → ∀ mallocOk k, vfprintf sep mallocOk k format args = some ([], -1)) ∧
    (∀ t k, Prints sep format args t → 1024 ≤ t.length → vfprintf sep false k format args = some ([], -1)) ∧
    (∀ t k, Prints sep format args t → t.length < 1024 → vfprintf sep false k format args = vfprintf sep true k format args) := by
  refine ⟨?_, ?_, ?_⟩
  · intro h m k
    obtain ⟨b, st, h1⟩ := h (some (List.replicate 1024 none)) 1024 (by intro b hb; cases hb; exact (Nat.le_of_eq List.length_replicate.symm))
    rw [vfprintf, h1, Option.bind_some]
    simp only
    rw [if_pos (by decide), if_neg (by decide)]
    cases m with
    | false => rfl
    | true =>
      obtain ⟨b', st', h2⟩ := h (some (List.replicate (asSize (-1 + 1)) none)) (asSize (-1 + 1)) (by intro b hb; cases hb; simp)
      rw [if_neg (by simp), h2, Option.bind_some]
      simp only
      rw [if_pos (by decide)]
      rfl
  · intro t k h hb
    obtain ⟨st, h1⟩ := h.2 (some (List.replicate 1024 none)) 1024 (by intro b hb; cases hb; exact (Nat.le_of_eq List.length_replicate.symm))
    rw [vfprintf, h1, Option.bind_some]
    simp only
    rw [asSize_nat _ (by have := h.1; omega), if_pos hb, if_neg (by have := h.1; omega), if_pos trivial]
  · intro t k h hb
    obtain ⟨st, h1⟩ := h.2 (some (List.replicate 1024 none)) 1024 (by intro b hb; cases hb; exact (Nat.le_of_eq List.length_replicate.symm))
    rw [vfprintf, vfprintf, h1, Option.bind_some, Option.bind_some]
    simp only
    rw [asSize_nat _ (by have := h.1; omega), if_neg (by omega), if_neg (by omega)]

/-- **C154** (negation of "a negative value if there is an error", C99 7.19.6.1): when the stream does not take everything, the number of bytes it took is returned, 0 if it is none. -/
theorem C154_short_write_negated (sep format : Bytes) (args : List Arg) (t : Bytes) (h : Prints sep format args t) : vfprintf sep true 0 format args = some ([], 0) := by
  rw [C154_stream_gets_the_text sep format args t h 0]; simp

/-- "a%d" with 7 has a text; "a%2147483648d" is refused; "%d" without argument is undefined. -/
example : (∃ t, Prints [] (bytes! "a%d") [.w32 7] t) ∧ vfprintf [] true 9 (bytes! "a%d") [.w32 7] = some (bytes! "a7", 2) ∧ vfprintf [] true 1 (bytes! "a%d") [.w32 7] = some (bytes! "a", 1) := by
  refine ⟨?_, by decide +kernel, by decide +kernel⟩
  rcases C154_kinds [] (bytes! "a%d") [.w32 7] with h | h | h
  · exact absurd (h none 0 (by intro b hb; cases hb)) (by decide +kernel)
  · obtain ⟨b, st, h⟩ := h none 0 (by intro b hb; cases hb)
    have e : (Snprintf.vsnprintf [] none 0 (bytes! "a%d") [.w32 7]).map (fun r => r.2.1) = some 2 := by decide +kernel
    rw [h] at e; exact absurd e (by simp)
  · exact h
theorem refused_example : Refused [] (bytes! "a%2147483648d") [.w32 7] := by
  rcases C154_kinds [] (bytes! "a%2147483648d") [.w32 7] with h | h | ⟨t, h⟩
  · exact absurd (h none 0 (by intro b hb; cases hb)) (by decide +kernel)
  · exact h
  · obtain ⟨st, h⟩ := h.2 none 0 (by intro b hb; cases hb)
    have e : (Snprintf.vsnprintf [] none 0 (bytes! "a%2147483648d") [.w32 7]).map (fun r => r.2.1) = some (-1) := by decide +kernel
    rw [h] at e
    simp at e
example : vfprintf [] true 9 (bytes! "a%2147483648d") [.w32 7] = some ([], -1) := (C154_stream_refused _ _ _).1 refused_example true 9
example : Undefined [] (bytes! "%d") [] := by
  rcases C154_kinds [] (bytes! "%d") [] with h | h | ⟨t, h⟩
  · exact h
  · obtain ⟨b, st, h⟩ := h none 0 (by intro b hb; cases hb)
    exact absurd (show Snprintf.vsnprintf [] none 0 (bytes! "%d") [] = none by decide +kernel) (by rw [h]; simp)
  · obtain ⟨st, h⟩ := h.2 none 0 (by intro b hb; cases hb)
    exact absurd (show Snprintf.vsnprintf [] none 0 (bytes! "%d") [] = none by decide +kernel) (by rw [h]; simp)

theorem vasprintf_prints {sep format : Bytes} {args : List Arg} {t : Bytes} (h : Prints sep format args t) (m : Bool) :
    Snprintf.vasprintf sep m format args = some (if m then (some ((t ++ [0]).map some), (t.length : Int)) else (none, -1)) := by
  obtain ⟨st, h1⟩ := h.2 none 0 (by intro b hb; cases hb)
  rw [Snprintf.vasprintf, h1, Option.bind_some]
  cases m with
  | false => simp
  | true =>
    simp only
    rw [if_neg (by simp)]
    have e : ((t.length : Int) + 1).toNat = t.length + 1 := by omega
    rw [e]
    obtain ⟨st', h2⟩ := h.2 (some (List.replicate (t.length + 1) none)) (t.length + 1) (by intro b hb; cases hb; simp)
    rw [h2]
    simp [Snprintf.Spec.filled]

theorem vasprintf_refused {sep format : Bytes} {args : List Arg} (h : Refused sep format args) (m : Bool) : Snprintf.vasprintf sep m format args = some (none, -1) := by
  obtain ⟨b, st, h1⟩ := h none 0 (by intro b hb; cases hb)
  rw [Snprintf.vasprintf, h1, Option.bind_some]
  simp

/-- **C154.** `xasprintf`/`xvasprintf` store the whole text with its terminator in a block of just that size and return its length; if there is no memory, or the text is refused, the process ends
with the status 255: they never return an error. -/
theorem C154_xasprintf (sep format : Bytes) (args : List Arg) :
    (∀ t, Prints sep format args t → xvasprintf sep true format args = some (.returns ((t ++ [0]).map some, (t.length : Int))) ∧ xvasprintf sep false format args = some (.exits 255)) ∧
    (Refused sep format args → ∀ m, xvasprintf sep m format args = some (.exits 255)) := by
  constructor
  · intro t h
    rw [xvasprintf, xvasprintf, vasprintf_prints h, vasprintf_prints h]
    constructor
    · simp only [Option.map_some, if_true]
      rw [if_neg (by omega)]; rfl
    · rfl
  · intro h m
    rw [xvasprintf, vasprintf_refused h]; rfl

/-- **C154.** `StringFormat` never returns NULL: the text, or the end of the process. -/
theorem C154_stringFormat (sep format : Bytes) (args : List Arg) (m : Bool) :
    (∀ t, Prints sep format args t → stringFormat sep true format args = some (.returns (some ((t ++ [0]).map some)))) ∧
    (Refused sep format args → stringFormat sep m format args = some (.exits 255)) ∧
    stringFormat sep m format args ≠ some (.returns none) := by
  obtain ⟨h1, h2⟩ := C154_xasprintf sep format args
  refine ⟨?_, ?_, ?_⟩
  · intro t h
    rw [stringFormat, (h1 t h).1, Option.map_some, formatted]
    simp only
    rw [if_neg (by omega)]
  · intro h; rw [stringFormat, h2 h m]; rfl
  · rcases C154_kinds sep format args with h | h | ⟨t, h⟩
    · rw [stringFormat, xvasprintf, Snprintf.vasprintf, h none 0 (by intro b hb; cases hb)]; simp
    · rw [stringFormat, h2 h m]; simp [formatted]
    · rw [stringFormat]
      cases m with
      | true =>
        rw [(h1 t h).1, Option.map_some, formatted]
        simp only
        rw [if_neg (by omega)]; simp
      | false => rw [(h1 t h).2]; simp [formatted]

theorem filled_length (blk : List (Option UInt8)) (size : Nat) (t : Bytes) (h : size ≤ blk.length) : (Snprintf.Spec.filled blk size t).length = blk.length := by
  rw [Snprintf.Spec.filled]
  by_cases h0 : size = 0
  · rw [if_pos h0]
  · rw [if_neg h0]; simp; omega

/-- **C154.** `xsnprintf` in a debugging build: it returns only when the whole text and its terminator are in the buffer (or the text was refused, then the empty string is); otherwise the
process is aborted. In a release build a text that does not fit is cut, as by `snprintf`. -/
theorem C154_xsnprintf (sep format : Bytes) (args : List Arg) (blk : List (Option UInt8)) (size : Nat) (hs : size ≤ blk.length) (h0 : blk ≠ []) (nd : Bool) :
    (∀ t, Prints sep format args t → t.length < size → xsnprintf sep nd blk size format args = some (.returns ((t ++ [0]).map some ++ blk.drop (t.length + 1)))) ∧
    (∀ t, Prints sep format args t → size ≤ t.length → xsnprintf sep nd blk size format args = some (if nd then .returns (Snprintf.Spec.filled blk size t) else .aborts)) ∧
    (Refused sep format args → ∃ rest, rest.length + 1 = blk.length ∧ xsnprintf sep nd blk size format args = some (.returns (some 0 :: rest))) := by
  refine ⟨?_, ?_, ?_⟩
  · intro t h ht
    obtain ⟨st, h1⟩ := h.2 (some blk) size (by intro b hb; cases hb; exact hs)
    rw [xsnprintf, h1, Option.bind_some]
    simp only
    rw [if_neg (by omega), asSize_nat _ (by have := h.1; omega), if_neg (by omega), Snprintf.Spec.filled, if_neg (by omega), List.take_of_length_le (l := t) (by omega)]
    simp
  · intro t h ht
    obtain ⟨st, h1⟩ := h.2 (some blk) size (by intro b hb; cases hb; exact hs)
    rw [xsnprintf, h1, Option.bind_some]
    simp only
    rw [if_neg (by omega), asSize_nat _ (by have := h.1; omega), if_pos ht]
    cases nd <;> rfl
  · intro h
    obtain ⟨b, st, h1⟩ := h (some blk) size (by intro b hb; cases hb; exact hs)
    have hb : b.length = blk.length := by
      obtain ⟨r, hr⟩ := C98_one_text_for_every_buffer sep format args
      have h2 := hr (some blk) size (by intro b hb; cases hb; exact hs)
      rw [h1] at h2
      cases r with
      | none => cases h2
      | some x =>
        obtain ⟨t, big, st'⟩ := x
        simp only [Option.map_some, Option.some.injEq, Prod.mk.injEq] at h2
        rw [h2.1]; exact filled_length blk size t hs
    have hpos := List.length_pos_iff.2 h0
    rw [xsnprintf, h1, Option.bind_some]
    simp only
    rw [if_pos (by omega)]
    obtain ⟨x, rest, rfl⟩ := List.exists_cons_of_ne_nil (List.length_pos_iff.1 (hb ▸ hpos))
    exact ⟨rest, by simpa using hb, by simp [CMem.write]⟩

/-- **C154** (finding): `xsnprintf` of a text that is refused writes a terminator whatever the size: into a buffer of size 0 that is a write outside it. -/
theorem C154_xsnprintf_size_zero_negated (sep format : Bytes) (args : List Arg) (h : Refused sep format args) (nd : Bool) : xsnprintf sep nd [] 0 format args = none := by
  obtain ⟨b, st, h1⟩ := h (some []) 0 (by intro b hb; cases hb; simp)
  have hb : b = [] := by
    obtain ⟨r, hr⟩ := C98_one_text_for_every_buffer sep format args
    have h2 := hr (some []) 0 (by intro b hb; cases hb; simp)
    rw [h1] at h2
    cases r with
    | none => cases h2
    | some x =>
      obtain ⟨t, big, st'⟩ := x
      simp only [Option.map_some, Option.some.injEq, Prod.mk.injEq] at h2
      rw [h2.1]; simp [Snprintf.Spec.filled]
  rw [xsnprintf, h1, hb, Option.bind_some]
  simp [CMem.write]

/-- The three cases: "a7" in three bytes; in two, in a debugging and in a release build; refused. -/
example : xsnprintf [] false [none, none, none] 3 (bytes! "a%d") [.w32 7] = some (.returns [some 97, some 55, some 0]) ∧
    xsnprintf [] false [none, none] 2 (bytes! "a%d") [.w32 7] = some .aborts ∧ xsnprintf [] true [none, none] 2 (bytes! "a%d") [.w32 7] = some (.returns [some 97, some 0]) ∧
    xsnprintf [] false [none, none] 2 (bytes! "a%2147483648d") [.w32 7] = some (.returns [some 0, some 0]) ∧ xsnprintf [] false [] 0 (bytes! "a%2147483648d") [.w32 7] = none := by
  refine ⟨by decide +kernel, by decide +kernel, by decide +kernel, by decide +kernel, by decide +kernel⟩

theorem str_text : ∀ t : Bytes, CMem.str ((t ++ [0]).map some) = some (t.takeWhile (· ≠ 0))
  | [] => rfl
  | c :: t => by
    rw [List.cons_append, List.map_cons, CMem.str]
    by_cases h : c = 0
    · simp [h]
    · rw [if_neg h, str_text t]; simp [h]

/-- **C154.** `CsvWriterFieldF` writes the same as `CsvWriterField` of the text (to its first NUL), or ends the process. -/
theorem C154_csvFieldF (sep format : Bytes) (args : List Arg) (cw : CsvWriter.CW) :
    (∀ t, Prints sep format args t → csvFieldF sep true cw format args = (CsvWriter.field cw (t.takeWhile (· ≠ 0))).map .returns) ∧
    (Refused sep format args → ∀ m, csvFieldF sep m cw format args = some (.exits 255)) := by
  obtain ⟨h1, h2⟩ := C154_xasprintf sep format args
  constructor
  · intro t h
    rw [csvFieldF, (h1 t h).1, Option.bind_some, csvPut]
    simp only
    rw [str_text, Option.bind_some]
  · intro h m; rw [csvFieldF, h2 h m]; rfl

/-- Which texts: for the formats and arguments of property C99 the text is the standard's. -/
theorem prints_text (ps : List Snprintf.Spec.Piece) (args : List Arg) (is : List Snprintf.Spec.Item) (hwf : ∀ p ∈ ps, p.wf)
    (hr : Snprintf.Spec.resolve ps args = some is) (hok : ∀ i ∈ is, i.ok) (hl : (Snprintf.Spec.text is).length < 2147483647) :
    Prints [] (Snprintf.Spec.unparse ps) args (Snprintf.Spec.text is) := by
  obtain ⟨r, h⟩ := C98_one_text_for_every_buffer [] (Snprintf.Spec.unparse ps) args
  let T := Snprintf.Spec.text is
  have h1 := C99_text_is_that_of_the_standard_partial ps args is hwf hr hok (List.replicate (T.length + 1) none) (T.length + 1) (by simp)
  have e : ∀ t : Bytes, t.length = T.length → Snprintf.Spec.filled (List.replicate (T.length + 1) none) (T.length + 1) t = (t ++ [0]).map some := by
    intro t ht
    rw [Snprintf.Spec.filled, if_neg (by omega), Nat.add_sub_cancel, List.take_of_length_le (by omega), ht]
    simp
  rw [h (some (List.replicate (T.length + 1) none)) (T.length + 1) (by intro b hb; cases hb; simp), if_neg (by omega)] at h1
  cases r with
  | none => cases h1
  | some x =>
    obtain ⟨t, big, st⟩ := x
    simp only [Option.map_some, Option.some.injEq, Prod.mk.injEq] at h1
    obtain ⟨h1, h2, -⟩ := h1
    by_cases hb : big = true ∨ t.length ≥ 2147483647
    · rw [if_pos hb] at h2; omega
    · rw [if_neg hb] at h2
      have hlen : t.length = T.length := Int.ofNat_inj.1 h2
      rw [e t hlen, e T rfl] at h1
      have ht : t = T := by
        have := (List.map_inj_right (fun _ _ => Option.some.inj)).1 h1
        simpa using this
      refine ⟨hl, fun str size hs => ⟨st, ?_⟩⟩
      rw [h str size hs, Option.map_some]
      simp only
      rw [if_neg hb, ht]
      cases str <;> rfl

theorem unparse_chr (b : Bytes) (ps : List Snprintf.Spec.Piece) : Snprintf.Spec.unparse (b.map .chr ++ ps) = b ++ Snprintf.Spec.unparse ps := by
  induction b with
  | nil => rfl
  | cons c b ih =>
    show c :: Snprintf.Spec.unparse (b.map .chr ++ ps) = _
    rw [ih]; rfl

theorem resolve_chr (b : Bytes) (ps : List Snprintf.Spec.Piece) (as : List Arg) :
    Snprintf.Spec.resolve (b.map .chr ++ ps) as = (Snprintf.Spec.resolve ps as).map (b.map .chr ++ ·) := by
  induction b with
  | nil => simp
  | cons c b ih =>
    show (Snprintf.Spec.resolve (b.map .chr ++ ps) as).map (.chr c :: ·) = _
    rw [ih, Option.map_map]; rfl

theorem resolve_then_chr (c : UInt8) : ∀ (ps : List Snprintf.Spec.Piece) (as : List Arg),
    Snprintf.Spec.resolve (ps ++ [.chr c]) as = (Snprintf.Spec.resolve ps as).map (· ++ [.chr c])
  | [], as => rfl
  | .chr d :: ps, as => by
    show (Snprintf.Spec.resolve (ps ++ [.chr c]) as).map _ = ((Snprintf.Spec.resolve ps as).map _).map _
    rw [resolve_then_chr c ps as, Option.map_map, Option.map_map]; rfl
  | .percent :: ps, as => by
    show (Snprintf.Spec.resolve (ps ++ [.chr c]) as).map _ = ((Snprintf.Spec.resolve ps as).map _).map _
    rw [resolve_then_chr c ps as, Option.map_map, Option.map_map]; rfl
  | .dir d :: ps, as => by
    show ((Snprintf.Spec.resolveDir d as).bind fun x => (Snprintf.Spec.resolve (ps ++ [.chr c]) x.2).map (x.1 :: ·)) =
      ((Snprintf.Spec.resolveDir d as).bind fun x => (Snprintf.Spec.resolve ps x.2).map (x.1 :: ·)).map (· ++ [.chr c])
    cases Snprintf.Spec.resolveDir d as with
    | none => rfl
    | some x =>
      simp only [Option.bind_some]
      rw [resolve_then_chr c ps x.2, Option.map_map, Option.map_map]; rfl

theorem text_chr (b : Bytes) : Snprintf.Spec.text (b.map .chr) = b := by
  induction b with
  | nil => rfl
  | cons c b ih => show c :: Snprintf.Spec.text (b.map .chr) = _; rw [ih]

theorem text_append (a b : List Snprintf.Spec.Item) : Snprintf.Spec.text (a ++ b) = Snprintf.Spec.text a ++ Snprintf.Spec.text b := by simp [Snprintf.Spec.text]

theorem takeWhile_all {p : UInt8 → Bool} : ∀ s : Bytes, (∀ c ∈ s, p c = true) → s.takeWhile p = s
  | [], _ => rfl
  | c :: s, h => by rw [List.takeWhile_cons_of_pos (h c (by simp)), takeWhile_all s fun d hd => h d (by simp [hd])]

theorem takeWhile_term (s : Bytes) (h : 0 ∉ s) : (s ++ [0]).takeWhile (fun c => decide (c ≠ 0)) = s := by
  induction s with
  | nil => rfl
  | cons c s ih =>
    have h1 : c ≠ 0 := fun e => h (by rw [e]; simp)
    have h2 : 0 ∉ s := fun e => h (by simp [e])
    rw [List.cons_append, List.takeWhile_cons_of_pos (by simpa using h1), ih h2]

theorem digits_numeral (n : Nat) : Snprintf.Spec.digits .d n false none = Snprintf.Spec.numeral 10 n := by
  by_cases h : n = 0
  · subst h; decide
  · have : 0 < (Snprintf.Spec.numeral 10 n).length := by rw [Snprintf.Spec.numeral, List.length_map]; exact Nat.length_toDigits_pos
    simp only [Snprintf.Spec.digits, if_neg h, Snprintf.Spec.zeroPad, Snprintf.Spec.base, Option.getD_none, reduceCtorEq, if_false, false_and]
    rw [Nat.sub_eq_zero_of_le this]; rfl

/-- `"%s:%d: kind%s\n"`. -/
theorem errorFormat (kind file format : Bytes) (line : Nat) (hk : 37 ∉ kind) (hf : 0 ∉ file) (hg : 0 ∉ format) (hline : line < 2147483648)
    (hl : (file ++ [58] ++ Snprintf.Spec.numeral 10 line ++ [58, 32] ++ kind ++ format ++ [10]).length < 2147483647) :
    Prints [] ([37, 115, 58, 37, 100, 58, 32] ++ kind ++ [37, 115, 10]) [.str (file ++ [0]), .w32 line, .str (format ++ [0])]
      (file ++ [58] ++ Snprintf.Spec.numeral 10 line ++ [58, 32] ++ kind ++ format ++ [10]) := by
  let S : Snprintf.Spec.Piece := .dir ⟨[], .absent, .absent, .none, .s⟩
  let D : Snprintf.Spec.Piece := .dir ⟨[], .absent, .absent, .none, .int .d⟩
  let ps : List Snprintf.Spec.Piece := S :: .chr 58 :: D :: .chr 58 :: .chr 32 :: (kind.map .chr ++ [S, .chr 10])
  let is : List Snprintf.Spec.Item := .str (file ++ [0]) false 0 none :: .chr 58 :: .int .d line false false false false false 0 none :: .chr 58 :: .chr 32 ::
    (kind.map .chr ++ [.str (format ++ [0]) false 0 none, .chr 10])
  have e1 : Snprintf.Spec.unparse ps = [37, 115, 58, 37, 100, 58, 32] ++ kind ++ [37, 115, 10] := by
    show 37 :: 115 :: 58 :: 37 :: 100 :: 58 :: 32 :: Snprintf.Spec.unparse (kind.map .chr ++ [S, .chr 10]) = _
    rw [unparse_chr]; simp; rfl
  have hv : (BitVec.ofNat 32 line).toInt = (line : Int) := by rw [BitVec.toInt_eq_toNat_cond, BitVec.toNat_ofNat]; omega
  have e2 : Snprintf.Spec.resolve ps [.str (file ++ [0]), .w32 line, .str (format ++ [0])] = some is := by
    show ((((((Snprintf.Spec.resolve (kind.map .chr ++ [S, .chr 10]) [.str (format ++ [0])]).map (.chr 32 :: ·)).map (.chr 58 :: ·)).map
      (.int .d (BitVec.ofNat 32 line).toInt false false false false false 0 none :: ·)).map (.chr 58 :: ·)).map (.str (file ++ [0]) false 0 none :: ·)) = _
    rw [resolve_chr, hv]; rfl
  have e3 : Snprintf.Spec.text is = file ++ [58] ++ Snprintf.Spec.numeral 10 line ++ [58, 32] ++ kind ++ format ++ [10] := by
    show Snprintf.Spec.Item.text (.str (file ++ [0]) false 0 none) ++ 58 :: (Snprintf.Spec.Item.text (.int .d line false false false false false 0 none) ++
      58 :: 32 :: Snprintf.Spec.text (kind.map .chr ++ [.str (format ++ [0]) false 0 none, .chr 10])) = _
    rw [text_append, text_chr]
    have ef : ∀ s : Bytes, 0 ∉ s → Snprintf.Spec.Item.text (.str (s ++ [0]) false 0 none) = s := by
      intro s hs
      show Snprintf.Spec.inField false 0 ((s ++ [0]).takeWhile (· ≠ 0)) = s
      rw [takeWhile_term s hs]; simp [Snprintf.Spec.inField]
    have en : Snprintf.Spec.Item.text (.int .d line false false false false false 0 none) = Snprintf.Spec.numeral 10 line := by
      rw [← digits_numeral line]
      simp [Snprintf.Spec.Item.text, Snprintf.Spec.sign, Snprintf.Spec.hexPrefix, Snprintf.Spec.inField]
    have el : Snprintf.Spec.text [.str (format ++ [0]) false 0 none, .chr 10] = format ++ [10] := by
      show Snprintf.Spec.Item.text (.str (format ++ [0]) false 0 none) ++ [10] = _
      rw [ef format hg]
    rw [ef file hf, en, el]; simp
  have hlf : file.length ≤ 2147483647 := by simp at hl; omega
  have hlg : format.length ≤ 2147483647 := by simp at hl; omega
  have hwS : S.wf := ⟨fun n hn => (by cases hn), by decide, fun _ => rfl⟩
  have hwD : D.wf := ⟨fun n hn => (by cases hn), by decide, fun _ => rfl⟩
  rw [← e1, ← e3]
  apply prints_text ps _ is _ e2 _ (by rw [e3]; exact hl)
  · intro p hp
    simp only [ps, List.mem_cons, List.mem_append, List.mem_map, List.not_mem_nil, or_false] at hp
    rcases hp with rfl | rfl | rfl | rfl | rfl | ⟨c, hc, rfl⟩ | rfl | rfl
    · exact hwS
    · show (58 : UInt8) ≠ 37; decide
    · exact hwD
    · show (58 : UInt8) ≠ 37; decide
    · show (32 : UInt8) ≠ 37; decide
    · intro e; exact hk (e ▸ hc)
    · exact hwS
    · show (10 : UInt8) ≠ 37; decide
  · intro i hi
    simp only [is, List.mem_cons, List.mem_append, List.mem_map, List.not_mem_nil, or_false] at hi
    rcases hi with rfl | rfl | rfl | rfl | rfl | ⟨c, hc, rfl⟩ | rfl | rfl
    · exact .inl ⟨file.length, hlf, by simp⟩
    · trivial
    · exact ⟨by omega, fun h => by (cases h), fun h => by (cases h)⟩
    · trivial
    · trivial
    · trivial
    · exact .inl ⟨format.length, hlg, by simp⟩
    · trivial

theorem errorMessage_ok (kind file : Bytes) (line : Nat) (ps : List Snprintf.Spec.Piece) (args : List Arg) (is : List Snprintf.Spec.Item) (hk : 37 ∉ kind) (hk0 : 0 ∉ kind)
    (hf : 0 ∉ file) (hp : 37 ∉ file) (hline : line < 2147483648) (hwf : ∀ p ∈ ps, p.wf) (hg : 0 ∉ Snprintf.Spec.unparse ps)
    (hr : Snprintf.Spec.resolve ps args = some is) (hok : ∀ i ∈ is, i.ok)
    (hl : (file ++ [58] ++ Snprintf.Spec.numeral 10 line ++ [58, 32] ++ kind ++ Snprintf.Spec.unparse ps ++ [10]).length < 2147483647)
    (hl' : (file ++ [58] ++ Snprintf.Spec.numeral 10 line ++ [58, 32] ++ kind ++ Snprintf.Spec.text is ++ [10]).length < 2147483647) :
    errorMessage kind file line (Snprintf.Spec.unparse ps) args = some (file ++ [58] ++ Snprintf.Spec.numeral 10 line ++ [58, 32] ++ kind ++ Snprintf.Spec.text is ++ [10]) := by
  have hnum : ∀ c ∈ Snprintf.Spec.numeral 10 line, 48 ≤ c ∧ c ≤ 57 := by
    intro c hc
    rw [Snprintf.Spec.numeral, List.mem_map] at hc
    obtain ⟨ch, h1, rfl⟩ := hc
    have h2 := Nat.isDigit_of_mem_toDigits (by decide) (by decide) h1
    rw [Char.isDigit_iff_toNat, show '0'.toNat = 48 from rfl, show '9'.toNat = 57 from rfl] at h2
    rw [UInt8.le_iff_toNat_le, UInt8.le_iff_toNat_le, UInt8.toNat_ofNat_of_lt' (by simp [UInt8.size]; omega)]
    exact h2
  have h1 := ((C154_xasprintf [] _ _).1 _ (errorFormat kind file (Snprintf.Spec.unparse ps) line hk hf hg hline hl)).1
  rw [errorMessage, h1, Option.bind_some]
  simp only
  rw [str_text, Option.bind_some]
  generalize hpre : file ++ [58] ++ Snprintf.Spec.numeral 10 line ++ [58, 32] ++ kind = pre at *
  have hpre0 : 0 ∉ pre ∧ 37 ∉ pre := by
    subst hpre
    constructor
    · intro h
      simp only [List.mem_append, List.mem_cons, List.not_mem_nil, or_false] at h
      rcases h with (((h | h) | h) | h | h) | h
      · exact hf h
      · cases h
      · exact absurd (hnum _ h).1 (by decide)
      · cases h
      · cases h
      · exact hk0 h
    · intro h
      simp only [List.mem_append, List.mem_cons, List.not_mem_nil, or_false] at h
      rcases h with (((h | h) | h) | h | h) | h
      · exact hp h
      · cases h
      · exact absurd (hnum _ h).1 (by decide)
      · cases h
      · cases h
      · exact hk h
  have e1 : (pre ++ Snprintf.Spec.unparse ps ++ [10]).takeWhile (fun c => decide (c ≠ 0)) = Snprintf.Spec.unparse (pre.map .chr ++ (ps ++ [.chr 10])) := by
    rw [unparse_chr, takeWhile_all]
    · simp [Snprintf.Spec.unparse, Snprintf.Spec.Piece.bytes]
    · intro c hc
      simp only [List.mem_append, List.mem_cons, List.not_mem_nil, or_false] at hc
      rcases hc with (h | h) | h
      · exact decide_eq_true fun e => hpre0.1 (e ▸ h)
      · exact decide_eq_true fun e => hg (e ▸ h)
      · rw [h]; decide
  have e2 : Snprintf.Spec.text (pre.map .chr ++ (is ++ [.chr 10])) = pre ++ Snprintf.Spec.text is ++ [10] := by
    rw [text_append, text_chr, text_append, List.append_assoc]; rfl
  have h2 := prints_text (pre.map .chr ++ (ps ++ [.chr 10])) args (pre.map .chr ++ (is ++ [.chr 10])) (by
      intro p hp
      simp only [List.mem_append, List.mem_map, List.mem_cons, List.not_mem_nil, or_false] at hp
      rcases hp with ⟨c, hc, rfl⟩ | h | rfl
      · intro e; exact hpre0.2 (e ▸ hc)
      · exact hwf p h
      · show (10 : UInt8) ≠ 37; decide) (by rw [resolve_chr, resolve_then_chr, hr]; rfl) (by
      intro i hi
      simp only [List.mem_append, List.mem_map, List.mem_cons, List.not_mem_nil, or_false] at hi
      rcases hi with ⟨c, hc, rfl⟩ | h | rfl
      · trivial
      · exact hok i h
      · trivial) (by rw [e2]; exact hl')
  rw [e1, C154_stream_gets_the_text [] _ args _ h2, e2, Option.map_some, List.take_of_length_le (by omega)]

/-- **C154.** `ProgrammingError` and `UnexpectedError` print one line, the place, the kind and the text, for every format and arguments of property C99 (the name of the source file has no `%`). -/
theorem C154_error_message (file : Bytes) (line : Nat) (ps : List Snprintf.Spec.Piece) (args : List Arg) (is : List Snprintf.Spec.Item)
    (hf : 0 ∉ file) (hp : 37 ∉ file) (hline : line < 2147483648) (hwf : ∀ p ∈ ps, p.wf) (hg : 0 ∉ Snprintf.Spec.unparse ps)
    (hr : Snprintf.Spec.resolve ps args = some is) (hok : ∀ i ∈ is, i.ok)
    (hl : file.length + (Snprintf.Spec.numeral 10 line).length + (Snprintf.Spec.unparse ps).length < 2147483000)
    (hl' : file.length + (Snprintf.Spec.numeral 10 line).length + (Snprintf.Spec.text is).length < 2147483000) :
    errorMessage programming file line (Snprintf.Spec.unparse ps) args =
      some (file ++ bytes! ":" ++ Snprintf.Spec.numeral 10 line ++ bytes! ": Programming Error: " ++ Snprintf.Spec.text is ++ bytes! "\n") ∧
    errorMessage unexpected file line (Snprintf.Spec.unparse ps) args =
      some (file ++ bytes! ":" ++ Snprintf.Spec.numeral 10 line ++ bytes! ": Unexpected Error - this is a BUG, please report it: " ++ Snprintf.Spec.text is ++ bytes! "\n") := by
  constructor
  · rw [errorMessage_ok programming file line ps args is (by decide) (by decide) hf hp hline hwf hg hr hok (by simp [programming]; omega) (by simp [programming]; omega)]
    congr 1
    simp [programming]
  · rw [errorMessage_ok unexpected file line ps args is (by decide) (by decide) hf hp hline hwf hg hr hok (by simp [unexpected]; omega) (by simp [unexpected]; omega)]
    congr 1
    simp [unexpected]

/-- **C154** A programming error never returns: exit status 255 in release builds, an abort otherwise. -/
theorem C154_programming_error (α : Type) (nd : Bool) : (programmingError nd : Ending α) = (if nd = true then .exits 255 else .aborts) ∧ ∀ x, (programmingError nd : Ending α) ≠ .returns x := by
  cases nd <;> simp [programmingError]

/-- "bad %d" in file "a.c", line 12. -/
example : errorMessage programming (bytes! "a.c") 12 (bytes! "bad %d") [.w32 7] = some (bytes! "a.c:12: Programming Error: bad 7\n") := by decide +kernel
/-- A `%` in the name of the file is taken for a directive. -/
example : errorMessage programming (bytes! "%d.c") 12 (bytes! "bad %d") [.w32 7] = none := by decide +kernel

end Format
