import Verif.Lemmas.Snprintf
/-! # C98, C99, C100: formatted output (libcompat/snprintf.c) -/
open Snprintf Snprintf.Spec

/-- C98. For every format and arguments there is one text (or the call is undefined whatever the buffer): into every buffer, of every size, as much of it is written as fits before
a terminator, nothing is written behind the terminator, and the value returned is the length of the whole text, or -1 if a field was too large or the text has 2^31 - 1 bytes or more.
`str` is NULL or has at least `size` cells. -/
theorem C98_one_text_for_every_buffer (sep format : Bytes) (args : List Arg) :
    ∃ r : Option (Bytes × Bool × List Int), ∀ (str : Option (List (Option UInt8))) (size : Nat), (∀ b, str = some b → size ≤ b.length) →
      vsnprintf sep str size format args = r.map fun (t, tooLarge, stores) =>
        ((match str with | none => [] | some b => filled b size t),
          (if tooLarge = true ∨ t.length ≥ 2147483647 then -1 else (t.length : Int)), stores) := by
  obtain ⟨r, hr⟩ := su_run sep format 0 { args := args }
  refine ⟨r.map fun x => (x.2, x.1.overflow, x.1.stores), fun str size hs => ?_⟩
  have key : ∀ (blk : List (Option UInt8)) (n : Nat), n ≤ blk.length →
      ((run sep n format { args := args } ⟨blk, 0⟩).bind fun r =>
        (terminate n r.2).map fun b => (b, if r.1.overflow ∨ r.2.len ≥ 2147483647 then -1 else (r.2.len : Int), r.1.stores)) =
      (r.map fun x => (x.2, x.1.overflow, x.1.stores)).map fun (t, tooLarge, stores) =>
        (filled blk n t, (if tooLarge = true ∨ t.length ≥ 2147483647 then -1 else (t.length : Int)), stores) := by
    intro blk n hn
    have hr' := hr n blk hn
    dsimp only at hr'
    rw [hr']
    cases r with
    | none => rfl
    | some x =>
      simp only [Option.map_some, Option.bind_some, terminate_emit hn, emit_len, Nat.zero_add]
  cases str with
  | none => exact key [] 0 (Nat.le_refl _)
  | some b => exact key b size (hs b rfl)

/-- The text of "%d|%s" for 5 and "ab" is "5|ab": cut to three bytes in a buffer of four, with the length of all of it returned. -/
example : vsnprintf [] (some [none, none, none, none, none]) 4 [37, 100, 124, 37, 115] [.w32 5, .str [97, 98, 0]] =
    some ([some 53, some 124, some 97, some 0, none], 4, []) := by decide +kernel
/-- `%n` stores the number of characters so far also when they did not fit. -/
example : vsnprintf [] (some [none]) 1 [97, 98, 37, 110] [.dst] = some ([some 0], 2, [2]) := by decide +kernel
/-- A width beyond `int`: "a%2147483648d" returns -1 after the "a". -/
example : vsnprintf [] (some [none, none]) 2 [97, 37, 50, 49, 52, 55, 52, 56, 51, 54, 52, 56, 100] [.w32 5] = some ([some 97, some 0], -1, []) := by decide +kernel

/-- C99, partial. A format of ordinary characters, `%%` and the conversions d, i, u, o, x, X, c, s, with every flag, width, precision (also `*`) and length modifier, and arguments of the
types it asks for, yields the text C99 prescribes, in the "C" locale. Missing: the cases left out by `Item.ok`, where the code deviates from C99 (see the findings below), and `%p` (floating-point
numbers: C132; for `%n`, fields that are too large and thousands separators see the theorems below). -/
theorem C99_text_is_that_of_the_standard_partial (ps : List Piece) (args : List Arg) (is : List Item) (hwf : ∀ p ∈ ps, p.wf) (hr : resolve ps args = some is) (hok : ∀ i ∈ is, i.ok)
    (blk : List (Option UInt8)) (size : Nat) (hs : size ≤ blk.length) :
    vsnprintf [] (some blk) size (unparse ps) args =
      some (filled blk size (text is), if (text is).length ≥ 2147483647 then -1 else ((text is).length : Int), []) := by
  have h := run_pieces ps args is ⟨blk, 0⟩ hs hwf hr hok
  show ((run [] size (unparse ps) { args := args } ⟨blk, 0⟩).bind fun r => (terminate size r.2).map fun b => (b, if r.1.overflow ∨ r.2.len ≥ 2147483647 then -1 else (r.2.len : Int), r.1.stores)) = _
  rw [h, Option.bind_some, terminate_emit hs]
  simp only [Option.map_some, emit_len, Nat.zero_add, Bool.false_eq_true, false_or]

/-- `%n`, with every length modifier, after such a format: the length of the text so far, whether it fitted or not, in the type the modifier names. -/
theorem C99_count_stored (ps : List Piece) (args : List Arg) (is : List Item) (hwf : ∀ p ∈ ps, p.wf) (hr : resolve ps args = some is) (hok : ∀ i ∈ is, i.ok)
    (m : Mod) (as : List Arg) (ha : args.drop (ps.map Piece.args).sum = .dst :: as) (blk : List (Option UInt8)) (size : Nat) (hs : size ≤ blk.length) :
    vsnprintf [] (some blk) size (unparse ps ++ 37 :: (modBytes m ++ [110])) args =
      some (filled blk size (text is), (if (text is).length ≥ 2147483647 then -1 else ((text is).length : Int)), [(BitVec.ofNat (modBits m).1 (text is).length).toInt]) := by
  have h := run_pieces ps args is ⟨blk, 0⟩ hs hwf hr hok
  show ((run [] size (unparse ps ++ 37 :: (modBytes m ++ [110])) { args := args } ⟨blk, 0⟩).bind fun r =>
    (terminate size r.2).map fun b => (b, if r.1.overflow ∨ r.2.len ≥ 2147483647 then -1 else (r.2.len : Int), r.1.stores)) = _
  rw [run_append _ _ _ _ h rfl rfl, ha, run_n, Option.bind_some, terminate_emit hs]
  simp only [Option.map_some, emit_len, Nat.zero_add, Bool.false_eq_true, false_or]
/-- "%s%hhn" with 300 characters stores 44, in a buffer of one byte. -/
example : (vsnprintf [] (some [none]) 1 [37, 51, 48, 48, 115, 37, 104, 104, 110] [.str [97, 0], .dst]).map (fun r => r.2) = some (300, [44]) := by decide +kernel

/-- A width or precision greater than the greatest `int`, after such a format and whatever follows: -1, and the text so far in the buffer. -/
theorem C99_too_large (ps : List Piece) (args : List Arg) (is : List Item) (hwf : ∀ p ∈ ps, p.wf) (hr : resolve ps args = some is) (hok : ∀ i ∈ is, i.ok)
    (fs : List Flag) (rest : Bytes) (blk : List (Option UInt8)) (size : Nat) (hs : size ≤ blk.length) :
    (∀ (h : Fin 10) (t : Numeral), h ≠ 0 → 2147483647 < Numeral.value (h :: t) →
      vsnprintf [] (some blk) size (unparse ps ++ 37 :: (fs.map Flag.byte ++ (Numeral.bytes (h :: t) ++ rest))) args = some (filled blk size (text is), -1, [])) ∧
    (∀ (W : Field) (n : Numeral), (∀ n, W = .lit n → ∃ h t, n = h :: t ∧ h ≠ 0) → (resolveWidth W (args.drop (ps.map Piece.args).sum)).isSome = true → 2147483647 < n.value →
      vsnprintf [] (some blk) size (unparse ps ++ 37 :: (fs.map Flag.byte ++ (widthBytes W ++ 46 :: (n.bytes ++ rest)))) args = some (filled blk size (text is), -1, [])) := by
  have h := run_pieces ps args is ⟨blk, 0⟩ hs hwf hr hok
  have key : ∀ f s, run [] size f { args := args.drop (ps.map Piece.args).sum } (emit size ⟨blk, 0⟩ (text is)) = some (s, emit size ⟨blk, 0⟩ (text is)) → s.overflow = true → s.stores = [] →
      vsnprintf [] (some blk) size (unparse ps ++ f) args = some (filled blk size (text is), -1, []) := by
    intro f s h1 h2 h3
    show ((run [] size (unparse ps ++ f) { args := args } ⟨blk, 0⟩).bind fun r =>
      (terminate size r.2).map fun b => (b, if r.1.overflow ∨ r.2.len ≥ 2147483647 then -1 else (r.2.len : Int), r.1.stores)) = _
    rw [run_append _ _ _ _ h rfl rfl, h1, Option.bind_some, terminate_emit hs]
    simp [h2, h3]
  constructor
  · intro d t h0 hv
    obtain ⟨s, h1, h2, h3⟩ := run_width_over (size := size) (f := rest) (as := args.drop (ps.map Piece.args).sum) (o := emit size ⟨blk, 0⟩ (text is)) fs d t h0 hv
    exact key _ s h1 h2 h3
  · intro W n hW hw hv
    obtain ⟨⟨w, left, as'⟩, hw⟩ := Option.isSome_iff_exists.1 hw
    obtain ⟨s, h1, h2, h3⟩ := run_prec_over (size := size) (f := rest) (o := emit size ⟨blk, 0⟩ (text is)) fs hW hw n hv
    exact key _ s h1 h2 h3
/-- "a%.2147483648d" -/
example : vsnprintf [] (some [none, none]) 2 [97, 37, 46, 50, 49, 52, 55, 52, 56, 51, 54, 52, 56, 100] [.w32 5] = some ([some 97, some 0], -1, []) := by decide +kernel

/-- `"%'*d"` in a locale with a thousands separator: the digits in groups of three, in a field of the width asked for (on the left if negative). -/
theorem C99_grouped (sep : Bytes) (hsep : sep.length ≤ 16) (w v : Nat) (hw : (BitVec.ofNat 32 w).toInt ≠ -2147483648) (blk : List (Option UInt8)) (size : Nat) (hs : size ≤ blk.length) :
    let W := (BitVec.ofNat 32 w).toInt
    let V := (BitVec.ofNat 32 v).toInt
    let t := inField (decide (W < 0)) W.natAbs ((if V < 0 then [45] else []) ++ grouped sep (numeral 10 V.natAbs))
    vsnprintf sep (some blk) size [37, 39, 42, 100] [.w32 w, .w32 v] = some (filled blk size t, if t.length ≥ 2147483647 then -1 else (t.length : Int), []) := by
  intro W V t
  have hbw := bv32_bounds w
  have hbv := bv32_bounds v
  have hrun : run sep size [37, 39, 42, 100] { args := [.w32 w, .w32 v] } ⟨blk, 0⟩ = some ({ args := [] }, emit size ⟨blk, 0⟩ t) := by
    have hfl : ∀ fl : Flags, fl.minus = decide (W < 0) → fl.plus = false → fl.space = false → fl.zero = false → fl.quote = true → fl.up = false → fl.unsigned = false →
        fmtint sep size ⟨blk, 0⟩ V 10 (W.natAbs : Nat) (-1) fl = some (emit size ⟨blk, 0⟩ t) := by
      intro fl h1 h2 h3 h4 h5 h6 h7
      rw [fmtint_sep (v := V) (u := V.natAbs) (w := W.natAbs) (sg := if V < 0 then 45 else 0) hs hsep ?_ (by omega) ?_ h4 h5 (by omega) h6, h1]
      · have : (if (if V < 0 then (45 : UInt8) else 0) ≠ 0 then [if V < 0 then (45 : UInt8) else 0] else []) = (if V < 0 then [45] else []) := by split <;> simp
        rw [this]
      · unfold uvalueOf
        simp only [h7, Bool.false_eq_true, if_false]
        split
        · congr 1; omega
        · rw [if_neg (by omega)]; congr 1; omega
      · simp [signOf, h7, h2, h3]
    rw [run, show step sep size { args := [.w32 w, .w32 v] } ⟨blk, 0⟩ 37 = some (dst .flags {} 0 (-1) .none [.w32 w, .w32 v], ⟨blk, 0⟩) from rfl, Option.bind_some, if_neg (by simp [dst])]
    rw [run, show step sep size (dst .flags {} 0 (-1) .none [.w32 w, .w32 v]) ⟨blk, 0⟩ 39 = some (dst .flags { quote := true } 0 (-1) .none [.w32 w, .w32 v], ⟨blk, 0⟩) from rfl,
      Option.bind_some, if_neg (by simp [dst])]
    have hstar : step sep size (dst .flags { quote := true } 0 (-1) .none [.w32 w, .w32 v]) ⟨blk, 0⟩ 42 =
        some (dst .dot { quote := true, minus := decide (W < 0) } W.natAbs (-1) .none [.w32 v], ⟨blk, 0⟩) := by
      show flagsCase sep size _ _ 42 = _
      rw [flagsCase, if_neg (by decide), if_neg (by decide), if_neg (by decide), if_neg (by decide), if_neg (by decide), if_neg (by decide), widthCase, if_neg (by decide), if_pos rfl]
      simp only [vaArg, dst, Option.bind_some, wrap_eq 32 w (by omega)]
      by_cases hneg : W < 0
      · rw [if_pos hneg, int32, if_pos (by omega)]
        simp only [Option.map_some, hneg, decide_true]
        congr 3
        omega
      · rw [if_neg hneg]
        simp only [hneg, decide_false]
        congr 3
        omega
    rw [run, hstar, Option.bind_some, if_neg (by simp [dst])]
    have hconv : step sep size (dst .dot { quote := true, minus := decide (W < 0) } W.natAbs (-1) .none [.w32 v]) ⟨blk, 0⟩ 100 = some ({ args := [] }, emit size ⟨blk, 0⟩ t) := by
      show dotCase sep size _ _ 100 = _
      rw [dotCase, if_neg (by decide), modCase, if_neg (by decide), if_neg (by decide), if_neg (by decide), if_neg (by decide), if_neg (by decide), if_neg (by decide), convCase, if_pos (.inl rfl)]
      simp only [vaArg, dst, Option.bind_some, signedArg, wrap_eq 32 v (by omega)]
      rw [hfl _ rfl rfl rfl rfl rfl rfl rfl]
      rfl
    rw [run, hconv, Option.bind_some, if_neg (by simp)]
    rfl
  show ((run sep size [37, 39, 42, 100] { args := [.w32 w, .w32 v] } ⟨blk, 0⟩).bind fun r =>
    (terminate size r.2).map fun b => (b, if r.1.overflow ∨ r.2.len ≥ 2147483647 then -1 else (r.2.len : Int), r.1.stores)) = _
  rw [hrun, Option.bind_some, terminate_emit hs]
  simp only [Option.map_some, emit_len, Nat.zero_add, Bool.false_eq_true, false_or]
/-- -1234567 as "-1,234,567", in a field of twelve. -/
example : (vsnprintf [44] (some (List.replicate 16 none)) 16 [37, 39, 42, 100] [.w32 12, .w32 (2^32 - 1234567)]).map (fun r => (r.1.take 13, r.2.1)) =
    some ([some 32, some 32, some 45, some 49, some 44, some 50, some 51, some 52, some 44, some 53, some 54, some 55, some 0], 12) := by decide +kernel
/-- Six digits: one separator. -/
example : inField false 8 (grouped [44] (numeral 10 123456)) = [32, 49, 50, 51, 44, 52, 53, 54] := by decide +kernel

/-- `%p` and `%*p` after such a format: a null pointer is "(nil)", any other `0x` and the address in hexadecimal, in a field of the width asked for. -/
theorem C99_pointer (ps : List Piece) (args : List Arg) (is : List Item) (hwf : ∀ p ∈ ps, p.wf) (hr : resolve ps args = some is) (hok : ∀ i ∈ is, i.ok)
    (p : Nat) (hp : p < 2 ^ 64) (as : List Arg) (blk : List (Option UInt8)) (size : Nat) (hs : size ≤ blk.length) :
    (args.drop (ps.map Piece.args).sum = .ptr p :: as →
      let t := text is ++ (if p = 0 then [40, 110, 105, 108, 41] else [48, 120] ++ numeral 16 p)
      vsnprintf [] (some blk) size (unparse ps ++ [37, 112]) args = some (filled blk size t, if t.length ≥ 2147483647 then -1 else (t.length : Int), [])) ∧
    (∀ w : Nat, w ≤ 2147483647 → args.drop (ps.map Piece.args).sum = .w32 w :: .ptr p :: as →
      let t := text is ++ inField false w (if p = 0 then [40, 110, 105, 108, 41] else [48, 120] ++ numeral 16 p)
      vsnprintf [] (some blk) size (unparse ps ++ [37, 42, 112]) args = some (filled blk size t, if t.length ≥ 2147483647 then -1 else (t.length : Int), [])) := by
  have h := run_pieces ps args is ⟨blk, 0⟩ hs hwf hr hok
  have hs' : size ≤ (emit size ⟨blk, 0⟩ (text is)).buf.length := by rw [emit_buf_length]; exact hs
  have conv : ∀ (w : Nat) (st : State), w ≤ 2147483647 → convCase [] size (dst st {} w (-1) .none (.ptr p :: as)) (emit size ⟨blk, 0⟩ (text is)) 112 =
      some ({ args := as }, emit size ⟨blk, 0⟩ (text is ++ inField false w (if p = 0 then [40, 110, 105, 108, 41] else [48, 120] ++ numeral 16 p))) := by
    intro w st hw
    rw [emit_append]
    unfold convCase
    rw [if_neg (by decide), if_neg (by decide), if_neg (by decide), if_neg (by decide), if_neg (by decide), if_neg (by decide), if_neg (by decide), if_neg (by decide), if_neg (by decide),
      if_neg (by decide), if_neg (by decide), if_neg (by decide), if_neg (by decide), if_pos rfl]
    simp only [vaArg, dst, Option.bind_some]
    cases p with
    | zero =>
      have := fmtstr_ok (o := emit size ⟨blk, 0⟩ (text is)) hs' (m := nilText) (p := none) (w := w) hw (by intro n h; cases h) (fl := {}) (Or.inl ⟨5, by decide, by decide⟩)
      simp only [precInt] at this
      simp only [this, Option.map_some, reset, if_true]
      rfl
    | succ n =>
      have hu : uvalueOf (wrap 64 (n + 1)) { num := true, unsigned := true } = some ((n + 1 : Nat) : Int).natAbs := by
        rw [uvalueOf, if_pos rfl, wrap_eq 64 (n + 1) (by omega), BitVec.toInt_eq_toNat_cond, BitVec.toNat_ofNat]
        congr 1
        split <;> omega
      have := fmtint_ok (o := emit size ⟨blk, 0⟩ (text is)) hs' (c := .x) (v := ((n + 1 : Nat) : Int)) (V := wrap 64 (n + 1)) (w := w) (p := none) (fl := { num := true, unsigned := true }) hw
        (by intro n h; cases h) rfl hu (by omega) (by simp [signOf, Spec.sign]) (by intro h; cases h) (by intro _; decide) ⟨by omega, by simp, by simp⟩
      have hb : Spec.base .x = 16 := rfl
      rw [hb] at this
      simp only [precInt] at this
      simp only [this, Option.map_some, reset]
      have hne : ((n : Int) + 1 = 0) = False := by simp; omega
      have hl : 1 ≤ (numeral 16 (n + 1)).length := by
        rw [numeral, List.length_map]
        exact List.length_pos_iff.2 Nat.toDigits_ne_nil
      have hz : zeroPad 1 (numeral 16 (n + 1)) = numeral 16 (n + 1) := by
        rw [zeroPad, Nat.sub_eq_zero_of_le hl]; rfl
      simp [Item.text, Spec.sign, hexPrefix, digits, hne, show ((n : Int) + 1).natAbs = n + 1 by omega, hb, hz]
  have fin : ∀ f t, run [] size f { args := args.drop (ps.map Piece.args).sum } (emit size ⟨blk, 0⟩ (text is)) = some ({ args := as }, emit size ⟨blk, 0⟩ t) →
      vsnprintf [] (some blk) size (unparse ps ++ f) args = some (filled blk size t, if t.length ≥ 2147483647 then -1 else (t.length : Int), []) := by
    intro f t h1
    show ((run [] size (unparse ps ++ f) { args := args } ⟨blk, 0⟩).bind fun r =>
      (terminate size r.2).map fun b => (b, if r.1.overflow ∨ r.2.len ≥ 2147483647 then -1 else (r.2.len : Int), r.1.stores)) = _
    rw [run_append _ _ _ _ h rfl rfl, h1, Option.bind_some, terminate_emit hs]
    simp only [Option.map_some, emit_len, Nat.zero_add, Bool.false_eq_true, false_or]
  constructor
  · intro ha t
    refine fin [37, 112] t ?_
    rw [ha, run_step (s' := dst .flags {} 0 (-1) .none (.ptr p :: as)) (by rfl) rfl]
    have := conv 0 .flags (by omega)
    rw [show inField false 0 (if p = 0 then [40, 110, 105, 108, 41] else [48, 120] ++ numeral 16 p) = (if p = 0 then [40, 110, 105, 108, 41] else [48, 120] ++ numeral 16 p) by simp [inField]] at this
    exact run_one this
  · intro w hw ha t
    refine fin [37, 42, 112] t ?_
    rw [ha, run_step (s' := dst .flags {} 0 (-1) .none (.w32 w :: .ptr p :: as)) (by rfl) rfl]
    have hstar : step [] size (dst .flags {} 0 (-1) .none (.w32 w :: .ptr p :: as)) (emit size ⟨blk, 0⟩ (text is)) 42 =
        some (dst .dot {} w (-1) .none (.ptr p :: as), emit size ⟨blk, 0⟩ (text is)) := by
      show flagsCase [] size _ _ 42 = _
      rw [flagsCase, if_neg (by decide), if_neg (by decide), if_neg (by decide), if_neg (by decide), if_neg (by decide), if_neg (by decide), widthCase, if_neg (by decide), if_pos rfl]
      have hwr : wrap 32 w = (w : Int) := by
        rw [wrap_eq 32 w (by omega), BitVec.toInt_eq_toNat_cond, BitVec.toNat_ofNat]
        rw [Nat.mod_eq_of_lt (by omega), if_pos (by omega)]
      simp only [vaArg, dst, Option.bind_some, hwr]
      rw [if_neg (by omega)]
    rw [run_step hstar rfl]
    exact run_one (conv w .dot hw)
/-- "[%*p" with a width of 8 and the address 0x1f. -/
example : (vsnprintf [] (some (List.replicate 10 none)) 10 [91, 37, 42, 112] [.w32 8, .ptr 31]).map (fun r => (r.1, r.2.1)) =
    some ([some 91, some 32, some 32, some 32, some 32, some 48, some 120, some 49, some 102, some 0], 9) := by decide +kernel

/-- "a%+05d%-*.2s|%#x%%" with 42, a width of 4, "xyz", 255 is "a+0042xy  |0xff%". -/
example :
    let ps : List Piece := [.chr 97, .dir ⟨[.plus, .zero], .lit [5], .absent, .none, .int .d⟩, .dir ⟨[.minus], .star, .lit [2], .none, .s⟩, .chr 124, .dir ⟨[.num], .absent, .absent, .long, .int .x⟩, .percent]
    let args : List Arg := [.w32 42, .w32 4, .str [120, 121, 122], .w64 255]
    let is : List Item := [.chr 97, .int .d 42 false true false false true 5 none, .str [120, 121, 122] true 4 (some 2), .chr 124, .int .x 255 false false false true false 0 none, .chr 37]
    (∀ p ∈ ps, p.wf) ∧ resolve ps args = some is ∧ (∀ i ∈ is, i.ok) ∧
    unparse ps = [97, 37, 43, 48, 53, 100, 37, 45, 42, 46, 50, 115, 124, 37, 35, 108, 120, 37, 37] ∧
    text is = [97, 43, 48, 48, 52, 50, 120, 121, 32, 32, 124, 48, 120, 102, 102, 37] := by
  refine ⟨?_, by decide +kernel, ?_, by decide +kernel, by decide +kernel⟩
  · intro p hp
    simp only [List.mem_cons, List.not_mem_nil, or_false] at hp
    rcases hp with rfl | rfl | rfl | rfl | rfl | rfl
    · show (97 : UInt8) ≠ 37; decide
    · exact ⟨fun n h => by cases h; exact ⟨5, [], rfl, by decide⟩, by decide, by decide⟩
    · exact ⟨(by intro n h; cases h), by decide, by decide⟩
    · show (124 : UInt8) ≠ 37; decide
    · exact ⟨(by intro n h; cases h), by decide, by decide⟩
    · trivial
  · intro i hi
    simp only [List.mem_cons, List.not_mem_nil, or_false] at hi
    rcases hi with rfl | rfl | rfl | rfl | rfl | rfl
    · trivial
    · exact ⟨by decide, (by intro h; cases h), (by intro h; cases h)⟩
    · exact .inr ⟨2, rfl, by decide⟩
    · trivial
    · exact ⟨by decide, (by intro h; cases h), (by intro _ _ h; cases h)⟩
    · trivial

/-- Finding: the value 0 with the precision 0 is printed as "0"; C99 wants no characters. -/
theorem C99_zero_with_precision_zero : vsnprintf [] (some [none, none]) 2 [37, 46, 48, 100] [.w32 0] = some ([some 48, some 0], 1, []) ∧
    (resolve [.dir ⟨[], .absent, .lit [0], .none, .int .d⟩] [.w32 0]).map text = some [] := by
  constructor <;> decide +kernel
/-- Finding: `%c` ignores the width. -/
theorem C99_char_width_ignored : vsnprintf [] (some [none, none, none, none]) 4 [37, 51, 99] [.w32 97] = some ([some 97, some 0, none, none], 1, []) ∧
    (resolve [.dir ⟨[], .lit [3], .absent, .none, .c⟩] [.w32 97]).map text = some [32, 32, 97] := by
  constructor <;> decide +kernel
/-- Finding: printing the least `intmax_t` overflows. -/
theorem C99_least_intmax_undefined (blk : List (Option UInt8)) (size : Nat) : vsnprintf [] (some blk) size [37, 106, 100] [.w64 9223372036854775808] = none := rfl
/-- Finding: with a precision, one byte more of the string is read than the precision allows: `%.2s` of an array of two bytes without terminator is undefined. -/
theorem C99_reads_past_precision (blk : List (Option UInt8)) (size : Nat) : vsnprintf [] (some blk) size [37, 46, 50, 115] [.str [97, 98]] = none ∧
    (resolve [.dir ⟨[], .absent, .lit [2], .none, .s⟩] [.str [97, 98]]).map text = some [97, 98] := ⟨rfl, by decide +kernel⟩
/-- Finding: in a locale whose thousands separator is a comma, "%'10.6d" of 1234 has five digits in nine characters instead of six digits in ten. -/
theorem C99_separators_shorten : (vsnprintf [44] (some (List.replicate 12 none)) 12 [37, 39, 49, 48, 46, 54, 100] [.w32 1234]).map (fun r => (r.1.take 9, r.2.1)) =
    some ([some 32, some 32, some 32, some 48, some 49, some 44, some 50, some 51, some 52], 9) := by decide +kernel
/-- Finding: `"%#.2147483647x"` overflows in the computation of the padding. -/
theorem C99_hex_precision_undefined (blk : List (Option UInt8)) (size : Nat) (hs : size ≤ blk.length) :
    vsnprintf [] (some blk) size [37, 35, 46, 50, 49, 52, 55, 52, 56, 51, 54, 52, 55, 120] [.w32 1] = none := by
  obtain ⟨r, hr⟩ := C98_one_text_for_every_buffer [] [37, 35, 46, 50, 49, 52, 55, 52, 56, 51, 54, 52, 55, 120] [.w32 1]
  have h0 : vsnprintf [] none 0 [37, 35, 46, 50, 49, 52, 55, 52, 56, 51, 54, 52, 55, 120] [.w32 1] = none := by decide +kernel
  rw [hr none 0 (by intro b h; cases h), Option.map_eq_none_iff] at h0
  rw [hr (some blk) size (by intro b h; cases h; exact hs), h0]; rfl

/-- C100. `asprintf` and `vasprintf`: for a format and arguments whose text has fewer than 2^31 - 1 bytes, the string stored is the text and its terminator, in a block of exactly that size, and the
length is returned; if the text is longer, a field too large or there is no memory, -1 is returned and no string is stored. -/
theorem C100_asprintf (sep format : Bytes) (args : List Arg) :
    ∃ r : Option (Bytes × Bool), ∀ (str : Option (List (Option UInt8))) (size : Nat) (mallocOk : Bool), (∀ b, str = some b → size ≤ b.length) →
      (vsnprintf sep str size format args).map (fun x => x.2.1) = r.map (fun (t, tooLarge) => if tooLarge = true ∨ t.length ≥ 2147483647 then -1 else (t.length : Int)) ∧
      vasprintf sep mallocOk format args = r.map fun (t, tooLarge) =>
        if tooLarge = false ∧ t.length < 2147483647 ∧ mallocOk = true then (some ((t ++ [0]).map some), (t.length : Int)) else (none, -1) := by
  obtain ⟨r, hr⟩ := C98_one_text_for_every_buffer sep format args
  refine ⟨r.map fun x => (x.1, x.2.1), fun str size mallocOk hs => ⟨?_, ?_⟩⟩
  · rw [hr str size hs]; cases r <;> rfl
  · unfold vasprintf
    rw [hr none 0 (by intro b h; cases h)]
    cases r with
    | none => rfl
    | some x =>
      obtain ⟨t, ov, st⟩ := x
      simp only [Option.map_some, Option.bind_some]
      by_cases hbad : ov = true ∨ t.length ≥ 2147483647
      · rw [if_pos hbad, if_pos (.inl (by decide)), if_neg]
        rintro ⟨h1, h2, _⟩
        rcases hbad with h | h
        · rw [h1] at h; cases h
        · omega
      · rw [if_neg hbad]
        cases mallocOk with
        | false => rw [if_pos (.inr rfl), if_neg (fun h => by cases h.2.2)]
        | true =>
          rw [if_neg (by simp), if_pos ⟨by simpa using fun h => hbad (.inl h), by omega, rfl⟩]
          have e : ((t.length : Int) + 1).toNat = t.length + 1 := by omega
          rw [e, hr (some (List.replicate (t.length + 1) none)) (t.length + 1) (by intro b h; cases h; simp)]
          simp only [Option.map_some, filled, Nat.add_sub_cancel, List.take_length, if_neg hbad]
          simp

example : vasprintf [] true [97, 37, 100] [.w32 7] = some (some [some 97, some 55, some 0], 2) := by decide +kernel
example : vasprintf [] false [97, 37, 100] [.w32 7] = some (none, -1) := by decide +kernel
