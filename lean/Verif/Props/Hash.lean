import Verif.Props.Path
/-! # C52 (hash printing), C63 (copy or hash), C64 (base name and quoting) -/
open StrSpec CMem Str

namespace Str

theorem table (n : Nat) (h : n < 16) :
    ([48, 49, 50, 51, 52, 53, 54, 55, 56, 57, 97, 98, 99, 100, 101, 102] : List UInt8)[n]? = some (hexDigit n) := by
  have : ∀ k : Fin 16, ([48, 49, 50, 51, 52, 53, 54, 55, 56, 57, 97, 98, 99, 100, 101, 102] : List UInt8)[k.val]? = some (hexDigit k.val) := by
    decide
  exact this ⟨n, h⟩

theorem hi_eq (b : UInt8) : ((b >>> 4) &&& 0xf).toNat = b.toNat / 16 ∧ (b >>> 4).toNat = b.toNat / 16 ∧ (b &&& 0xf).toNat = b.toNat % 16 := by
  have : ∀ k : Fin 256, ((UInt8.ofNat k.val >>> 4) &&& 0xf).toNat = k.val / 16 ∧ (UInt8.ofNat k.val >>> 4).toNat = k.val / 16 ∧
      (UInt8.ofNat k.val &&& 0xf).toNat = k.val % 16 := by decide +kernel
  have h := this ⟨b.toNat, b.toNat_lt⟩
  simpa using h

theorem hexDigit_ne (n : Nat) (h : n < 16) : hexDigit n ≠ 0 := by
  have : ∀ k : Fin 16, hexDigit k.val ≠ 0 := by decide
  exact this ⟨n, h⟩

theorem hexDigit_inj {a b : Nat} (ha : a < 16) (hb : b < 16) (h : hexDigit a = hexDigit b) : a = b := by
  have : ∀ k l : Fin 16, hexDigit k.val = hexDigit l.val → k = l := by decide
  exact Fin.val_eq_of_eq (this ⟨a, ha⟩ ⟨b, hb⟩ h)

theorem hex_cons (b : UInt8) (bs : List UInt8) : hex (b :: bs) = hexDigit (b.toNat / 16) :: hexDigit (b.toNat % 16) :: hex bs := rfl

theorem hex_length (bs : List UInt8) : (hex bs).length = 2 * bs.length := by
  induction bs with
  | nil => rfl
  | cons b bs ih => rw [hex_cons]; simp [ih]; omega

theorem hex_no_nul (bs : List UInt8) : 0 ∉ hex bs := by
  induction bs with
  | nil => simp [hex]
  | cons b bs ih =>
    rw [hex_cons]
    have hb := b.toNat_lt
    simp only [List.mem_cons, not_or]
    exact ⟨(hexDigit_ne _ (by omega)).symm, (hexDigit_ne _ (by omega)).symm, ih⟩

theorem store_set (m : List (Option UInt8)) (off : Nat) (c : UInt8) (bs : List UInt8) (h : off < m.length) :
    store m off (c :: bs) = store (m.set off (some c)) (off + 1) bs := by
  rw [← store_cons, write_eq h, Option.bind_some]

theorem hexLoop_ok (size : Nat) : ∀ (bs : List UInt8) (m : List (Option UInt8)) (i : Nat), 2 * i < size → size ≤ m.length →
    hexLoop m size i bs = (store m (2 * i) (hex (bs.take ((size - 1) / 2 - i)))).map fun m' => (m', i + min bs.length ((size - 1) / 2 - i)) := by
  intro bs
  induction bs with
  | nil => intro m i h1 h2; simp [hexLoop, hex, store_nil m (2 * i) (by omega)]
  | cons b bs ih =>
    intro m i h1 h2
    simp only [hexLoop]
    by_cases hc : i * 2 + 2 < size
    · have hb := b.toNat_lt
      rw [if_pos hc, (hi_eq b).1, (hi_eq b).2.2, table _ (by omega), table _ (by omega)]
      simp only [Option.bind_eq_bind, Option.bind_some]
      obtain ⟨k, hk⟩ : ∃ k, (size - 1) / 2 - i = k + 1 := ⟨(size - 1) / 2 - i - 1, by omega⟩
      rw [hk, List.take_succ_cons, hex_cons, store_set _ _ _ _ (by omega), store_set _ _ _ _ (by simp; omega), write_eq (by omega), Option.bind_some,
        write_eq (by simp; omega), Option.bind_some, ih _ (i + 1) (by omega) (by simpa using h2)]
      rw [show (size - 1) / 2 - (i + 1) = k by omega]
      simp only [Nat.mul_add, Nat.mul_one]
      congr 1
      funext m'
      simp only [List.length_cons]
      congr 1; omega
    · rw [if_neg hc, show (size - 1) / 2 - i = 0 by omega]
      simp [hex, store_nil m (2 * i) (by omega)]

end Str

/-- C52. `StringBytesToHex` into a buffer of `size ≥ 1` bytes: two lower-case hex digits for each byte, for as many whole bytes as fit with the
terminator; the result is the length of the text. -/
theorem C52_bytesToHex (m : List (Option UInt8)) (size : Nat) (src : List UInt8) (h1 : 1 ≤ size) (hl : size ≤ m.length) :
    ∃ m', Str.bytesToHex m size src = some (m', (hex (src.take ((size - 1) / 2))).length) ∧ Stored m m' size (hex (src.take ((size - 1) / 2))) := by
  have hlen : (hex (src.take ((size - 1) / 2))).length = 2 * min src.length ((size - 1) / 2) := by rw [hex_length]; simp; omega
  have hloop := hexLoop_ok size src m 0 (by omega) hl
  obtain ⟨m', e, hst⟩ := stored_of_store (m := m) (t := []) (rest := m) rfl (hex (src.take ((size - 1) / 2))) size (by rw [hlen]; simp; omega) hl
    (by simp) (hex_no_nul _)
  have hsa := store_append m 0 (hex (src.take ((size - 1) / 2))) [0]
  simp only [List.length_nil, List.nil_append] at e hst
  rw [e] at hsa
  obtain ⟨m1, e1, e2⟩ := Option.bind_eq_some_iff.1 hsa
  simp only [Nat.mul_zero, Nat.sub_zero, Nat.zero_add, e1, Option.map_some] at hloop
  rw [← write_store, hlen, Nat.zero_add] at e2
  refine ⟨m', ?_, hst⟩
  simp only [Str.bytesToHex, hloop, Option.bind_eq_bind, Option.bind_some]
  rw [if_pos (by omega), e2, hlen]; rfl

example : Str.bytesToHex [none, none, none, none, some 9] 4 [255, 1] = some ([some 102, some 102, some 0, none, some 9], 2) := by decide

/-- C52. Equal hex texts come from equal bytes. -/
theorem C52_hex_injective (a b : List UInt8) (h : hex a = hex b) : a = b := by
  induction a generalizing b with
  | nil => cases b with
    | nil => rfl
    | cons b bs => simp [hex_cons, hex] at h
  | cons x a ih =>
    cases b with
    | nil => simp [hex_cons, hex] at h
    | cons y b =>
      simp only [hex_cons, List.cons.injEq] at h
      have hx := x.toNat_lt
      have hy := y.toNat_lt
      have h1 := hexDigit_inj (by omega) (by omega) h.1
      have h2 := hexDigit_inj (by omega) (by omega) h.2.1
      have : x = y := UInt8.toNat_inj.1 (by omega)
      rw [this, ih b h.2.2]

/-- C52. `HashPrintSafe` into a buffer that is large enough: the prefix and the hex text of exactly the digest's bytes. -/
theorem C52_hashPrintSafe (m : List (Option UInt8)) (size : Nat) (digest : List UInt8) (type : Hash.Method) (usePrefix : Bool)
    (hs : (HashSpec.pre (type = .md5) usePrefix).length + 2 * Hash.size type < size) (hl : size ≤ m.length) (hd : Hash.size type ≤ digest.length) :
    ∃ m', Hash.printSafe m size digest type usePrefix = some m' ∧
      Stored m m' size (HashSpec.pre (type = .md5) usePrefix ++ hex (digest.take (Hash.size type))) := by
  obtain ⟨pre, hpre⟩ : ∃ pre, pre = HashSpec.pre (type = .md5) usePrefix := ⟨_, rfl⟩
  have hpre' : (if usePrefix = true then (if type = .md5 then ([77, 68, 53, 61] : List UInt8) else [83, 72, 65, 61]) else []) = pre := by
    rw [hpre, HashSpec.pre]; simp
  rw [← hpre] at hs ⊢
  have hp0 : 0 ∉ pre := by rw [← hpre']; split <;> (try split) <;> decide
  have hmin : min (if size = 0 then Str.sizeMax else size - 1) pre.length = pre.length := by rw [if_neg (by omega)]; omega
  have hcopy : memcpy m 0 ((pre ++ [0]).map some) 0 pre.length = some (pre.map some ++ m.drop pre.length) := by
    rw [memcpy_store _ _ _ _ (by simp), List.take_left, store_eq (by omega)]; simp
  obtain ⟨tail, e, hst⟩ := C52_bytesToHex (m.drop pre.length) (size - pre.length) (digest.take (Hash.size type)) (by omega) (by simp; omega)
  have htk : (digest.take (Hash.size type)).take ((size - pre.length - 1) / 2) = digest.take (Hash.size type) := by
    rw [List.take_of_length_le]; simp; omega
  rw [htk] at e hst
  have hlen : (hex (digest.take (Hash.size type))).length = 2 * Hash.size type := by rw [hex_length]; simp; omega
  have hdrop : (pre.map some ++ m.drop pre.length).drop pre.length = m.drop pre.length := by
    rw [List.drop_append, List.drop_of_length_le (by simp)]; simp
  refine ⟨pre.map some ++ tail, ?_, ?_, ?_, ?_, ?_, ?_⟩
  · simp only [Hash.printSafe, hpre', hmin, hcopy, Option.bind_eq_bind, Option.bind_some]
    rw [if_pos ⟨by omega, hd⟩, hdrop, e]
    simp only [Option.bind_some]
    rw [if_pos hlen]
    simp
  · have := hst.size; simp at this ⊢; omega
  · have h1 := hst.outside
    rw [List.drop_append, List.drop_of_length_le (by simp; omega), List.nil_append, List.length_map, h1, List.drop_drop]
    congr 1; omega
  · rw [List.length_append, hlen]; exact hs
  · simp [hp0, hex_no_nul]
  · obtain ⟨rest, hr⟩ := hst.string.2
    exact ⟨rest, by rw [hr]; simp⟩

example : Hash.printSafe (List.replicate 40 none) 37 (List.replicate 16 171) .md5 true =
    some (([77, 68, 53, 61] ++ (List.replicate 16 [(97 : UInt8), 98]).flatten ++ [0]).map some ++ [none, none, none]) := by decide +kernel

namespace Hash

theorem printLoop_ok : ∀ (bs : List UInt8) (m : List (Option UInt8)) (i : Nat), 4 + 2 * i + 2 * bs.length < m.length →
    (printLoop m i bs).bind (fun m => write m (4 + 2 * (i + bs.length)) (some 0)) = store m (4 + 2 * i) (hex bs ++ [0]) := by
  intro bs
  induction bs with
  | nil => intro m i h; simp [printLoop, hex, write_store]
  | cons b bs ih =>
    intro m i h
    have hb := b.toNat_lt
    simp only [List.length_cons] at h
    simp only [printLoop]
    rw [table _ (by omega), table _ (by omega)]
    simp only [Option.bind_eq_bind, Option.bind_some]
    rw [store_set _ _ _ _ (by omega), store_set _ _ _ _ (by simp; omega), store_set _ _ _ _ (by simp; omega), store_nil _ _ (by simp; omega), Option.bind_some]
    rw [show i + (b :: bs).length = i + 1 + bs.length by simp; omega]
    rw [ih _ (i + 1) (by simp; omega), hex_cons, List.cons_append, List.cons_append, store_set m _ _ _ (by omega), store_set _ _ _ _ (by simp; omega)]
    obtain ⟨c, cs, hc⟩ : ∃ c cs, hex bs ++ [0] = c :: cs := by
      cases hx : hex bs with
      | nil => exact ⟨0, [], rfl⟩
      | cons c cs => exact ⟨c, cs ++ [0], rfl⟩
    rw [hc, show 4 + 2 * (i + 1) = 4 + 2 * i + 1 + 1 by omega, store_set _ _ _ _ (by simp; omega), store_set _ _ _ _ (by simp; omega), List.set_set]

end Hash

/-- C52. The printable representation of a `Hash` (its 256-byte member): "MD5=" or "SHA=" ("UNK=" otherwise) and the hex text of its digest. -/
theorem C52_printable (printable : List (Option UInt8)) (digest : List UInt8) (method : Hash.Method) (hl : printable.length = 256)
    (hd : Hash.size method ≤ digest.length) :
    ∃ m' pre, Hash.calculatePrintable printable digest method = some m' ∧ Stored printable m' 256 (pre ++ hex (digest.take (Hash.size method))) ∧
      pre = (if method = .md5 then [77, 68, 53, 61] else if method = .best ∨ method = .crypt ∨ method = .none then [85, 78, 75, 61] else [83, 72, 65, 61]) := by
  have hsz : Hash.size method ≤ 64 := by cases method <;> decide
  have key : ∀ pre : List UInt8, pre.length = 4 → 0 ∉ pre → ∃ m', ((store printable 0 (pre ++ [0])).bind fun m =>
      (Hash.printLoop m 0 (digest.take (Hash.size method))).bind fun m => write m (4 + 2 * Hash.size method) (some 0)) = some m' ∧
      Stored printable m' 256 (pre ++ hex (digest.take (Hash.size method))) := by
    intro pre hp hp0
    have hdl : (digest.take (Hash.size method)).length = Hash.size method := by simp; omega
    have hE : store printable 0 (pre ++ [0]) = some ((pre ++ [0]).map some ++ printable.drop 5) := by
      rw [store_eq (by simp; omega)]; simp [hp]
    have hpl := Hash.printLoop_ok (digest.take (Hash.size method)) ((pre ++ [0]).map some ++ printable.drop 5) 0 (by rw [hdl]; simp; omega)
    rw [hdl, Nat.zero_add] at hpl
    obtain ⟨m', e, hst⟩ := stored_of_store (m := (pre ++ [0]).map some ++ printable.drop 5) (t := pre) (rest := some 0 :: printable.drop 5)
      (by simp) (hex (digest.take (Hash.size method))) 256 (by rw [hex_length, hdl]; omega) (by simp; omega) hp0 (hex_no_nul _)
    rw [hp] at e
    simp only [Nat.mul_zero, Nat.add_zero] at hpl
    rw [e] at hpl
    refine ⟨m', by rw [hE, Option.bind_some, hpl], ?_, ?_, hst.fits, hst.string⟩
    · rw [hst.size]; simp; omega
    · rw [hst.outside, List.drop_of_length_le (by simp; omega), List.drop_of_length_le (by omega)]
  cases method <;>
    first
    | (obtain ⟨m', e, h⟩ := key [77, 68, 53, 61] rfl (by decide)
       exact ⟨m', [77, 68, 53, 61], e, h, rfl⟩)
    | (obtain ⟨m', e, h⟩ := key [83, 72, 65, 61] rfl (by decide)
       exact ⟨m', [83, 72, 65, 61], e, h, rfl⟩)
    | (obtain ⟨m', e, h⟩ := key [85, 78, 75, 61] rfl (by decide)
       exact ⟨m', [85, 78, 75, 61], e, h, rfl⟩)

example : (Hash.calculatePrintable (List.replicate 256 none) (List.replicate 64 171) .md5).map (fun m => m.take 38)
    = some (([77, 68, 53, 61] ++ (List.replicate 16 [(97 : UInt8), 98]).flatten ++ [0]).map some ++ [none]) := by decide +kernel

/-- C52. Skipping the type of a printed digest gives the hex text: the prefix is removed when there is one, and the text is unchanged when there
is none. -/
theorem C52_skipHashType (digest : List UInt8) (md5 usePrefix : Bool) :
    let text := HashSpec.pre md5 usePrefix ++ hex digest
    text.drop (Hash.skipHashType text) = hex digest := by
  intro text
  cases usePrefix with
  | true => cases md5 <;> rfl
  | false =>
    have ht : text = hex digest := rfl
    rw [ht]
    have : Hash.skipHashType (hex digest) = 0 := by
      unfold Hash.skipHashType
      rw [if_neg]
      cases digest with
      | nil => simp [hex]
      | cons b bs =>
        have hb := b.toNat_lt
        have h16 : ∀ k : Fin 16, hexDigit k.val ≠ 77 ∧ hexDigit k.val ≠ 83 := by decide
        have := h16 ⟨b.toNat / 16, by omega⟩
        simp [hex_cons, this]
    rw [this]; rfl

/-- C52. `HashesMatch`: equality of the first `size` bytes, and false for the methods without a size. -/
theorem C52_hashesMatch (d1 d2 : List UInt8) (type : Hash.Method) :
    Hash.hashesMatch d1 d2 type = true ↔ Hash.size type ≠ 0 ∧ d1.take (Hash.size type) = d2.take (Hash.size type) := by
  unfold Hash.hashesMatch; split <;> simp_all

example : Hash.hashesMatch (List.replicate 17 1) (List.replicate 16 1 ++ [2]) .md5 = true := by decide

/-! ## C63 -/

/-- C63. `StringCopyTruncateAndHashIfNecessary`: a string that fits is copied and its length returned; one that does not is cut and its tail
replaced by "#MD5=" and the hex MD5 digest of the whole string, filling the buffer exactly, and the buffer size is returned. -/
theorem C63_copyTruncateAndHash (md5 : List UInt8 → List UInt8) (hmd : ∀ s, (md5 s).length = 16) (src : List UInt8) (dst : List (Option UInt8)) (size : Nat)
    (h0 : 0 ∉ src) (hs : 37 < size) (hl : size ≤ dst.length) :
    if src.length < size then ∃ m, Hash.copyTruncateAndHash md5 src dst size = some (m, src.length) ∧ Stored dst m size src
    else ∃ m, Hash.copyTruncateAndHash md5 src dst size = some (m, size) ∧
      Stored dst m size (src.take (size - 38) ++ HashSpec.mark ++ hex (md5 src)) := by
  obtain ⟨m, e, hst⟩ := C37_stringCopy src dst size h0 (by omega) hl
  split
  · rename_i hc
    rw [if_pos hc] at e
    rw [List.take_of_length_le (by omega)] at hst
    refine ⟨m, ?_, hst⟩
    simp only [Hash.copyTruncateAndHash, e, Option.bind_eq_bind, Option.bind_some, gt_iff_lt, if_pos hs, if_pos hc]
  · rename_i hc
    rw [if_neg hc] at e
    have hat : ∀ (bs : List UInt8) (m : List (Option UInt8)) (off : Nat), off + 2 * bs.length ≤ m.length → Hash.hexAt m off bs = store m off (hex bs) := by
      intro bs
      induction bs with
      | nil => intro m off h; simp [Hash.hexAt, hex, store_nil m off (by simpa using h)]
      | cons b bs ih =>
        intro m off h
        have hb := b.toNat_lt
        simp only [List.length_cons] at h
        simp only [Hash.hexAt]
        rw [(hi_eq b).2.1, (hi_eq b).2.2, table _ (by omega), table _ (by omega)]
        simp only [Option.bind_eq_bind, Option.bind_some]
        rw [hex_cons, store_set _ _ _ _ (by omega), store_set _ _ _ _ (by simp; omega), write_eq (by omega), Option.bind_some,
          write_eq (by simp; omega), Option.bind_some, ih _ _ (by simp; omega)]
    have hml := hst.size
    obtain ⟨hs0, rest, hm⟩ := hst.string
    obtain ⟨bs, hbs⟩ : ∃ bs, bs = HashSpec.mark ++ hex (md5 src) := ⟨_, rfl⟩
    have hbl : bs.length = 37 := by rw [hbs, List.length_append, hex_length, hmd]; rfl
    have hb0 : 0 ∉ bs := by rw [hbs]; simp [hex_no_nul, HashSpec.mark]
    have hs00 := not_mem_take h0 (size - 38)
    have htl : (src.take (size - 38)).length = size - 38 := by simp; omega
    obtain ⟨mid, hsplit, hmidl⟩ : ∃ mid, src.take (size - 1) = src.take (size - 38) ++ mid ∧ mid.length = 37 := by
      refine ⟨(src.take (size - 1)).drop (size - 38), ?_, by simp; omega⟩
      have := List.take_append_drop (size - 38) (src.take (size - 1))
      rw [List.take_take, show min (size - 38) (size - 1) = size - 38 by omega] at this
      exact this.symm
    rw [hsplit] at hm
    generalize src.take (size - 38) = P at *
    have hE : store m (size - 38) bs = some ((P ++ bs).map some ++ some 0 :: rest) := by
      rw [store_eq (by omega), hm, ← htl]
      congr 1
      rw [List.map_append, List.append_assoc (P.map some), List.take_left' (l₁ := P.map some) (by simp), List.map_append]
      congr 1
      rw [List.drop_append, List.drop_of_length_le (by simp), List.nil_append, List.drop_append,
        List.drop_of_length_le (by simp; omega), List.nil_append, List.length_map, List.length_map, hmidl, hbl]
      rw [show P.length + 37 - P.length - 37 = 0 by omega]; rfl
    refine ⟨(P ++ bs).map some ++ some 0 :: rest, ?_, ?_⟩
    · have hsa := store_append m (size - 38) HashSpec.mark (hex (md5 src))
      rw [← hbs, hE] at hsa
      obtain ⟨m1, e1, e2⟩ := Option.bind_eq_some_iff.1 hsa
      have hm1 : m1.length = m.length := by
        simp only [store] at e1
        split at e1
        · rename_i hh
          simp only [Option.some.injEq] at e1
          rw [← e1]
          simp only [List.length_append, List.length_take, List.length_map, List.length_drop]; omega
        · simp at e1
      simp only [Hash.copyTruncateAndHash, e, Option.bind_eq_bind, Option.bind_some, gt_iff_lt, if_pos hs]
      rw [if_neg (by omega), show size - 1 - 37 = size - 38 by omega]
      rw [show ([35, 77, 68, 53, 61] : List UInt8) = HashSpec.mark from rfl, e1, Option.bind_some,
        List.take_of_length_le (by rw [hmd]; exact Nat.le_refl _), hat _ _ _ (by rw [hmd, hm1]; omega)]
      rw [show HashSpec.mark.length = 5 from rfl] at e2
      rw [e2]; rfl
    · rw [List.append_assoc, ← hbs]
      refine ⟨?_, ?_, ?_, ?_, rest, rfl⟩
      · rw [← hml, hm]; simp; omega
      · rw [← hst.outside, hm, List.drop_append, List.drop_append]
        rw [List.drop_of_length_le (by simp; omega), List.drop_of_length_le (l := (P ++ mid).map some) (by simp; omega)]
        congr 2; simp; omega
      · rw [List.length_append]; omega
      · simp only [List.mem_append, not_or]; exact ⟨hs00, hb0⟩

example : (37 < 38) ∧ (Hash.copyTruncateAndHash (fun _ => List.replicate 16 1) (List.replicate 50 97) (List.replicate 40 none) 38) =
    some ((HashSpec.mark ++ hex (List.replicate 16 1) ++ [0]).map some ++ [none, none], 38) := by decide +kernel

/-! ## C64 -/

/-- C64. `Path_Basename`: the part after the last slash (the whole path when there is none), as a position in the path; NULL when that part is
empty. -/
theorem C64_basename (dir base : List UInt8) (hb : 47 ∉ base) :
    Path.basename (dir ++ 47 :: base) = (if base = [] then none else some (dir.length + 1)) ∧
      Path.basename base = (if base = [] then none else some 0) := by
  have hidx : ∀ tl : List UInt8, (base.reverse ++ 47 :: tl).findIdx? (· == 47) = some base.length := by
    intro tl
    rw [List.findIdx?_eq_some_iff_getElem]
    refine ⟨by simp, by simp, ?_⟩
    intro j hj
    rw [List.getElem_append_left (by simpa using hj)]
    simp only [beq_iff_eq, List.getElem_reverse, Bool.not_eq_true, beq_eq_false_iff_ne]
    intro e
    exact hb (e ▸ List.getElem_mem _)
  have hnone : base.reverse.findIdx? (· == 47) = none := by
    rw [List.findIdx?_eq_none_iff]
    intro x hx
    simp only [beq_eq_false_iff_ne]
    intro e; subst e; exact hb (by simpa using hx)
  constructor
  · unfold Path.basename Path.strrchr
    rw [List.reverse_append, List.reverse_cons, List.append_assoc]
    simp only [List.cons_append, List.nil_append]
    rw [hidx]
    simp only [List.length_append, List.length_cons]
    have : dir.length + (base.length + 1) - 1 - base.length + 1 = dir.length + 1 := by omega
    rw [this]
    by_cases h : base = []
    · subst h; simp
    · have := List.length_pos_iff.2 h
      rw [if_neg (by omega), if_neg h]
  · unfold Path.basename Path.strrchr
    rw [hnone]
    by_cases h : base = []
    · subst h; simp
    · have := List.length_pos_iff.2 h
      simp only
      rw [if_neg (by omega), if_neg h]

example : Path.basename [47, 97, 47, 98] = some 3 ∧ Path.basename [98] = some 0 ∧ Path.basename [97, 47] = none := by decide

/-- C64. `Path_GetQuoted`: the path itself if it is already between quotes or consists of letters, digits, `_`, `-` and `/` only; otherwise the
path between double quotes. -/
theorem C64_getQuoted (path : List UInt8) (h0 : 0 ∉ path) :
    ∃ text, Path.getQuoted path = some (some (text.map some ++ [some 0])) ∧
      text = if (path.head? = some 34 ∧ path.getLast? = some 34) ∨
          (∀ c ∈ path, (97 ≤ c ∧ c ≤ 122) ∨ (65 ≤ c ∧ c ≤ 90) ∨ (48 ≤ c ∧ c ≤ 57) ∨ c = 95 ∨ c = 45 ∨ c = 47) then path
        else [34] ++ path ++ [34] := by
  have hplain : (path.any (fun c => !Path.plainChar c)) = false ↔
      (∀ c ∈ path, (97 ≤ c ∧ c ≤ 122) ∨ (65 ≤ c ∧ c ≤ 90) ∨ (48 ≤ c ∧ c ≤ 57) ∨ c = 95 ∨ c = 45 ∨ c = 47) := by
    rw [List.any_eq_false]
    constructor
    · intro h c hc
      have := h c hc
      simpa only [Path.plainChar, Bool.not_eq_true', Bool.not_eq_false, Bool.not_eq_true, Bool.or_eq_true, Bool.and_eq_true, decide_eq_true_eq, beq_iff_eq, or_assoc] using this
    · intro h c hc
      have := h c hc
      simpa only [Path.plainChar, Bool.not_eq_true', Bool.not_eq_false, Bool.not_eq_true, Bool.or_eq_true, Bool.and_eq_true, decide_eq_true_eq, beq_iff_eq, or_assoc] using this
  unfold Path.getQuoted
  rw [← List.head?_eq_getElem?, ← List.getLast?_eq_getElem?]
  by_cases hq : path.head? = some 34 ∧ path.getLast? = some 34
  · rw [if_pos hq]
    exact ⟨path, by simp, by rw [if_pos (Or.inl hq)]⟩
  · rw [if_neg hq]
    by_cases hp : (path.any (fun c => !Path.plainChar c)) = true
    · rw [if_pos hp, C48_concatenate _ (by simp) (by simp [h0])]
      refine ⟨[34] ++ path ++ [34], by simp, ?_⟩
      rw [if_neg]
      rintro (h | h)
      · exact hq h
      · rw [hplain.2 h] at hp; cases hp
    · rw [if_neg hp]
      refine ⟨path, by simp, ?_⟩
      rw [if_pos (Or.inr (hplain.1 (by simpa using hp)))]

example : Path.getQuoted [97, 32] = some (some [some 34, some 97, some 32, some 34, some 0]) ∧ Path.getQuoted [97, 47] = some (some [some 97, some 47, some 0]) := by
  decide

/-- Finding: a path consisting of one double quote counts as already quoted and is returned as it is. -/
theorem C64_single_quote_is_not_quoted : Path.getQuoted [34] = some (some [some 34, some 0]) := by decide
