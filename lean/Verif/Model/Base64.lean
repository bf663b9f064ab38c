import Verif.Model.Mem
/-! # Model of `StringEncodeBase64` (libutils/encode.c)

The library calls (OpenSSL's base64 filter in front of a memory buffer) are not in /repo: they are modelled here by what OpenSSL documents
and does: 48 input bytes make a line of 64 characters, the last line is what is left, padded, and every line ends in a newline. -/
namespace Base64

abbrev Bytes := List UInt8

/-- The character for a value below 64 (the table of OpenSSL's encoder). -/
def char64 (v : Nat) : UInt8 :=
  if v < 26 then UInt8.ofNat (0x41 + v)
  else if v < 52 then UInt8.ofNat (0x61 + (v - 26))
  else if v < 62 then UInt8.ofNat (0x30 + (v - 52))
  else if v = 62 then 0x2b else 0x2f

/-- OpenSSL's EVP_EncodeBlock: three bytes make four characters, what is left is padded with `=`. -/
def encodeBlock : Bytes → Bytes
  | [] => []
  | [a] => [char64 (a.toNat / 4), char64 (a.toNat % 4 * 16), 0x3d, 0x3d]
  | [a, b] => [char64 (a.toNat / 4), char64 (a.toNat % 4 * 16 + b.toNat / 16), char64 (b.toNat % 16 * 4), 0x3d]
  | a :: b :: c :: rest =>
    char64 (a.toNat / 4) :: char64 (a.toNat % 4 * 16 + b.toNat / 16) :: char64 (b.toNat % 16 * 4 + c.toNat / 64) :: char64 (c.toNat % 64)
      :: encodeBlock rest

/-- What the memory buffer holds after `BIO_write` and `BIO_flush`: a line for each 48 bytes. -/
def bioOutput (s : Bytes) : Bytes :=
  if s = [] then [] else encodeBlock (s.take 48) ++ [0x0a] ++ bioOutput (s.drop 48)
  termination_by s.length
  decreasing_by
    have : s.length ≠ 0 := by simpa using ‹¬s = []›
    simp only [List.length_drop]; omega

/-- `StringEncodeBase64` (encode.c:36-67), for `len` up to INT_MAX bytes readable at `str`: the allocation, which the caller owns.
Not modelled: failing library calls. -/
def encode (str : Bytes) (len : Nat) : Option (List (Option UInt8)) :=
  if len = 0 then some [some 0]
  else if str.length < len then none
  else do
    let out : List (Option UInt8) := List.replicate (bioOutput (str.take len)).length (some 0)
    let out ← CMem.memcpy out 0 ((bioOutput (str.take len)).map some) 0 ((bioOutput (str.take len)).length - 1)
    CMem.write out ((bioOutput (str.take len)).length - 1) (some 0)

end Base64
