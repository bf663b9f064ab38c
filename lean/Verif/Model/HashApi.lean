import Verif.Model.Path
import Verif.Model.Io
import Verif.Model.StrNum
/-! # Model of the digests of libutils/hash.c

OpenSSL is the parameter `Lib`: the digest functions it has by name, and whether a context can be allocated and initialised. A context is the data it has been given so far: `EVP_DigestUpdate(ctx, p, n)` reads `n`
bytes from `p` and appends them, `EVP_DigestFinal` stores the digest of all of it. `none` is undefined behaviour or a failed assertion; memory cells are `none` while uninitialised. -/
namespace Hash

abbrev Bytes := List UInt8

/-- The digests the OpenSSL library knows (`EVP_get_digestbyname`), and whether `EVP_MD_CTX_create` and `EVP_DigestInit_ex` succeed. -/
structure Lib where
  byName : Bytes → Option (Bytes → Bytes)
  ctxOk : Bool
  initOk : Bool

/-- `CF_DIGEST_TYPES` (hash.c:39-51): md5, sha224, sha256, sha384, sha512, sha1, sha, best, crypt. -/
def names : List Bytes :=
  [[109, 100, 53],
   [115, 104, 97, 50, 50, 52],
   [115, 104, 97, 50, 53, 54],
   [115, 104, 97, 51, 56, 52],
   [115, 104, 97, 53, 49, 50],
   [115, 104, 97, 49],
   [115, 104, 97],
   [98, 101, 115, 116],
   [99, 114, 121, 112, 116]]

/-- The methods in the order of the enum (hash_method.h:35-47). -/
def methods : List Method := [.md5, .sha224, .sha256, .sha384, .sha512, .sha1, .sha, .best, .crypt]

/-- The number of a method in the enum. -/
def Method.id : Method → Nat
  | .md5 => 0 | .sha224 => 1 | .sha256 => 2 | .sha384 => 3 | .sha512 => 4 | .sha1 => 5 | .sha => 6 | .best => 7 | .crypt => 8 | .none => 9

/-- The method with a number (the cast in hash.c:370). -/
def ofId (i : Nat) : Method := methods.getD i .none

/-- `HashIdFromName` (hash.c:363-375); NULL is `none`. -/
def idFromName (s : Option Bytes) : Method :=
  match s with
  | none => .none
  | some s =>
    match names.findIdx? (fun n => Str.cmpSign id s n == 0) with
    | some i => ofId i
    | none => .none

/-- `HashNameFromId` (hash.c:377-381). -/
def nameFromId (m : Method) : Option Bytes := if m.id ≥ Method.id .none then Option.none else names[m.id]?

/-- `HashDigestFromId` (hash.c:383-391). -/
def digestFromId (L : Lib) (m : Method) : Option (Bytes → Bytes) :=
  match nameFromId m with
  | Option.none => Option.none
  | some n => L.byName n

/-- `struct Hash` (hash.c:67-72). -/
structure Obj where
  digest : List (Option UInt8)
  printable : List (Option UInt8)
  method : Method
  size : Nat
deriving DecidableEq

/-- `HashBasicInit` (hash.c:80-86): `xcalloc`. -/
def basicInit (m : Method) : Obj := ⟨List.replicate 64 (some 0), List.replicate 256 (some 0), m, size m⟩

/-- `EVP_DigestUpdate(context, buffer, n)`: reads `n` initialised bytes. -/
def update (acc : Bytes) (buffer : List (Option UInt8)) (n : Nat) : Option Bytes :=
  if n ≤ buffer.length then do
    let xs ← CMem.getRange buffer 0 n
    some (acc ++ xs)
  else none

/-- `EVP_DigestFinal_ex` into `hash->digest` and `HashCalculatePrintableRepresentation` (hash.c:155-160, 205-210, 274-280). -/
def finish (f : Bytes → Bytes) (acc : Bytes) (m : Method) : Option Obj := do
  let h := basicInit m
  let d ← CMem.store h.digest 0 (f acc)
  let bytes ← CMem.getRange d 0 h.size
  let p ← calculatePrintable h.printable bytes m
  some { h with digest := d, printable := p }

/-- `HashNew` (hash.c:124-162); `data` is NULL or an allocation. The inner `none` is a NULL result. -/
def new (L : Lib) (data : Option (List (Option UInt8))) (length : Nat) (m : Method) : Option (Option Obj) :=
  match data with
  | none => some none
  | some data =>
    if length = 0 then some none
    else if m.id ≥ Method.id .none then some none
    else do
      let name ← names[m.id]?
      match L.byName name with
      | none => some none
      | some f =>
        if L.ctxOk then do
          let acc ← update [] data length
          let h ← finish f acc m
          some (some h)
        else some none

/-- `(size_t) -1`. -/
def sizeMax : Nat := 2 ^ 64 - 1

/-- The loop of `HashNewFromDescriptor` (hash.c:196-202): `read` completes as the schedule says; every failure is -1, which becomes the largest `size_t`. The second component is what is left of the schedule and the data. -/
def fdLoop (acc : Bytes) (rest : Bytes) : List Io.Ev → Option (Io.Out (Bytes × Io.Fd))
  | [] => some .pending
  | e :: sched =>
    match e with
    | .eintr => do
      let _ ← update acc (List.replicate 1024 none) sizeMax
      none
    | .err => do
      let _ ← update acc (List.replicate 1024 none) sizeMax
      none
    | .got k => do
      let n := Io.readN k 1024 rest
      let buffer ← CMem.store (List.replicate 1024 none) 0 (rest.take n)
      let acc ← update acc buffer n
      if n > 0 then fdLoop acc (rest.drop n) sched else some (.done (acc, ⟨rest, sched⟩))

/-- `HashNewFromDescriptor` (hash.c:164-212). -/
def newFromDescriptor (L : Lib) (descriptor : Int) (rest : Bytes) (sched : List Io.Ev) (m : Method) : Option (Io.Out (Option Obj)) :=
  if descriptor < 0 then some (.done none)
  else if m.id ≥ Method.id .none then some (.done none)
  else match digestFromId L m with
    | none => some (.done none)
    | some f =>
      if L.ctxOk then
        if L.initOk then do
          let r ← fdLoop [] rest sched
          match r with
          | .pending => some .pending
          | .done (acc, _) => do
            let h ← finish f acc m
            some (.done (some h))
        else some (.done none)
      else some (.done none)

/-- The bytes of a number, most significant first, without leading zeros (`BN_bn2bin`; `BN_num_bytes` is their count). -/
def bnBytes (n : Nat) : Bytes := if h : n = 0 then [] else bnBytes (n / 256) ++ [UInt8.ofNat (n % 256)]
termination_by n
decreasing_by omega

/-- `BN_bn2bin(n, buffer)`: the buffer and the length; NULL is `none` and may not be passed. -/
def bn2bin (n : Option Nat) (buffer : List (Option UInt8)) : Option (List (Option UInt8) × Nat) := do
  let n ← n
  let b ← CMem.store buffer 0 (bnBytes n)
  some (b, (bnBytes n).length)

/-- `BN_num_bytes` with NULL counted as 0 (hash.c:229-230, 565-566). -/
def bnLen (n : Option Nat) : Nat :=
  match n with
  | none => 0
  | some n => (bnBytes n).length

/-- Feeding modulus and exponent through one buffer (hash.c:259-271, 569-580). -/
def keyData (n e : Option Nat) (bufLen : Nat) : Option Bytes := do
  let r ← bn2bin n (List.replicate bufLen none)
  let acc ← if r.2 ≤ bufLen then update [] r.1 r.2 else none          -- CF_ASSERT
  let s ← bn2bin e r.1
  if s.2 ≤ bufLen then update acc s.1 s.2 else none                     -- CF_ASSERT

/-- `HashNewFromKey` (hash.c:214-282); the key is NULL or has modulus and exponent (either may be NULL). -/
def newFromKey (L : Lib) (rsa : Option (Option Nat × Option Nat)) (m : Method) : Option (Option Obj) :=
  match rsa with
  | none => some none
  | some (n, e) =>
    if m.id ≥ Method.id .none then some none
    else
      let bufLen := max (bnLen n) (bnLen e)
      if bufLen = 0 then some none
      else do
        let name ← names[m.id]?
        match L.byName name with
        | none => some none
        | some f =>
          if L.ctxOk then
            if L.initOk then do
              let acc ← keyData n e bufLen
              let h ← finish f acc m
              some (some h)
            else some none
          else some none

/-- `HashCopy` (hash.c:294-306): the result and `*destination`. The member arrays are filled as far as the code does. -/
def copy (origin : Option Obj) (dest : Bool) : Option (Int × Option Obj) :=
  match origin, dest with
  | some o, true => do
    let bytes ← CMem.getRange o.digest 0 o.size
    let d ← CMem.store (List.replicate 64 none) 0 bytes
    let s ← CMem.str o.printable
    let (p, _) ← Str.strlcpy (List.replicate 256 none) s 256
    some (0, some ⟨d, p, o.method, o.size⟩)
  | _, _ => some (-1, none)

/-- The loop of `HashEqual` (hash.c:328-334): `n` bytes left at `i`. -/
def equalLoop (a b : List (Option UInt8)) (i : Nat) : Nat → Option Bool
  | 0 => some true
  | n + 1 => do
    let x ← CMem.get a i
    let y ← CMem.get b i
    if x ≠ y then some false else equalLoop a b (i + 1) n

/-- `HashEqual` (hash.c:308-335). -/
def equal (a b : Option Obj) : Option Bool :=
  match a, b with
  | none, none => some true
  | none, some _ => some false
  | some _, none => some false
  | some a, some b => if a.method ≠ b.method then some false else equalLoop a.digest b.digest 0 a.size

/-- `HashData` (hash.c:337-345) read to its length, `HashPrintable` (hash.c:347-350) read as a string, `HashType` (hash.c:352-355), `HashLength` (hash.c:357-360). -/
def data (h : Obj) : Option Bytes := CMem.getRange h.digest 0 h.size
def printableOf (h : Obj) : Option Bytes := CMem.str h.printable
def typeOf (h : Option Obj) : Method := match h with | some h => h.method | none => .none
def lengthOf (h : Option Obj) : Nat := match h with | some h => h.size | none => 0

/-- The end of `HashString`, `HashFile_Stream` and `HashPubKey`: `EVP_DigestFinal(context, digest, ..)` into the caller's array. -/
def final (f : Bytes → Bytes) (acc : Bytes) (digest : List (Option UInt8)) : Option (List (Option UInt8)) := CMem.store digest 0 (f acc)

/-- `HashString` (hash.c:478-526); `digest` is the caller's array, `buffer` the allocation, `len` an `int` (a negative one becomes a `size_t`). -/
def hashString (L : Lib) (buffer : List (Option UInt8)) (len : Int) (digest : List (Option UInt8)) (m : Method) : Option (List (Option UInt8)) :=
  if m = .crypt then none                                                -- assert, line 486
  else do
    let digest ← CMem.memset digest 0 0 65
    match digestFromId L m with
    | none => some digest
    | some f =>
      if L.ctxOk then
        if L.initOk then do
          let acc ← update [] buffer (if len < 0 then (2 ^ 64 + len).toNat else len.toNat)
          final f acc digest
        else some digest
      else some digest

/-- The loop of `HashFile_Stream` (hash.c:426-430): `fread` completes as the schedule says; with an error it returns 0. -/
def streamLoop (acc : Bytes) (rest : Bytes) : List Io.Ev → Option (Io.Out Bytes)
  | [] => some .pending
  | e :: sched =>
    match e with
    | .eintr => some (.done acc)
    | .err => some (.done acc)
    | .got k => do
      let n := Io.readN k 1024 rest
      let buffer ← CMem.store (List.replicate 1024 none) 0 (rest.take n)
      if n ≠ 0 then do
        let acc ← update acc buffer n
        streamLoop acc (rest.drop n) sched
      else some (.done acc)

/-- `HashFile` (hash.c:443-474) with `HashFile_Stream` (hash.c:400-436); `file` is what `safe_fopen` gives: NULL or the content. On Unix text mode makes no difference. -/
def hashFile (L : Lib) (file : Option Bytes) (sched : List Io.Ev) (digest : List (Option UInt8)) (m : Method) : Option (Io.Out (List (Option UInt8))) := do
  let digest ← CMem.memset digest 0 0 65
  match file with
  | none => some (.done digest)
  | some rest =>
    match digestFromId L m with
    | none => some (.done digest)
    | some f =>
      if L.ctxOk then
        if L.initOk then do
          let r ← streamLoop [] rest sched
          match r with
          | .pending => some .pending
          | .done acc => do
            let d ← final f acc digest
            some (.done d)
        else some (.done digest)
      else some (.done digest)

/-- `HashPubKey` (hash.c:530-590); an array of length 0 may not be declared (C11 6.7.6.2p5). -/
def hashPubKey (L : Lib) (n e : Option Nat) (digest : List (Option UInt8)) (m : Method) : Option (List (Option UInt8)) :=
  if m = .crypt then none                                                -- assert, line 536
  else do
    let digest ← CMem.memset digest 0 0 65
    match digestFromId L m with
    | none => some digest
    | some f =>
      if L.ctxOk then
        if L.initOk then
          let bufLen := max (bnLen n) (bnLen e)
          if bufLen = 0 then none
          else do
            let acc ← keyData n e bufLen
            final f acc digest
        else some digest
      else some digest

end Hash
