import Verif.Model.HashApi
import Verif.Spec.Strings
/-! # Specification of the digests -/
namespace HashSpec
open Hash (Method Lib Obj Bytes)

/-- What the code assumes of OpenSSL: a digest it knows under the name of a method has the method's length in bytes, and it knows no digests named "best" and "crypt". -/
structure Assumed (L : Lib) : Prop where
  md5 : ∀ f, L.byName [109, 100, 53] = some f → ∀ x, (f x).length = 16
  sha224 : ∀ f, L.byName [115, 104, 97, 50, 50, 52] = some f → ∀ x, (f x).length = 28
  sha256 : ∀ f, L.byName [115, 104, 97, 50, 53, 54] = some f → ∀ x, (f x).length = 32
  sha384 : ∀ f, L.byName [115, 104, 97, 51, 56, 52] = some f → ∀ x, (f x).length = 48
  sha512 : ∀ f, L.byName [115, 104, 97, 53, 49, 50] = some f → ∀ x, (f x).length = 64
  sha1 : ∀ f, L.byName [115, 104, 97, 49] = some f → ∀ x, (f x).length = 20
  sha : ∀ f, L.byName [115, 104, 97] = some f → ∀ x, (f x).length = 20
  best : L.byName [98, 101, 115, 116] = none
  crypt : L.byName [99, 114, 121, 112, 116] = none

/-- The name of a method. -/
def nameOf : Method → Bytes
  | .md5 => [109, 100, 53]
  | .sha224 => [115, 104, 97, 50, 50, 52]
  | .sha256 => [115, 104, 97, 50, 53, 54]
  | .sha384 => [115, 104, 97, 51, 56, 52]
  | .sha512 => [115, 104, 97, 53, 49, 50]
  | .sha1 => [115, 104, 97, 49]
  | .sha => [115, 104, 97]
  | .best => [98, 101, 115, 116]
  | .crypt => [99, 114, 121, 112, 116]
  | .none => []

/-- The library's digest function for a method, with everything working. -/
def Has (L : Lib) (m : Method) (f : Bytes → Bytes) : Prop := m ≠ .none ∧ L.byName (nameOf m) = some f ∧ L.ctxOk = true ∧ L.initOk = true

/-- The object's interface shows the method and the digest `d`: HashType, HashLength, HashData, and HashPrintable with "MD5=" or "SHA=" and hex digits. -/
structure Shows (h : Obj) (m : Method) (d : Bytes) : Prop where
  type : Hash.typeOf (some h) = m
  length : Hash.lengthOf (some h) = d.length
  data : Hash.data h = some d
  printable : Hash.printableOf h = some ((if m = .md5 then [77, 68, 53, 61] else [83, 72, 65, 61]) ++ StrSpec.hex d)

end HashSpec
