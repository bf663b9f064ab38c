import Verif.Model.Bytes
import Verif.Model.StrNum
import Verif.Model.StrCopy
/-! # Model of short texts made from numbers: timestamps of the log (libutils/logging.c), messages for error codes and signals
(libutils/logging.c on Windows, libutils/string_lib.c, libcompat/strerror.c, libcompat/strsignal.c) -/
namespace Texts

abbrev Bytes := List UInt8

/-- `struct tm` (C library), with the year itself instead of `tm_year`, and `tm_gmtoff` in seconds. -/
structure Tm where
  year : Int
  mon : Nat
  mday : Nat
  hour : Nat
  min : Nat
  sec : Nat
  gmtoff : Int
  isdst : Int

/-- Two decimal digits. -/
def two (n : Nat) : Bytes := [UInt8.ofNat (48 + n / 10 % 10), UInt8.ofNat (48 + n % 10)]

/-- `%Y` (C library). -/
def yearText (y : Int) : Bytes := if y < 0 then 45 :: Str.natText y.natAbs else Str.natText y.natAbs

/-- `%z` (C library, glibc): nothing if `tm_isdst` is negative; else the sign and hours and minutes with two digits each. -/
def zoneText (t : Tm) : Bytes :=
  if t.isdst < 0 then []
  else (if t.gmtoff < 0 then 45 else 43) :: (two (t.gmtoff.natAbs / 60 / 60) ++ two (t.gmtoff.natAbs / 60 % 60))

/-- What the format `"%Y-%m-%dT%H:%M:%S%z"` (logging.c:202) gives. -/
def stampText (t : Tm) : Bytes :=
  yearText t.year ++ [45] ++ two (t.mon + 1) ++ [45] ++ two t.mday ++ [84] ++ two t.hour ++ [58] ++ two t.min ++ [58] ++ two t.sec ++ zoneText t

/-- `strftime` (C standard) for a format giving `text`: if the text and its terminator fit into `n` bytes they are stored and the length is
returned; otherwise 0, and the `n` bytes are indeterminate (`junk`). -/
def strftime (dest : List (Option UInt8)) (n : Nat) (text : Bytes) (junk : List (Option UInt8)) : Option (List (Option UInt8) × Nat) :=
  if n ≤ dest.length then
    if text.length < n then (CMem.store dest 0 (text ++ [0])).map fun m => (m, text.length)
    else some (junk.take n ++ List.replicate (n - junk.length) none ++ dest.drop n, 0)
  else none

/-- `LoggingFormatTimestamp` (logging.c:200-208). -/
def loggingFormatTimestamp (dest : List (Option UInt8)) (n : Nat) (t : Tm) (junk : List (Option UInt8)) : Option (List (Option UInt8) × Bool) := do
  let (dest, r) ← strftime dest n (stampText t) junk
  if r = 0 then do
    let (dest, _) ← Str.strlcpy dest (bytes! "<unknown>") n
    some (dest, false)
  else some (dest, true)

/-- `CF_BUFSIZE` (definitions.h). -/
def cfBufSize : Nat := 4096

/-- `GetErrorStrFromCode` on Windows (logging.c:282-300) with an array of `size` bytes; `msg` is the text `FormatMessage` writes into the zeroed
array (`none`: it fails and returns 0). A text that does not fit makes it fail. -/
def errorStr (size : Nat) (msg : Option Bytes) : Option (List (Option UInt8)) := do
  let errbuf := List.replicate size (some (0 : UInt8))
  match msg.filter fun t => t.length < size ∧ t ≠ [] with
  | some t => do
    let errbuf ← CMem.store errbuf 0 (t ++ [0])
    let len ← CMem.strlen errbuf 0
    if len < 2 then none  -- errbuf[-1]
    else do
      let errbuf ← CMem.write errbuf (len - 1) (some 0)
      CMem.write errbuf (len - 2) (some 0)
  | none => CMem.store errbuf 0 (bytes! "Unknown error" ++ [0])

/-- `GetErrorStrFromCode` on Windows (logging.c:282-300). -/
def getErrorStrFromCode (msg : Option Bytes) : Option (List (Option UInt8)) := errorStr cfBufSize msg

/-- `%d` (C library). -/
def intText (n : Int) : Bytes := if n < 0 then 45 :: Str.natText n.natAbs else Str.natText n.natAbs

/-- `snprintf(buf, size, …)` (C library) for a format giving `text`, `size > 0`: what the array then holds as a string. -/
def snprintf (size : Nat) (text : Bytes) : Bytes := text.take (size - 1)

/-- `strerror` (libcompat/strerror.c:35-41). -/
def strerror (err : Int) : Bytes := snprintf 20 (bytes! "Error number " ++ intText err ++ [10])

/-- `strsignal` (libcompat/strsignal.c:43-47). -/
def strsignal (sig : Int) : Bytes := snprintf 16 (bytes! "Signal #" ++ intText sig)

/-- The reason that `LogStringToLongError` (string_lib.c:570-592) gives. -/
def conversionError (code : Int) : Bytes :=
  if code = Str.ERANGE then bytes! "Overflow"
  else if code = -81 then bytes! "No digits"
  else if code = -82 then bytes! "No endpointer"
  else if code = -83 then bytes! "Not terminated"
  else if code = -84 then bytes! "Integer part too large"
  else bytes! "Unknown"

end Texts
