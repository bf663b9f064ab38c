import Verif.Model.Texts
import Verif.Spec.Strings
/-! # Specification of timestamps -/
namespace TextsSpec
open Texts

/-- A broken-down time as `localtime` gives it: fields in their ranges, a year with four digits, a zone less than a hundred hours from UTC. -/
structure Ordinary (t : Tm) : Prop where
  year : 1000 ≤ t.year ∧ t.year ≤ 9999
  mon : t.mon < 12
  mday : t.mday ≤ 31
  hour : t.hour < 24
  min : t.min < 60
  sec : t.sec ≤ 60
  zone : t.gmtoff.natAbs < 360000
  isdst : 0 ≤ t.isdst

/-- Earlier on the clock: the first field that differs decides. -/
def Earlier (a b : Tm) : Prop :=
  a.year < b.year ∨ a.year = b.year ∧ (a.mon < b.mon ∨ a.mon = b.mon ∧ (a.mday < b.mday ∨ a.mday = b.mday ∧
    (a.hour < b.hour ∨ a.hour = b.hour ∧ (a.min < b.min ∨ a.min = b.min ∧ a.sec < b.sec))))

/-- The number written at position `i` of a text with `w` decimal digits, if there are that many. -/
def numberAt (text : Bytes) (i w : Nat) : Option Nat :=
  let ds := (text.drop i).take w
  if ds.length = w ∧ ∀ c ∈ ds, 48 ≤ c ∧ c ≤ 57 then some (ds.foldl (fun v c => 10 * v + (c.toNat - 48)) 0) else none

/-- Formatting `t` into `n` bytes succeeds and gives `text`, whatever was in memory before. -/
def Shows (n : Nat) (t : Tm) (text : Bytes) : Prop :=
  ∀ dest junk, n ≤ dest.length → ∃ m, loggingFormatTimestamp dest n t junk = some (m, true) ∧ StrSpec.Stored dest m n text

end TextsSpec
