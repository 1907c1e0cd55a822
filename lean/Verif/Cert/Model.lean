import Verif.Packet.Model
/-
Models of `ValidityPeriod` (security/validity-period.{hpp,cpp}) and `CertificateCache`
(security/certificate-cache.{hpp,cpp}).

Instants are numbers of nanoseconds since 1970 (`time::system_clock::time_point`, 64 bits) or of seconds
(`ValidityPeriod::TimePoint`). The calendar is that of Boost.Date_Time, which `time::toIsoString` and
`time::fromIsoString` (util/time.cpp 111-158) call; the formulas below are those of its
`gregorian_calendar`. Texts that are not eight digits, a `T` and six digits are left to a parameter.
-/
namespace Ndn.Cert
open Tlv Block Packet

/-! ### Calendar -/

/-- `gregorian_calendar::day_number`. -/
def dayNumber (y m d : Nat) : Nat :=
  let a := (14 - m) / 12
  let y := y + 4800 - a
  let m := m + 12 * a - 3
  d + (153 * m + 2) / 5 + 365 * y + y / 4 - y / 100 + y / 400 - 32045

/-- `gregorian_calendar::from_day_number`: year, month, day. -/
def ymdOf (n : Nat) : Nat × Nat × Nat :=
  let a := n + 32044
  let b := (4 * a + 3) / 146097
  let c := a - 146097 * b / 4
  let d := (4 * c + 3) / 1461
  let e := c - 1461 * d / 4
  let m := (5 * e + 2) / 153
  (100 * b + d - 4800 + m / 10, m + 3 - 12 * (m / 10), e - (153 * m + 2) / 5 + 1)

/-- `gregorian_calendar::is_leap_year`. -/
def isLeap (y : Nat) : Bool := y % 4 == 0 && (y % 100 != 0 || y % 400 == 0)

/-- `gregorian_calendar::end_of_month_day`. -/
def daysIn (y m : Nat) : Nat :=
  if m = 2 then if isLeap y then 29 else 28
  else if m = 4 ∨ m = 6 ∨ m = 9 ∨ m = 11 then 30
  else 31

/-- The day number of 1970-01-01. -/
def epochDay : Nat := 2440588

def digit (n : Nat) : UInt8 := UInt8.ofNat (48 + n % 10)
def dig2 (n : Nat) : Bytes := [digit (n / 10), digit n]
def dig4 (n : Nat) : Bytes := [digit (n / 1000), digit (n / 100), digit (n / 10), digit n]

/-- `time::toIsoString` of a whole second, util/time.cpp 111-135. -/
def isoString (t : Int) : Bytes :=
  let s := (t + (epochDay * 86400 : Nat)).toNat
  let (y, m, d) := ymdOf (s / 86400)
  let r := s % 86400
  dig4 y ++ dig2 m ++ dig2 d ++ 84 :: (dig2 (r / 3600) ++ dig2 (r / 60 % 60) ++ dig2 (r % 60))

/-- Result of `boost::posix_time::from_iso_string`: a second, `bad_lexical_cast` (a `std::bad_cast`), or
`bad_year`, `bad_month`, `bad_day_of_month` (each a `std::out_of_range`). -/
inductive Parsed where
  | ok (t : Int) | badCast | outOfRange
  deriving DecidableEq, Repr

/-- The number written by decimal digits; `none` if an octet is not a digit. -/
def number : Bytes → Nat → Option Nat
  | [], acc => some acc
  | c :: cs, acc => if 48 ≤ c.toNat ∧ c.toNat ≤ 57 then number cs (acc * 10 + (c.toNat - 48)) else none

/-- `from_iso_string` on 15 octets: the date must exist and its year be at least 1400; hours, minutes and
seconds are not limited (a `time_duration` of them is added). -/
def fromIso (other : Bytes → Parsed) (s : Bytes) : Parsed :=
  match number (s.take 4) 0, number ((s.drop 4).take 2) 0, number ((s.drop 6).take 2) 0,
      (s.drop 8).take 1 == [84], number ((s.drop 9).take 2) 0, number ((s.drop 11).take 2) 0,
      number (s.drop 13) 0 with
  | some y, some m, some d, true, some hh, some mm, some ss =>
    if y < 1400 ∨ m < 1 ∨ 12 < m ∨ d < 1 ∨ daysIn y m < d then .outOfRange
    else .ok (((dayNumber y m d : Nat) - (epochDay : Nat) : Int) * 86400 + (hh * 3600 + mm * 60 + ss : Nat))
  | _, _, _, _, _, _, _ => other s

/-! ### ValidityPeriod -/

def nsPerSec : Int := 1000000000

/-- The values of `int64_t`. -/
def int64 (x : Int) : Bool := decide (-2 ^ 63 ≤ x) && decide (x < 2 ^ 63)

/-- `toTimePointFloor`, validity-period.cpp 120-124: `boost::chrono::floor` truncates and corrects. -/
def floorSec (ns : Int) : Int :=
  let t := Int.tdiv ns nsPerSec
  if t * nsPerSec > ns then t - 1 else t

/-- `toTimePointCeil`, 130-134. -/
def ceilSec (ns : Int) : Int :=
  let t := Int.tdiv ns nsPerSec
  if t * nsPerSec < ns then t + 1 else t

/-- Members of `ValidityPeriod`: seconds since 1970, and the octets of `m_wire`. -/
structure Validity where
  notBefore : Int
  notAfter : Int
  wire : Option Bytes
  deriving DecidableEq, Repr

/-- `ValidityPeriod(notBefore, notAfter)`, 47-52, and `setPeriod`, 157-165. -/
def Validity.make (notBefore notAfter : Int) : Validity := ⟨ceilSec notBefore, floorSec notAfter, none⟩

/-- `ValidityPeriod()`, 41-45. -/
def Validity.default : Validity := Validity.make 1 0

/-- `getPeriod`, 167-171: the conversion to nanoseconds overflows (`none`) when not representable. -/
def Validity.period (p : Validity) : Option (Int × Int) :=
  if int64 (p.notBefore * nsPerSec) && int64 (p.notAfter * nsPerSec)
  then some (p.notBefore * nsPerSec, p.notAfter * nsPerSec) else none

/-- `isValid`, 173-177: the comparisons are made in nanoseconds. -/
def Validity.isValid (p : Validity) (now : Int) : Option Bool :=
  if int64 (p.notBefore * nsPerSec) then
    if p.notBefore * nsPerSec ≤ now then
      if int64 (p.notAfter * nsPerSec) then some (decide (now ≤ p.notAfter * nsPerSec)) else none
    else some false
  else none

/-- `wireEncode(encoder)`, 59-71. -/
def Validity.encoding (p : Validity) : Bytes :=
  tlvBytes 253 (tlvBytes 254 (isoString p.notBefore) ++ tlvBytes 255 (isoString p.notAfter))

/-- `wireEncode()`, 75-89. -/
def Validity.wireEncode (p : Validity) : Bytes × Validity :=
  match p.wire with
  | some w => (w, p)
  | none => (p.encoding, { p with wire := some p.encoding })

/-- `operator<` of `std::string`. -/
def strLt : Bytes → Bytes → Bool
  | _, [] => false
  | [], _ :: _ => true
  | a :: x, b :: y => a.toNat < b.toNat || (a == b && strLt x y)

/-- `time_point::min()` and `max()` to whole seconds, 138-140. -/
def minTime : Int := ceilSec (-2 ^ 63)
def maxTime : Int := floorSec (2 ^ 63 - 1)

/-- Outcome of decoding: `error` is `ValidityPeriod::Error` or another `tlv::Error`, `outOfRange` a
`std::out_of_range`, `undefined` a signed overflow. -/
inductive Out where
  | ok | error | outOfRange | undefined
  deriving DecidableEq, Repr

/-- `decodeTimePoint`, 136-158. -/
def decodeTime (other : Bytes → Parsed) (v : Bytes) : Out × Int :=
  if strLt v (isoString minTime) then (.ok, minTime)
  else if strLt (isoString maxTime) v then (.ok, maxTime)
  else match fromIso other v with
    | .ok t => if int64 (t * nsPerSec) then (.ok, t) else (.undefined, t)
    | .badCast => (.error, 0)
    | .outOfRange => (.outOfRange, 0)

/-- `wireDecode`, 91-122: outcome and members afterwards. -/
def Validity.wireDecode (other : Bytes → Parsed) (p : Validity) (b : Raw) : Out × Validity :=
  if b.type ≠ 253 then (.error, p)
  else
    let p : Validity := { p with wire := some b.wire }
    match parseElements b.value with
    | some [nb, na] =>
      if nb.type ≠ 254 ∨ nb.value.length ≠ 15 then (.error, p)
      else if na.type ≠ 255 ∨ na.value.length ≠ 15 then (.error, p)
      else match decodeTime other nb.value with
        | (.ok, t) =>
          let p : Validity := { p with notBefore := t }
          match decodeTime other na.value with
          | (.ok, t) => (.ok, { p with notAfter := t })
          | (o, _) => (o, p)
        | (o, _) => (o, p)
    | _ => (.error, p)

/-- `operator==`, validity-period.hpp 143-148. -/
def Validity.equals (p q : Validity) : Bool := p.notBefore == q.notBefore && p.notAfter == q.notAfter

end Ndn.Cert
