import Verif.Cert.Model

/-
The civil calendar, by the rule for the next day, and the text of an instant.
-/
namespace Ndn.Cert.Spec

/-- Leap years: multiples of 4, except multiples of 100 that are not multiples of 400. -/
def Leap (y : Nat) : Prop := 4 ∣ y ∧ (¬ 100 ∣ y ∨ 400 ∣ y)

instance (y : Nat) : Decidable (Leap y) := by unfold Leap; infer_instance

/-- Number of days of each month. -/
def monthDays (y : Nat) : Nat → Nat
  | 1 => 31 | 2 => if Leap y then 29 else 28 | 3 => 31 | 4 => 30 | 5 => 31 | 6 => 30
  | 7 => 31 | 8 => 31 | 9 => 30 | 10 => 31 | 11 => 30 | 12 => 31 | _ => 0

/-- A date of the civil calendar. -/
structure Date where
  year : Nat
  month : Nat
  day : Nat
  deriving DecidableEq, Repr

def Date.Valid (d : Date) : Prop := 1 ≤ d.day ∧ d.day ≤ monthDays d.year d.month

/-- The day after. -/
def Date.next (d : Date) : Date :=
  if d.day < monthDays d.year d.month then { d with day := d.day + 1 }
  else if d.month < 12 then ⟨d.year, d.month + 1, 1⟩
  else ⟨d.year + 1, 1, 1⟩

/-- The date `n` days after another. -/
def Date.plus (d : Date) : Nat → Date
  | 0 => d
  | n + 1 => (d.plus n).next

/-- The first day of the year 1400, the first year Boost.Date_Time knows; days are counted from here. -/
def start : Date := ⟨1400, 1, 1⟩

/-- Decimal digits, at the given width. -/
def decimal : Nat → Nat → Ndn.Bytes
  | 0, _ => []
  | w + 1, n => decimal w (n / 10) ++ [UInt8.ofNat (48 + n % 10)]

/-- The text `YYYYMMDDTHHMMSS`. -/
def text (d : Date) (hh mm ss : Nat) : Ndn.Bytes :=
  decimal 4 d.year ++ decimal 2 d.month ++ decimal 2 d.day ++ [84] ++ decimal 2 hh ++ decimal 2 mm ++ decimal 2 ss

/-- Days from `start` to 1970-01-01. -/
def daysTo1970 : Nat := 208188

/-- The instant `n` days and the given time after the beginning of `start`, in seconds since 1970. -/
def instant (n hh mm ss : Nat) : Int := ((n : Int) - daysTo1970) * 86400 + (hh * 3600 + mm * 60 + ss : Nat)

/-- The hour, minute and second exist. -/
def Clock (hh mm ss : Nat) : Prop := hh < 24 ∧ mm < 60 ∧ ss < 60

/-- The seconds whose instant a 64-bit count of nanoseconds can hold. -/
def Representable (t : Int) : Prop := -2 ^ 63 ≤ t * 1000000000 ∧ t * 1000000000 < 2 ^ 63

instance (t : Int) : Decidable (Representable t) := by unfold Representable; infer_instance

/-- The nearest representable second. -/
def nearest (t : Int) : Int := max (-9223372036) (min 9223372036 t)

end Ndn.Cert.Spec
