import Verif.Hex.Model
/-
Independent specification: hexadecimal notation and percent escaping.
-/
namespace Ndn.Hex.Spec

/-- `c` is a hexadecimal digit of value `d` (either case). -/
def HexDigit (c : UInt8) (d : Nat) : Prop :=
  (d < 10 ∧ c.toNat = 48 + d) ∨
  (10 ≤ d ∧ d < 16 ∧ (c.toNat = 65 + (d - 10) ∨ c.toNat = 97 + (d - 10)))

/-- `HexForm s bs`: the string `s` is a hexadecimal notation of the octets `bs`. -/
inductive HexForm : Bytes → Bytes → Prop
  | nil : HexForm [] []
  | cons {hi lo b : UInt8} {h l : Nat} {s bs : Bytes} (h1 : HexDigit hi h) (h2 : HexDigit lo l)
      (hb : b.toNat = h * 16 + l) (hs : HexForm s bs) : HexForm (hi :: lo :: s) (b :: bs)

/-- Letters, digits, `-`, `.`, `_`, `~`. -/
def Unreserved (c : UInt8) : Prop :=
  (97 ≤ c.toNat ∧ c.toNat ≤ 122) ∨ (65 ≤ c.toNat ∧ c.toNat ≤ 90) ∨ (48 ≤ c.toNat ∧ c.toNat ≤ 57) ∨
  c.toNat = 45 ∨ c.toNat = 46 ∨ c.toNat = 95 ∨ c.toNat = 126

/-- `EscForm e s`: `e` is the percent-escaped form of `s`: unreserved characters stand for
themselves, every other octet is `%` followed by its two upper-case hexadecimal digits. -/
inductive EscForm : Bytes → Bytes → Prop
  | nil : EscForm [] []
  | plain {c : UInt8} {e s : Bytes} (hc : Unreserved c) (h : EscForm e s) : EscForm (c :: e) (c :: s)
  | hex {c hi lo : UInt8} {h l : Nat} {e s : Bytes} (hc : ¬ Unreserved c) (h1 : HexDigit hi h)
      (h2 : HexDigit lo l) (u1 : hi.toNat < 97) (u2 : lo.toNat < 97) (hv : c.toNat = h * 16 + l)
      (hs : EscForm e s) : EscForm (37 :: hi :: lo :: e) (c :: s)

end Ndn.Hex.Spec
