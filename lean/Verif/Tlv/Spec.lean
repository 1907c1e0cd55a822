import Verif.Tlv.Model
/-
Independent specification of the NDN TLV number formats (NDN packet format v0.3, "TLV encoding"):
which byte strings denote which numbers. Nothing here uses the model's readers and writers.
-/
namespace Ndn.Tlv.Spec

/-- `VarForm bs n`: the byte string `bs` is one of the VAR-NUMBER forms of `n`
(1, 3, 5 or 9 octets; the spec's "shortest form" rule is deliberately absent, as the code
accepts the longer forms). -/
inductive VarForm : Bytes → Nat → Prop
  | one (a : UInt8) (h : a.toNat ≤ 252) : VarForm [a] a.toNat
  | three (a b : UInt8) : VarForm [253, a, b] (a.toNat * 256 + b.toNat)
  | five (a b c d : UInt8) :
      VarForm [254, a, b, c, d]
        (a.toNat * 256 ^ 3 + b.toNat * 256 ^ 2 + c.toNat * 256 + d.toNat)
  | nine (a b c d e f g h : UInt8) :
      VarForm [255, a, b, c, d, e, f, g, h]
        (a.toNat * 256 ^ 7 + b.toNat * 256 ^ 6 + c.toNat * 256 ^ 5 + d.toNat * 256 ^ 4 +
          e.toNat * 256 ^ 3 + f.toNat * 256 ^ 2 + g.toNat * 256 + h.toNat)

/-- `NniForm bs n`: `bs` is one of the four NonNegativeInteger forms of `n`. -/
inductive NniForm : Bytes → Nat → Prop
  | one (a : UInt8) : NniForm [a] a.toNat
  | two (a b : UInt8) : NniForm [a, b] (a.toNat * 256 + b.toNat)
  | four (a b c d : UInt8) :
      NniForm [a, b, c, d] (a.toNat * 256 ^ 3 + b.toNat * 256 ^ 2 + c.toNat * 256 + d.toNat)
  | eight (a b c d e f g h : UInt8) :
      NniForm [a, b, c, d, e, f, g, h]
        (a.toNat * 256 ^ 7 + b.toNat * 256 ^ 6 + c.toNat * 256 ^ 5 + d.toNat * 256 ^ 4 +
          e.toNat * 256 ^ 3 + f.toNat * 256 ^ 2 + g.toNat * 256 + h.toNat)

end Ndn.Tlv.Spec
