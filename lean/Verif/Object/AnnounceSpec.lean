import Verif.Object.Announce
import Verif.Object.LinkSpec
import Verif.Cert.Spec
import Verif.Name.Spec

/-! What a prefix announcement and a metadata packet are. -/

namespace Ndn.Object.Spec
open Ndn.Tlv Ndn.Tlv.Spec Ndn.Block Ndn.Block.Spec Ndn.Name Ndn.Packet Ndn.Packet.Spec Ndn.Object Ndn.Cert Ndn.Cert.Spec

/-- A component holding a number according to a naming convention that is accepted in decoding:
the marker octet and the number in a generic component, or the number in a typed component. -/
def ConvForm (s : Settings) (marker : UInt8) (type : Nat) (c : Comp) : Prop :=
  ∃ n, (s.decodeMarker = true ∧ c.type = 8 ∧ ∃ r, c.value = marker :: r ∧ NniForm r n) ∨
       (s.decodeTyped = true ∧ c.type = type ∧ NniForm c.value n)

/-- `prefix / keyword / version / segment`. -/
def NameOf (s : Settings) (kw : Comp) (n p : List Comp) : Prop :=
  ∃ v g, n = p ++ [kw, v, g] ∧ ConvForm s 0xFD 54 v ∧ ConvForm s 0x00 50 g

/-- `x` is the first element of this type. -/
def FirstOf (t : Nat) (es : List Raw) (x : Raw) : Prop :=
  ∃ pre post, es = pre ++ x :: post ∧ x.type = t ∧ ∀ e ∈ pre, e.type ≠ t

/-- The elements of the content, of which there is at least one octet. -/
def Payload (f : DFields) (es : List Raw) : Prop :=
  ∃ c, f.content = some c ∧ c.value ≠ [] ∧ ReadsAs c.value es

/-- The packet announces the prefix `n`, for `e` milliseconds (as sent), with the validity period
`v`. Elements of other types must not be critical; of repeated elements the first counts. -/
def Announces (s : Settings) (other : Bytes → Parsed) (f : DFields) (n : List Comp) (e : Nat) (v : Option Validity) : Prop :=
  NameOf s ⟨32, [80, 65]⟩ f.name n ∧ f.minfo.type = 5 ∧ ∃ es, Payload f es ∧
    (∃ x, FirstOf 109 es x ∧ NniForm x.value e) ∧
    (match v with
      | none => ∀ y ∈ es, y.type ≠ 253
      | some v => ∃ y, FirstOf 253 es y ∧ Validity.default.wireDecode other y = (.ok, v)) ∧
    ∀ y ∈ es, y.type = 109 ∨ y.type = 253 ∨ Ignorable y

/-- The packet is metadata for the object with this name. -/
def Describes (s : Settings) (f : DFields) (n : List Comp) : Prop :=
  (∃ p, NameOf s ⟨32, [109, 101, 116, 97, 100, 97, 116, 97]⟩ f.name p) ∧ f.minfo.type = 0 ∧
    ∃ es x, Payload f es ∧ FirstOf 7 es x ∧ NameIs x n

/-- The convention used in encoding is accepted in decoding. -/
def Coherent (s : Settings) : Prop := if s.encodeMarker then s.decodeMarker = true else s.decodeTyped = true

/-- Validity periods a program can hold: made from representable instants, or decoded. -/
def VOk (other : Bytes → Parsed) (v : Validity) : Prop :=
  match v.wire with
  | none => Representable v.notBefore ∧ Representable v.notAfter
  | some w => ∃ b, fromBuffer w = some (b, []) ∧ Validity.default.wireDecode other b = (.ok, v)

/-- Signing changes nothing but the signature, whether it succeeds or not. -/
def Signs (sign : Sign) : Prop :=
  ∀ f, (sign f).2.name = f.name ∧ (sign f).2.minfo = f.minfo ∧ (sign f).2.content = f.content

/-- Arguments a program may give. -/
def PaProper (other : Bytes → Parsed) : PaOp → Prop
  | .setName _ => True
  | .setExp ms => ms < 2 ^ 63
  | .setValidity v => ∀ x, v = some x → VOk other x
  | .toData version sign => version < 2 ^ 64 ∧ Signs sign

/-- Announcements a program can hold. -/
inductive PaReach (s : Settings) (other : Bytes → Parsed) : PA → Prop
  | empty : PaReach s other PA.empty
  | ofData {f : DFields} {pa : PA} (h : paDecode s other f = .ok pa) : PaReach s other pa
  | step {pa : PA} {op : PaOp} : PaReach s other pa → PaProper other op → PaReach s other (pa.step s op).2

end Ndn.Object.Spec
