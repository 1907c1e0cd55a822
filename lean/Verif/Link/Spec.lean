import Verif.Link.Model
import Verif.Lp.Spec
/-
What packets look like between a Face and its forwarder.
-/
namespace Ndn.Link.Spec
open Tlv Block Block.Spec Packet Packet.Spec Lp Lp.Spec

/-- A field holding one number. -/
def numField (t : Nat) : Option Nat → Bytes
  | none => []
  | some n => nniTlv t n

/-- The header fields that are sent, in the order of their numbers: the Nack (800), the next hop (816,
Interests only), the cache policy (820, Data only), the congestion mark (832). -/
def headerOctets (n : NetPkt) : Bytes :=
  (match n.kind with
   | .nack r => tlvBytes 800 (nniTlv 801 r.toNat)
   | .interest => numField 816 n.tags.nextHop
   | .data => match n.tags.policy with
     | none => []
     | some c => tlvBytes 820 (nniTlv 821 c.toNat)) ++
  numField 832 n.tags.congestion

/-- The octets that are sent: the bare packet if there is no header, else an LpPacket (100) of the header
and the packet as its fragment (80). -/
def sentOctets (n : NetPkt) : Bytes :=
  if headerOctets n = [] then n.wire.wire
  else tlvBytes 100 (headerOctets n ++ tlvBytes 80 n.wire.wire)

/-- Packets a program can have: the Interest or Data is an element of the right type, the tags are
64-bit numbers, the reason and the policy are not negative. -/
structure Real (n : NetPkt) : Prop where
  wf : RawWF n.wire
  type : n.wire.type = if n.kind = .data then 6 else 5
  short : n.wire.wire.length < 2 ^ 62
  incoming : ∀ x, n.tags.incoming = some x → x < 2 ^ 64
  nextHop : ∀ x, n.tags.nextHop = some x → x < 2 ^ 64
  congestion : ∀ x, n.tags.congestion = some x → x < 2 ^ 64
  policy : ∀ x, n.tags.policy = some x → 0 ≤ x ∧ x < 2 ^ 31
  reason : ∀ r, n.kind = .nack r → 0 ≤ r ∧ r < 2 ^ 31

/-- A Data tagged with the empty cache policy. -/
def EmptyPolicy (n : NetPkt) : Prop := n.kind = .data ∧ n.tags.policy = some 0

/-- The number in the field of type `t` among the elements, if there is such a field. -/
def NumIn (es : List Raw) (t : Nat) : Option Nat → Prop
  | none => ∀ e ∈ es, e.type ≠ t
  | some n => ∃ e ∈ es, e.type = t ∧ Tlv.Spec.NniForm e.value n

/-- The reason in the Nack field among the elements: the first number in it; 0 if it is empty. -/
def NackIn (es : List Raw) (r : Int) : Prop :=
  ∃ e ∈ es, e.type = 800 ∧ ∃ xs, ReadsAs e.value xs ∧
    ((xs = [] ∧ r = 0) ∨ ∃ x tl, xs = x :: tl ∧ x.type = 801 ∧ ∃ m : Nat, Tlv.Spec.NniForm x.value m ∧ m < 2 ^ 31 ∧ r = m)

/-- A block says that a packet arrives with these local fields: the elements of the LpPacket, in order
and known or ignorable, contain the packet in the fragment; a Nack is an Interest with a Nack field; the
incoming face and the congestion mark are passed on, other fields are not. A bare packet has no fields. -/
def Says (b : Raw) (n : NetPkt) : Prop :=
  (n.wire.type = if n.kind = .data then 6 else 5) ∧
  n.tags.nextHop = none ∧ n.tags.policy = none ∧
  (((b.type = 5 ∨ b.type = 6) ∧ n.wire = b ∧ (∀ r, n.kind ≠ .nack r) ∧ n.tags = .none) ∨
   (b.type = 100 ∧ ∃ es, ReadsAs b.value es ∧ Fields es ∧
     (∃ e ∈ es, e.type = 80 ∧ e.value = n.wire.wire ∧ RawWF n.wire) ∧
     (match n.kind with
      | .nack r => NackIn es r
      | .interest => ∀ e ∈ es, e.type ≠ 800
      | .data => True) ∧
     NumIn es 812 n.tags.incoming ∧ NumIn es 832 n.tags.congestion))

end Ndn.Link.Spec
