import Verif.Lp.Model
import Verif.Packet.Spec
/-
Specification of NDNLPv2 packets.
-/
namespace Ndn.Lp.Spec
open Block Block.Spec Packet Packet.Spec

/-- The TLV types of the recognised fields. -/
def known : List Nat := [80, 81, 82, 83, 98, 800, 812, 816, 820, 832, 836, 840, 844, 848]

/-- Types of unknown fields that may be ignored. -/
def CanIgnore (t : Nat) : Prop := 800 ≤ t ∧ t ≤ 959 ∧ t % 4 = 0

/-- Header fields by increasing type, the fragment last; only Ack (836) may be repeated. -/
def Ordered (es : List Raw) : Prop :=
  es.Pairwise (fun a b => (a.type ≠ 80 ∧ (b.type = 80 ∨ a.type < b.type)) ∨ (a.type = 836 ∧ b.type = 836))

/-- Well-formed sequences of fields. -/
def Fields (es : List Raw) : Prop := (∀ e ∈ es, e.type ∈ known ∨ CanIgnore e.type) ∧ Ordered es

/-- Values a field can carry. -/
def ValOk (pa : Raw → Bool) : Fld → Val → Prop
  | .fragment, .octets b => b ≠ [] ∧ b.length < 2 ^ 64
  | .pitToken, .octets b => b ≠ [] ∧ b.length < 2 ^ 64
  | .sequence, .num n => n < 2 ^ 64
  | .ack, .num n => n < 2 ^ 64
  | .txSequence, .num n => n < 2 ^ 64
  | .fragIndex, .num n => n < 2 ^ 64
  | .fragCount, .num n => n < 2 ^ 64
  | .nextHopFaceId, .num n => n < 2 ^ 64
  | .incomingFaceId, .num n => n < 2 ^ 64
  | .congestionMark, .num n => n < 2 ^ 64
  | .nonDiscovery, .empty => True
  | .nack, .nack c => 0 ≤ c ∧ c < 2 ^ 31
  | .cachePolicy, .policy c => c = 1
  | .prefixAnn, .ann d => ∃ r, d = some r ∧ RawWF r ∧ r.type = 6 ∧ r.wire.length < 2 ^ 64 ∧ pa r = true
  | _, _ => False

/-- Which blocks are a field with which value. -/
def FieldForm (pa : Raw → Bool) (f : Fld) (b : Raw) (v : Val) : Prop :=
  b.type = f.type ∧
  match f with
  | .fragment | .pitToken => b.value ≠ [] ∧ v = .octets b.value
  | .sequence | .ack | .txSequence => ∃ n, n < 2 ^ 64 ∧ b.value = Tlv.beBytes 8 n ∧ v = .num n
  | .fragIndex | .fragCount | .nextHopFaceId | .incomingFaceId | .congestionMark =>
    ∃ n, Tlv.Spec.NniForm b.value n ∧ v = .num n
  | .nonDiscovery => b.value = [] ∧ v = .empty
  | .nack => ∃ es c, ReadsAs b.value es ∧ v = .nack c ∧ ((es = [] ∧ c = 0) ∨
      ∃ e tl, es = e :: tl ∧ e.type = 801 ∧ ∃ n : Nat, Tlv.Spec.NniForm e.value n ∧ n < 2 ^ 31 ∧ c = n)
  | .cachePolicy => v = .policy 1 ∧ ∃ e tl, ReadsAs b.value (e :: tl) ∧ e.type = 821 ∧ Tlv.Spec.NniForm e.value 1
  | .prefixAnn => ∃ pre d post, ReadsAs b.value (pre ++ d :: post) ∧ (∀ x ∈ pre, x.type ≠ 6) ∧ d.type = 6 ∧
      pa d = true ∧ v = .ann (some d)

/-- The abstract packet: the list of values of each field. -/
def MMap := Fld → List Val

/-- What a call does to the abstract packet; `none` is an exception. -/
def mmapStep (m : MMap) : POp → Option MMap
  | .add f v => if f ≠ .ack ∧ m f ≠ [] then none else some (fun g => if g = f then m f ++ [v] else m g)
  | .set f v => some (fun g => if g = f then [v] else m g)
  | .remove f i => if i < (m f).length then some (fun g => if g = f then (m f).eraseIdx i else m g) else none
  | .clear f => some (fun g => if g = f then [] else m g)
  | .encode => some m
  | .decode _ => none

/-- A run of calls on the abstract packet: what each call reports, and the packet at the end. A call
that throws changes nothing. -/
def mmapRun : MMap → List POp → List Bool × MMap
  | m, [] => ([], m)
  | m, op :: ops =>
    match mmapStep m op with
    | none => (false :: (mmapRun m ops).1, (mmapRun m ops).2)
    | some m' => (true :: (mmapRun m' ops).1, (mmapRun m' ops).2)

/-- The same run on the packet of the model. -/
def pktRun : Pkt → List POp → List Bool × Pkt
  | p, [] => ([], p)
  | p, op :: ops => ((p.step op).1 :: (pktRun (p.step op).2 ops).1, (pktRun (p.step op).2 ops).2)

/-- Calls with values the fields can carry. -/
def OpOk (pa : Raw → Bool) : POp → Prop
  | .add f v => ValOk pa f v
  | .set f v => ValOk pa f v
  | .decode _ => False
  | _ => True

/-- Arguments that exist: received blocks are TLVs, and the encoded field fits in the address space. -/
def OpReal : POp → Prop
  | .add f v => ∀ w, encodeField f v = some w → w.length < 2 ^ 64
  | .set f v => ∀ w, encodeField f v = some w → w.length < 2 ^ 64
  | .decode b => RawWF b ∧ b.wire.length < 2 ^ 63
  | _ => True

/-- Packets reachable by any calls, with any values, including calls that throw. -/
inductive Reach : Pkt → Prop where
  | init : Reach .init
  | step {p : Pkt} (op : POp) : Reach p → OpReal op → Reach (p.step op).2

end Ndn.Lp.Spec
