import Verif.Packet.Model
import Verif.Block.Spec
import Verif.Name.Spec
/-
Independent specification of the packet formats (NDN Packet Format 0.3): grammars as relations
between an element's content and the fields.
-/
namespace Ndn.Packet.Spec
open Block Block.Spec Name Name.Spec

/-- A nested element as held by an object: its octets encode its type and value. -/
def RawWF (r : Raw) : Prop := TlvForm r.wire r.type r.value

/-- Values a `MetaInfo` can be given through its interface. -/
structure MetaWF (m : MetaInfo) : Prop where
  type : m.type < 2 ^ 32
  fresh : m.freshness < 2 ^ 64
  final : ∀ c, m.finalBlock = some c → ValidComp c
  app : ∀ b ∈ m.app, RawWF b ∧ b.type ≠ 24 ∧ b.type ≠ 25 ∧ b.type ≠ 26
  size : m.encode.length < 2 ^ 64

/-- Components that can be encoded. -/
def NameWF (n : List Comp) : Prop := ∀ c ∈ n, 1 ≤ c.type ∧ c.type ≤ 2 ^ 32 - 1

/-- Values of a KeyLocator that can be encoded. -/
def KeyLocWF : KeyLoc → Prop
  | .none => True
  | .name n => NameWF n
  | .digest b => RawWF b ∧ b.type = 29
  | .unknown _ => False

/-- An element that may follow in a SignatureInfo: not one of the recognised ones, not an empty
SignatureNonce, and not critical (ValidityPeriod excepted). -/
def OtherOk (b : Raw) : Prop :=
  b.type ≠ 27 ∧ b.type ≠ 28 ∧ (b.type = 38 → b.value ≠ []) ∧
    (b.type = 253 ∨ (b.type > 31 ∧ b.type % 2 = 0))

/-- Values a `SignatureInfo` can be given. -/
structure SigWF (s : SigInfo) : Prop where
  type : ∃ t, s.type = some t ∧ t < 2 ^ 16
  key : ∀ k, s.keyLocator = some k → KeyLocWF k
  others : ∀ b ∈ s.others, RawWF b ∧ OtherOk b
  size : ∀ t w, s.encode t = some w → w.length < 2 ^ 64

/-- Values a `Data` can be given; both signature elements present. -/
structure DataWF (f : DFields) : Prop where
  name : NameWF f.name
  minfo : MetaWF f.minfo
  content : ∀ c, f.content = some c → RawWF c ∧ c.type = 21
  sigInfo : SigWF f.sigInfo
  sigValue : ∃ v, f.sigValue = some v ∧ RawWF v ∧ v.type = 23
  size : ∀ w, f.encode = some w → w.length < 2 ^ 64

/-- Not a critical type: above 31 and even. -/
def Ignorable (b : Raw) : Prop := b.type > 31 ∧ b.type % 2 = 0

/-- The content of a MetaInfo: ContentType?, FreshnessPeriod?, FinalBlockId? in this order, then
anything (application elements). Each recognised element is taken if it is the next one. -/
def MetaGrammar (es : List Raw) (m : MetaInfo) : Prop :=
  ∃ (ct fp fb : Option Raw),
    es = ct.toList ++ fp.toList ++ fb.toList ++ m.app ∧
    (∀ e ∈ ct, e.type = 24 ∧ Tlv.readNniValueAs (2 ^ 32 - 1) e.value = some m.type) ∧
    (ct = none → m.type = 0 ∧ ∀ e ∈ es.head?, e.type ≠ 24) ∧
    (∀ e ∈ fp, e.type = 25 ∧ Tlv.readNniValueAs (2 ^ 64 - 1) e.value = some m.freshness) ∧
    (fp = none → m.freshness = 0 ∧ ∀ e ∈ (fb.toList ++ m.app).head?, e.type ≠ 25) ∧
    (∀ e ∈ fb, e.type = 26 ∧
      ∃ c : Comp, TlvForm e.value c.type c.value ∧ ValidComp c ∧ m.finalBlock = some c) ∧
    (fb = none → m.finalBlock = none ∧ ∀ e ∈ m.app.head?, e.type ≠ 26)

/-- The content of a SignatureInfo: a SignatureType, then possibly a KeyLocator; other permitted
elements anywhere. -/
def SigGrammar (es : List Raw) (s : SigInfo) : Prop :=
  ∃ (st : Raw) (kl : Option Raw) (t : Nat),
    es.filter (fun e => e.type = 27 ∨ e.type = 28) = st :: kl.toList ∧
    st.type = 27 ∧ Tlv.readNniValueAs 65535 st.value = some t ∧
    (∀ k ∈ kl, k.type = 28 ∧ ∃ l, KeyLoc.decode k = some l) ∧
    (∀ e ∈ es, e.type = 27 ∨ e.type = 28 ∨ OtherOk e) ∧
    s.type = some t ∧ s.keyLocator = kl.bind KeyLoc.decode ∧
    s.others = es.filter (fun e => e.type ≠ 27 ∧ e.type ≠ 28)

/-- The content of a Data packet: Name; then MetaInfo?, Content?, SignatureInfo, SignatureValue in
this order; unrecognised elements that are not critical may be anywhere after the name. -/
def DataGrammar (es : List Raw) (f : DFields) : Prop :=
  ∃ (n : Raw) (rest : List Raw) (mi ct : Option Raw) (si sv : Raw),
    es = n :: rest ∧ n.type = 7 ∧
    (∃ cs, ReadsAs n.value cs ∧ f.name = cs.map (fun r => (⟨r.type, r.value⟩ : Comp))) ∧
    (∀ e ∈ rest, e.type = 20 ∨ e.type = 21 ∨ e.type = 22 ∨ e.type = 23 ∨ Ignorable e) ∧
    rest.filter (fun e => e.type = 20 ∨ e.type = 21 ∨ e.type = 22 ∨ e.type = 23) =
      mi.toList ++ ct.toList ++ [si, sv] ∧
    (∀ e ∈ mi, e.type = 20) ∧ (∀ e ∈ ct, e.type = 21) ∧ si.type = 22 ∧ sv.type = 23 ∧
    (match mi with
      | none => f.minfo = MetaInfo.init
      | some e => ∃ ms, ReadsAs e.value ms ∧ MetaGrammar ms f.minfo) ∧
    f.content = ct ∧
    (∃ ss, ReadsAs si.value ss ∧ SigGrammar ss f.sigInfo) ∧
    f.sigValue = some sv

end Ndn.Packet.Spec
