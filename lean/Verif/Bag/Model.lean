import Verif.Packet.Model
import Verif.Net.Model
/-
Models of `AdditionalDescription` (security/additional-description.{hpp,cpp}), `SafeBag` (security/safe-bag.{hpp,cpp}) and
the parts of `Certificate` (security/certificate.{hpp,cpp}) that go beyond `Data`.
-/
namespace Ndn.Bag
open Ndn.Tlv Ndn.Block Ndn.Name Ndn.Packet

/-! ### AdditionalDescription -/

/-- `std::map<std::string, std::string>` as the list of its elements in iteration order, which is the order of
`std::less<std::string>`. -/
abbrev Entries := List (Bytes × Bytes)

/-- `m_info[key] = value` and `insert_or_assign`. -/
def put (k v : Bytes) : Entries → Entries
  | [] => [(k, v)]
  | (k', v') :: l =>
    if Net.strLt k k' then (k, v) :: (k', v') :: l
    else if Net.strLt k' k then (k', v') :: put k v l
    else (k, v) :: l

/-- `m_info.find(key)`. -/
def look (k : Bytes) : Entries → Option Bytes
  | [] => none
  | (k', v') :: l => if k' = k then some v' else look k l

/-- The object: `m_info` and, when it has one, `m_wire`; additional-description.hpp 36-130. -/
structure Desc where
  wire : Option Raw := none
  info : Entries := []

/-- One entry, additional-description.cpp 88-93. -/
def entryBytes (e : Bytes × Bytes) : Bytes := tlvBytes 512 (tlvBytes 513 e.1 ++ tlvBytes 514 e.2)

/-- `wireEncode(encoder)`, additional-description.cpp 80-102: the entries are prepended from the last to the first. -/
def Desc.encode (d : Desc) : Raw := binaryBlock 258 ((d.info.map entryBytes).flatten)

/-- `wireEncode()`, additional-description.cpp 106-120. -/
def Desc.wireEncode (d : Desc) : Desc × Raw :=
  match d.wire with
  | some w => (d, w)
  | none => ({ d with wire := some d.encode }, d.encode)

/-- The loop of `wireDecode`, additional-description.cpp 133-154: whether it ran to the end, and `m_info`. -/
def descLoop : Entries → List Raw → Bool × Entries
  | m, [] => (true, m)
  | m, e :: es =>
    if e.type = 512 then
      match parseElements e.value with
      | some [k, v] => if k.type = 513 ∧ v.type = 514 then descLoop (put k.value v.value m) es else (false, m)
      | _ => (false, m)
    else if isCriticalType e.type then (false, m)
    else descLoop m es

/-- `wireDecode`, additional-description.cpp 122-155. -/
def Desc.wireDecode (d : Desc) (b : Raw) : Bool × Desc :=
  if b.type ≠ 258 then (false, d)
  else match parseElements b.value with
    | none => (false, { d with wire := some b })
    | some es => ((descLoop [] es).1, ⟨some b, (descLoop [] es).2⟩)

/-- The calls that change the object. Assigning a value through an iterator is `set` of a key that exists. -/
inductive DescOp where
  | set (k v : Bytes)
  | encode
  | decode (b : Raw)

/-- One call: whether it returned normally, and the object. `set`: additional-description.cpp 47-51. -/
def Desc.step (d : Desc) : DescOp → Bool × Desc
  | .set k v => (true, { d with info := put k v d.info })
  | .encode => (true, d.wireEncode.1)
  | .decode b => d.wireDecode b

/-- A sequence of calls on a new object, none of which throws; `none` if one does. -/
def Desc.run : Desc → List DescOp → Option Desc
  | d, [] => some d
  | d, op :: ops => if (d.step op).1 then (d.step op).2.run ops else none

/-! ### SafeBag -/

/-- `SafeBag`, safe-bag.hpp 37-104: the certificate as a `Data` object and the encrypted key. `m_wire` is never read. -/
structure SBag where
  cert : DObj
  key : Bytes

/-- `SafeBag()` and `SafeBag(certificate, encryptedKey)`, safe-bag.cpp 30, 37-41. -/
def SBag.init : SBag := ⟨DObj.init [], []⟩
def SBag.make (cert : DObj) (key : Bytes) : SBag := ⟨cert, key⟩

/-- `wireEncode()`, safe-bag.cpp 43-74: the certificate is encoded from its members by `Data::wireEncode(encoder)`, which
does not look at the octets it was decoded from. `none`: an exception. -/
def SBag.wireEncode (s : SBag) : Option Raw :=
  match s.cert.f.encode with
  | none => none
  | some w => some (binaryBlock 128 (w ++ tlvBytes 129 s.key))

/-- `wireDecode`, safe-bag.cpp 76-108: whether it returned normally, and the object. -/
def SBag.wireDecode (s : SBag) (b : Raw) : Bool × SBag :=
  if b.type ≠ 128 then (false, s)
  else match parseElements b.value with
    | none => (false, s)
    | some [] => (false, s)
    | some (c :: es) =>
      let r := s.cert.wireDecode c
      let s := { s with cert := r.2 }
      if r.1 then
        match es with
        | [] => (false, s)
        | k :: rest =>
          if k.type = 129 then
            let s := { s with key := k.value }
            (rest.isEmpty, s)
          else (false, s)
      else (false, s)

/-! ### Certificate -/

/-- The component `KEY`, certificate.hpp 147. -/
def keyComp : Comp := ⟨8, [75, 69, 89]⟩

/-- `isValidName`, certificate.cpp 111-117: at least four components, `KEY` as the fourth from the end (certificate.hpp
143-148). -/
def isValidName (n : List Comp) : Bool := decide (4 ≤ n.length) && (n[n.length - 4]? == some keyComp)

/-- `Certificate()`, certificate.cpp 35-39. -/
def emptyCert : DObj := ⟨{ (DObj.init []).f with minfo := { MetaInfo.init with type := 2, freshness := 3600000 } }, none, []⟩

/-- `Certificate(data)`, certificate.cpp 41-58; `none`: an exception. -/
def certOf (d : DObj) : Option DObj :=
  if !isValidName d.f.name then none
  else if d.f.minfo.type ≠ 2 then none
  else if d.f.minfo.getFreshness ≤ 0 then none
  else some d

/-- `Certificate(block)`, certificate.cpp 60-63. -/
def certOfBlock (b : Raw) : Option DObj :=
  match (DObj.init []).wireDecode b with
  | (true, d) => certOf d
  | (false, _) => none

/-- `getIdentity`, `getKeyName`, `getKeyId` and `getIssuerId`, certificate.cpp 65-87, of a name with at least four
components: negative offsets count from the end. -/
def identityOf (n : List Comp) : List Comp := n.take (n.length - 4)
def keyNameOf (n : List Comp) : List Comp := n.take (n.length - 2)
def keyIdOf (n : List Comp) : Option Comp := n[n.length - 3]?
def issuerIdOf (n : List Comp) : Option Comp := n[n.length - 2]?

/-- `getExtension`, certificate.cpp 98-105; `none`: an exception. -/
def extensionOf (d : DObj) (t : Nat) : Option Raw := findOther t d.f.sigInfo.others

/-- `extractIdentityFromCertName` and `extractKeyNameFromCertName`, certificate.cpp 182-206; `none`: an exception. -/
def extractIdentity (n : List Comp) : Option (List Comp) := if isValidName n then some (identityOf n) else none
def extractKeyName (n : List Comp) : Option (List Comp) := if isValidName n then some (keyNameOf n) else none

end Ndn.Bag
