import Verif.Name.Model
/-
Model of MetaInfo, KeyLocator, SignatureInfo and Data:
ndn-cxx/meta-info.{hpp,cpp}, ndn-cxx/key-locator.{hpp,cpp}, ndn-cxx/signature-info.{hpp,cpp},
ndn-cxx/data.{hpp,cpp}, with the helpers of ndn-cxx/encoding/block-helpers.{hpp,cpp}.

A nested `Block` is a `Block.Raw`: `wire` is what `prependBlock` emits for it. Encoders prepend
element by element in reverse order; the model writes the elements in forward order (that prepending
builds the same octets is `C04`). Sizes do not overflow `size_t`. Every block handed to a decoder has
not been parsed before (see finding on `Block::parse` in DESIGN.md).
Decoders return whether they succeeded together with the state of the object, which is observable
after an exception too.
-/
namespace Ndn.Packet
open Tlv Block Name

/-- `prependBinaryBlock`/`makeBinaryBlock`, encoding/block-helpers.cpp 139-166, and the generic
"prepend LENGTH, prepend TYPE". -/
def tlvBytes (type : Nat) (value : Bytes) : Bytes :=
  writeVarNumber type ++ writeVarNumber value.length ++ value

/-- `prependNonNegativeIntegerBlock`, encoding/block-helpers.cpp 60-69. -/
def nniTlv (type n : Nat) : Bytes := tlvBytes type (writeNonNegativeInteger n)

/-- A freshly made binary block. -/
def binaryBlock (type : Nat) (value : Bytes) : Raw := ⟨type, tlvBytes type value, value⟩

/-! ### MetaInfo -/

/-- Members of `MetaInfo` other than `m_wire`, meta-info.hpp 200-204. -/
structure MetaInfo where
  type : Nat
  freshness : Nat
  finalBlock : Option Comp
  app : List Raw
  deriving DecidableEq, Repr, Inhabited

/-- `MetaInfo()`. -/
def MetaInfo.init : MetaInfo := ⟨0, 0, none, []⟩

/-- `MetaInfo::wireEncode(encoder)`, meta-info.cpp 123-159. -/
def MetaInfo.encode (m : MetaInfo) : Bytes :=
  tlvBytes 20
    ((if m.type ≠ 0 then nniTlv 24 m.type else []) ++
     (if m.freshness ≠ 0 then nniTlv 25 m.freshness else []) ++
     (match m.finalBlock with | some c => tlvBytes 26 c.encode | none => []) ++
     (m.app.map Raw.wire).flatten)

/-- An optional leading element of TLV-TYPE `t` holding a NonNegativeInteger not above `maxv`:
the pattern of meta-info.cpp 195-211; `none` is an exception. -/
def takeNni (t maxv : Nat) : List Raw → Option (Option Nat × List Raw)
  | [] => some (none, [])
  | e :: es =>
    if e.type = t then
      match readNniValueAs maxv e.value with
      | none => none
      | some n => some (some n, es)
    else some (none, e :: es)

/-- `MetaInfo::wireDecode`, meta-info.cpp 181-226: outcome and members afterwards. The outer
TLV-TYPE is not checked and `m_appMetaInfo` is not cleared. -/
def MetaInfo.wireDecode (m : MetaInfo) (b : Raw) : Bool × MetaInfo :=
  match parseElements b.value with
  | none => (false, m)
  | some es =>
    match takeNni 24 (2 ^ 32 - 1) es with
    | none => (false, m)
    | some (ct, es1) =>
      match takeNni 25 (2 ^ 64 - 1) es1 with
      | none => (false, { m with type := ct.getD 0 })
      | some (fp, es2) =>
        let m := { m with type := ct.getD 0, freshness := fp.getD 0 }
        match es2 with
        | [] => (true, { m with finalBlock := none })
        | e :: es3 =>
          if e.type = 26 then
            match blockFromValue e.value with
            | none => (false, m)
            | some r =>
              match mkComp r.type r.value with
              | none => (false, { m with finalBlock := none })
              | some c => (true, { m with finalBlock := some c, app := m.app ++ es3 })
          else (true, { m with finalBlock := none, app := m.app ++ e :: es3 })

/-- `getFreshnessPeriod`, meta-info.cpp 46-52: clamped to the largest `milliseconds`. -/
def MetaInfo.getFreshness (m : MetaInfo) : Nat :=
  if m.freshness > 2 ^ 63 - 1 then 2 ^ 63 - 1 else m.freshness

/-- A `MetaInfo` object with its cached encoding. -/
structure MObj where
  wire : Option Bytes
  m : MetaInfo
  deriving DecidableEq, Repr

/-- Calls on a `MetaInfo`, meta-info.cpp 37-121 and 163-226. -/
inductive MOp where
  | setType (t : Nat)
  | setFreshness (ms : Int)
  | setFinalBlock (c : Option Comp)
  | setApp (l : List Raw)
  | addApp (b : Raw)
  | removeApp (t : Nat)
  | wireEncode
  | wireDecode (b : Raw)

/-- `MetaInfo::wireEncode()`, meta-info.cpp 163-178. -/
def MObj.wireEncode (o : MObj) : MObj × Bytes :=
  match o.wire with
  | some w => (o, w)
  | none => (⟨some o.m.encode, o.m⟩, o.m.encode)

/-- `removeAppMetaInfo`, meta-info.cpp 103-114: the first element of the type. -/
def removeFirst (t : Nat) : List Raw → Option (List Raw)
  | [] => none
  | b :: l => if b.type = t then some l else (removeFirst t l).map (b :: ·)

/-- One call: whether it returned normally, and the object. -/
def MObj.step (o : MObj) : MOp → Bool × MObj
  | .setType t => (true, ⟨none, { o.m with type := t }⟩)
  | .setFreshness ms => if ms < 0 then (false, o) else (true, ⟨none, { o.m with freshness := ms.toNat }⟩)
  | .setFinalBlock c => (true, ⟨none, { o.m with finalBlock := c }⟩)
  | .setApp l =>
    if l.any (fun b => b.type < 128 || b.type > 252) then (false, o)
    else (true, ⟨none, { o.m with app := l }⟩)
  | .addApp b =>
    if 128 ≤ b.type ∧ b.type ≤ 252 then (true, ⟨none, { o.m with app := o.m.app ++ [b] }⟩) else (false, o)
  | .removeApp t =>
    match removeFirst t o.m.app with
    | none => (true, o)
    | some l => (true, ⟨none, { o.m with app := l }⟩)
  | .wireEncode => (true, o.wireEncode.1)
  | .wireDecode b => let r := o.m.wireDecode b; (r.1, ⟨some b.wire, r.2⟩)

/-! ### KeyLocator -/

/-- `m_locator`, key-locator.hpp. -/
inductive KeyLoc where
  | none
  | name (n : List Comp)
  | digest (b : Raw)
  | unknown (type : Nat)
  deriving DecidableEq, Repr, Inhabited

/-- `KeyLocator::wireEncode(encoder)`, key-locator.cpp 46-65; `none` is an exception. -/
def KeyLoc.encode : KeyLoc → Option Bytes
  | .none => some (tlvBytes 28 [])
  | .name n => some (tlvBytes 28 (encodeComps n))
  | .digest b => some (tlvBytes 28 b.wire)
  | .unknown _ => Option.none

/-- The components of a parsed name. -/
def rawComps (es : List Raw) : List Comp := es.map (fun r => ⟨r.type, r.value⟩)

/-- `Name(block)` as a value, name.cpp 124-132; `none` is an exception. -/
def nameOf (b : Raw) : Option (List Comp) :=
  if b.type ≠ 7 then none else (parseElements b.value).map rawComps

/-- `KeyLocator(block)`, key-locator.cpp 86-112; `none` is an exception. Elements after the first
are not looked at. -/
def KeyLoc.decode (b : Raw) : Option KeyLoc :=
  if b.type ≠ 28 then Option.none
  else match parseElements b.value with
    | Option.none => Option.none
    | some [] => some .none
    | some (e :: _) =>
      if e.type = 7 then (nameOf e).map .name
      else if e.type = 29 then some (.digest e)
      else some (.unknown e.type)

/-- `KeyLocator::getType`, key-locator.cpp 111-126. -/
def KeyLoc.getType : KeyLoc → Nat
  | .none => 0
  | .name _ => 7
  | .digest _ => 29
  | .unknown t => t

/-! ### SignatureInfo -/

/-- Members of `SignatureInfo` other than `m_wire`; `type = none` is `m_type == -1`. -/
structure SigInfo where
  type : Option Nat
  keyLocator : Option KeyLoc
  others : List Raw
  deriving DecidableEq, Repr, Inhabited

def SigInfo.init : SigInfo := ⟨none, none, []⟩

/-- `SignatureInfo::wireEncode(encoder, type)`, signature-info.cpp 45-85; `none` is an exception. -/
def SigInfo.encode (s : SigInfo) (tlvType : Nat) : Option Bytes :=
  match s.type with
  | none => none
  | some t =>
    match (match s.keyLocator with | none => some [] | some k => k.encode) with
    | none => none
    | some kl => some (tlvBytes tlvType (nniTlv 27 t ++ kl ++ (s.others.map Raw.wire).flatten))

/-- The loop of `SignatureInfo::wireDecode`, signature-info.cpp 109-170. -/
def sigLoop : SigInfo → Nat → List Raw → Bool × SigInfo
  | s, _, [] => (true, s)
  | s, last, e :: es =>
    if e.type = 27 then
      if last > 0 then (false, s)
      else match readNniValueAs 65535 e.value with
        | none => (false, s)
        | some t => sigLoop { s with type := some t } 1 es
    else if e.type = 28 then
      if last > 1 then (false, s)
      else match KeyLoc.decode e with
        | none => (false, { s with keyLocator := none })
        | some k => sigLoop { s with keyLocator := some k } 2 es
    else if e.type = 38 then
      if e.value.length < 1 then (false, s)
      else sigLoop { s with others := s.others ++ [e] } last es
    else if e.type = 253 then sigLoop { s with others := s.others ++ [e] } last es
    else if isCriticalType e.type then (false, s)
    else sigLoop { s with others := s.others ++ [e] } last es

/-- `SignatureInfo::wireDecode(wire, type)`, signature-info.cpp 109-170. The previous members are
discarded first. -/
def SigInfo.wireDecode (b : Raw) (tlvType : Nat) : Bool × SigInfo :=
  match parseElements b.value with
  | none => (false, SigInfo.init)
  | some es =>
    if b.type ≠ tlvType then (false, SigInfo.init)
    else
      let r := sigLoop SigInfo.init 0 es
      if r.1 then (r.2.type.isSome, r.2) else r

/-- A `SignatureInfo` object: the cached block and the members. -/
structure SObj where
  wire : Option Raw
  s : SigInfo
  deriving DecidableEq, Repr

/-- `findOtherTlv`/`getCustomTlv`, signature-info.cpp 290-298, 337-343. -/
def findOther (t : Nat) (l : List Raw) : Option Raw := l.find? (fun b => b.type = t)

/-- The replacement in `addCustomTlv`, signature-info.cpp 300-314: first element of the type. -/
def replaceFirst (b : Raw) : List Raw → List Raw
  | [] => []
  | x :: l => if x.type = b.type then b :: l else x :: replaceFirst b l

/-- `addCustomTlv`, signature-info.cpp 300-314. -/
def SObj.addCustom (o : SObj) (b : Raw) : SObj :=
  match findOther b.type o.s.others with
  | none => ⟨none, { o.s with others := o.s.others ++ [b] }⟩
  | some x => if x.equals b then o else ⟨none, { o.s with others := replaceFirst b o.s.others }⟩

/-- `removeCustomTlv`, signature-info.cpp 316-327. -/
def SObj.removeCustom (o : SObj) (t : Nat) : SObj :=
  if (o.s.others.filter (fun b => b.type ≠ t)).length ≠ o.s.others.length then
    ⟨none, { o.s with others := o.s.others.filter (fun b => b.type ≠ t) }⟩
  else o

/-- `operator==` of optional KeyLocators compares `m_locator`; blocks compare by type and value,
names by components. -/
def KeyLoc.eq : KeyLoc → KeyLoc → Bool
  | .none, .none => true
  | .name a, .name b => a = b
  | .digest a, .digest b => a.equals b
  | .unknown a, .unknown b => a = b
  | _, _ => false

/-- Calls on a `SignatureInfo`. `setNonce`, `setTime`, `setSeqNum`, `setValidityPeriod` are
`addCustomTlv`/`removeCustomTlv` of a fresh block, signature-info.cpp 210-299. -/
inductive SOp where
  | setType (t : Nat)
  | setKeyLocator (k : Option KeyLoc)
  | addCustom (b : Raw)
  | removeCustom (t : Nat)
  | wireEncode (tlvType : Nat)
  | wireDecode (b : Raw) (tlvType : Nat)

/-- `SignatureInfo::wireEncode(type)`, signature-info.cpp 93-107: the cached block is returned
whatever its TLV-TYPE. `none` is an exception. -/
def SObj.wireEncode (o : SObj) (tlvType : Nat) : Option (SObj × Raw) :=
  match o.wire with
  | some w => some (o, w)
  | none =>
    match o.s.encode tlvType with
    | none => none
    | some w =>
      match fromRange w true with
      | none => none
      | some r => some (⟨some r, o.s⟩, r)

/-- Comparison in `setKeyLocator`, signature-info.cpp 191-199. -/
def optKeyLocEq : Option KeyLoc → Option KeyLoc → Bool
  | none, none => true
  | some a, some b => a.eq b
  | _, _ => false

def SObj.step (o : SObj) : SOp → Bool × SObj
  | .setType t => if some t ≠ o.s.type then (true, ⟨none, { o.s with type := some t }⟩) else (true, o)
  | .setKeyLocator k =>
    if optKeyLocEq k o.s.keyLocator then (true, o) else (true, ⟨none, { o.s with keyLocator := k }⟩)
  | .addCustom b => (true, o.addCustom b)
  | .removeCustom t => (true, o.removeCustom t)
  | .wireEncode t =>
    match o.wireEncode t with
    | none => (false, o)
    | some (o', _) => (true, o')
  | .wireDecode b t => let r := SigInfo.wireDecode b t; (r.1, ⟨some b, r.2⟩)

/-! ### Data -/

/-- Members of `Data` other than `m_wire` and `m_fullName`. -/
structure DFields where
  name : List Comp
  minfo : MetaInfo
  content : Option Raw
  sigInfo : SigInfo
  sigValue : Option Raw
  deriving DecidableEq, Repr, Inhabited

/-- A `Data` object; `full = []` means that the full name has not been computed. -/
structure DObj where
  f : DFields
  wire : Option Bytes
  full : List Comp
  deriving DecidableEq, Repr

/-- `Data(name)`, data.cpp 27-30. -/
def DObj.init (name : List Comp) : DObj :=
  ⟨⟨name, MetaInfo.init, none, SigInfo.init, none⟩, none, []⟩

/-- `Data::wireEncode(encoder, wantUnsignedPortionOnly = true)`, data.cpp 37-79; `none` is an
exception. -/
def DFields.encodeUnsigned (f : DFields) : Option Bytes :=
  match f.sigInfo.encode 22 with
  | none => none
  | some si =>
    some (encodeComps f.name ++ f.minfo.encode ++
      (match f.content with | some c => c.wire | none => []) ++ si)

/-- `Data::wireEncode(encoder)`, data.cpp 37-79. An absent signature value (invalid `Block`) is
emitted as type 0, length 0. -/
def DFields.encode (f : DFields) : Option Bytes :=
  if f.sigInfo.type = none then none
  else match f.encodeUnsigned with
    | none => none
    | some u => some (tlvBytes 6 (u ++ (match f.sigValue with | some v => v.wire | none => tlvBytes 0 [])))

/-- The loop of `Data::wireDecode`, data.cpp 145-190. -/
def dataLoop : DFields → Nat → List Raw → Bool × DFields
  | f, _, [] => (true, f)
  | f, last, e :: es =>
    if e.type = 20 then
      if last ≥ 2 then (false, f)
      else
        let r := f.minfo.wireDecode e
        if r.1 then dataLoop { f with minfo := r.2 } 2 es else (false, { f with minfo := r.2 })
    else if e.type = 21 then
      if last ≥ 3 then (false, f) else dataLoop { f with content := some e } 3 es
    else if e.type = 22 then
      if last ≥ 4 then (false, f)
      else
        let r := SigInfo.wireDecode e 22
        if r.1 then dataLoop { f with sigInfo := r.2 } 4 es else (false, { f with sigInfo := r.2 })
    else if e.type = 23 then
      if last ≥ 5 then (false, f) else dataLoop { f with sigValue := some e } 5 es
    else if isCriticalType e.type then (false, f)
    else dataLoop f last es

/-- `Data::wireDecode`, data.cpp 117-197. -/
def DObj.wireDecode (d : DObj) (b : Raw) : Bool × DObj :=
  if b.type ≠ 6 then (false, d)
  else
    let d := { d with wire := some b.wire }
    match parseElements b.value with
    | none => (false, d)
    | some [] => (false, d)
    | some (n :: es) =>
      if n.type ≠ 7 then (false, d)
      else
        let r := Block.parse n.value []
        let d := { d with f := { d.f with name := rawComps r.2 } }
        if r.1 = .threw then (false, d)
        else
          let q := dataLoop ⟨d.f.name, MetaInfo.init, none, SigInfo.init, none⟩ 1 es
          let d := { d with f := q.2, full := [] }
          if q.1 then (q.2.sigInfo.type.isSome && q.2.sigValue.isSome, d) else (false, d)

/-- Decoding into a new object: the members, or an exception. -/
def dataDecode (b : Raw) : Option DFields :=
  match (DObj.init []).wireDecode b with
  | (true, d) => some d.f
  | (false, _) => none

/-- `Data::wireEncode()`, data.cpp 101-115: the result is `none` on an exception. When decoding the
new encoding throws, the object is left as `wireDecode` leaves it. -/
def DObj.wireEncode (d : DObj) : DObj × Option Bytes :=
  match d.wire with
  | some w => (d, some w)
  | none =>
    match d.f.encode with
    | none => (d, none)
    | some w =>
      match fromRange w true with
      | none => (d, none)
      | some b =>
        let r := d.wireDecode b
        (r.2, if r.1 then some w else none)

/-- `Data::wireEncode(encoder, signature)`, data.cpp 87-99: the unsigned portion `u` (already in the
encoder) and the signature give the packet, which is decoded. -/
def DObj.finish (d : DObj) (u sig : Bytes) : DObj × Option Bytes :=
  let w := tlvBytes 6 (u ++ tlvBytes 23 sig)
  match fromRange w true with
  | none => (d, none)
  | some b =>
    let r := d.wireDecode b
    (r.2, if r.1 then some w else none)

/-- `Data::getFullName`, data.cpp 199-211, for a digest function `H`; `none` is an exception. -/
def DObj.getFullName (H : Bytes → Bytes) (d : DObj) : DObj × Option (List Comp) :=
  if d.full = [] then
    match d.wire with
    | none => (d, none)
    | some w =>
      let full := d.f.name ++ [⟨1, H w⟩]
      ({ d with full := full }, some full)
  else (d, some d.full)

/-- `Data::resetWire`, data.cpp 213-218, after replacing the members. -/
def DObj.reset (f : DFields) : DObj := ⟨f, none, []⟩

/-- Calls on a `Data`. The overloads of `setContent` and `setSignatureValue` taking octets make a
fresh block; the one taking a block passes a block of type Content or wraps it (data.cpp 239-257). -/
inductive DOp where
  | setName (n : List Comp)
  | setMetaInfo (m : MetaInfo)
  | setContent (value : Bytes)
  | setContentBlock (b : Raw)
  | unsetContent
  | setSignatureInfo (s : SigInfo)
  | setSignatureValue (value : Bytes)
  | setContentType (t : Nat)
  | setFreshness (ms : Int)
  | setFinalBlock (c : Option Comp)
  | wireEncode
  | getFullName
  | wireDecode (b : Raw)

/-- One call: whether it returned normally, and the object; data.cpp 220-364. -/
def DObj.step (H : Bytes → Bytes) (d : DObj) : DOp → Bool × DObj
  | .setName n => if n ≠ d.f.name then (true, .reset { d.f with name := n }) else (true, d)
  | .setMetaInfo m => (true, .reset { d.f with minfo := m })
  | .setContent v => (true, .reset { d.f with content := some (binaryBlock 21 v) })
  | .setContentBlock b =>
    (true, .reset { d.f with content := some (if b.type = 21 then b else binaryBlock 21 b.wire) })
  | .unsetContent => if d.f.content.isSome then (true, .reset { d.f with content := none }) else (true, d)
  | .setSignatureInfo s => (true, .reset { d.f with sigInfo := s })
  | .setSignatureValue v => (true, .reset { d.f with sigValue := some (binaryBlock 23 v) })
  | .setContentType t =>
    if t ≠ d.f.minfo.type then (true, .reset { d.f with minfo := { d.f.minfo with type := t } }) else (true, d)
  | .setFreshness ms =>
    if ms ≠ d.f.minfo.getFreshness then
      if ms < 0 then (false, d)
      else (true, .reset { d.f with minfo := { d.f.minfo with freshness := ms.toNat } })
    else (true, d)
  | .setFinalBlock c =>
    if c ≠ d.f.minfo.finalBlock then (true, .reset { d.f with minfo := { d.f.minfo with finalBlock := c } })
    else (true, d)
  | .wireEncode => let r := d.wireEncode; (r.2.isSome, r.1)
  | .getFullName => let r := d.getFullName H; (r.2.isSome, r.1)
  | .wireDecode b => d.wireDecode b

/-- `Data::extractSignedRanges`, data.cpp 322-334, on the elements of `m_wire`: from the start of the
value to the end of the element before the first SignatureValue. `none`: there is no element before
it (undefined; excluded because the first element is the Name). -/
def signedRange (es : List Raw) : Option Bytes :=
  let pre := es.takeWhile (fun e => e.type ≠ 23)
  if pre = [] then none else some ((pre.map Raw.wire).flatten)

end Ndn.Packet
