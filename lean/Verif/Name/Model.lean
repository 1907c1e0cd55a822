import Verif.Block.Model
import Verif.Hex.Model
/-
Model of ndn::name::Component and ndn::Name:
ndn-cxx/name-component.{hpp,cpp}, ndn-cxx/impl/name-component-types.hpp, ndn-cxx/name.{hpp,cpp}.
-/
namespace Ndn.Name
open Tlv

/-- A component's TLV-TYPE and TLV-VALUE. -/
structure Comp where
  type : Nat
  value : Bytes
  deriving DecidableEq, Repr, Inhabited

/-- A `Component` object (a `Block`): `wire` is the underlying encoding if `hasWire()`. -/
structure WComp where
  wire : Option Bytes
  comp : Comp
  deriving DecidableEq, Repr, Inhabited

/-- `Component::wireEncode(encoder)`, name-component.cpp 466-480: always from type and value. -/
def Comp.encode (c : Comp) : Bytes :=
  writeVarNumber c.type ++ writeVarNumber c.value.length ++ c.value

/-! ### Comparison -/

/-- Sign of `std::memcmp(a, b, n)` where `n` is the smaller of the sizes. -/
def memcmp : Bytes → Bytes → Int
  | a :: as, b :: bs => if a.toNat < b.toNat then -1 else if b.toNat < a.toNat then 1 else memcmp as bs
  | _, _ => 0

/-- Conversion of a difference of unsigned 64-bit numbers to `int`: modulo 2^32, signed. -/
def toInt (x : Int) : Int := Int.bmod x (2 ^ 32)

/-- `Component::compare`, name-component.cpp 428-451. If the sizes differ by a multiple of 2^32 the
code calls `memcmp` with a size beyond one of the values (the model stops at the shorter); theorems
assume sizes below 2^31. -/
def WComp.compare (a b : WComp) : Int :=
  match a.wire, b.wire with
  | some w, some w' => memcmp w w'
  | _, _ =>
    let cmpType := toInt ((a.comp.type : Int) - b.comp.type)
    if cmpType ≠ 0 then cmpType
    else
      let cmpSize := toInt ((a.comp.value.length : Int) - b.comp.value.length)
      if cmpSize ≠ 0 then cmpSize
      else if a.comp.value.length = 0 then 0
      else memcmp a.comp.value b.comp.value

/-- `Component::operator==` (block.cpp 482-490, block.hpp 497-504): type and value. -/
def WComp.eq (a b : WComp) : Bool := a.comp.type == b.comp.type && a.comp.value == b.comp.value

/-- Loop of `Name::compare`, name.cpp 309-316, over `count` components from `pos1`, `pos2`;
`none` when `get` is called with an index outside the name (undefined). -/
def compareLoop (a b : List WComp) : Nat → Nat → Nat → Nat → Option Int
  | 0, _, _, rest => some (rest : Int)
  | count + 1, i, j, rest =>
    match a[i]?, b[j]? with
    | some x, some y =>
      if x.compare y ≠ 0 then some (x.compare y) else compareLoop a b count (i + 1) (j + 1) rest
    | _, _ => none

/-- `Name::compare(pos1, count1, other, pos2, count2)`, name.cpp 304-319. -/
def compareSub (a : List WComp) (pos1 count1 : Nat) (b : List WComp) (pos2 count2 : Nat) :
    Option Int :=
  let count1 := min count1 ((a.length + 2 ^ 64 - pos1) % 2 ^ 64)
  let count2 := min count2 ((b.length + 2 ^ 64 - pos2) % 2 ^ 64)
  let count := min count1 count2
  match compareLoop a b count pos1 pos2 0 with
  | none => none
  | some r => if r ≠ 0 then some r else some (toInt ((count1 : Int) - count2))

/-- `Name::compare(other)`, name.hpp 633-637: the whole names (`npos` = 2^64-1). -/
def compare (a b : List WComp) : Option Int := compareSub a 0 (2 ^ 64 - 1) b 0 (2 ^ 64 - 1)

/-- `get(i) == other.get(i)` in the loops of name.cpp 281-285, 295-299. -/
def agreeAt (a b : List WComp) (i : Nat) : Bool :=
  match a[i]?, b[i]? with
  | some x, some y => x.eq y
  | _, _ => false

/-- `Name::isPrefixOf`, name.cpp 274-288. -/
def isPrefixOf (a b : List WComp) : Bool :=
  if a.length > b.length then false
  else (List.range a.length).all (agreeAt a b)

/-- `Name::equals`, name.cpp 290-302. -/
def equals (a b : List WComp) : Bool :=
  if a.length ≠ b.length then false
  else (List.range a.length).all (agreeAt a b)

/-! ### Validity and successor -/

/-- Which rules apply to a type: the table of impl/name-component-types.hpp 364-387. -/
inductive Kind where
  | base | generic | sha256 (pfx : Bytes) | decimal (pfx : Bytes)
  deriving DecidableEq, Repr

/-- URI prefixes, as bytes. -/
def pSha256digest : Bytes := [115, 104, 97, 50, 53, 54, 100, 105, 103, 101, 115, 116]
def pParamsSha256 : Bytes := [112, 97, 114, 97, 109, 115, 45, 115, 104, 97, 50, 53, 54]
def pSeg : Bytes := [115, 101, 103]
def pOff : Bytes := [111, 102, 102]
def pV : Bytes := [118]
def pT : Bytes := [116]
def pSeq : Bytes := [115, 101, 113]

/-- `ComponentTypeTable::get`, name-component-types.hpp 323-330, 364-387. -/
def kindOf (type : Nat) : Kind :=
  if type = 1 then .sha256 pSha256digest
  else if type = 2 then .sha256 pParamsSha256
  else if type = 8 then .generic
  else if type = 50 then .decimal pSeg
  else if type = 52 then .decimal pOff
  else if type = 54 then .decimal pV
  else if type = 56 then .decimal pT
  else if type = 58 then .decimal pSeq
  else .base

/-- `Component::ensureValid`, name-component.cpp 114-121, with `check` (name-component-types.hpp
49-52, 195-203): `true` if it does not throw. -/
def ensureValid (c : Comp) : Bool :=
  if c.type < 1 || c.type > 65535 then false
  else match kindOf c.type with
    | .sha256 _ => c.value.length = 32
    | _ => true

/-- The loop of `getSuccessorImpl`, name-component-types.hpp 127-134, on the reversed value. -/
def incRev : Bytes → Bool × Bytes
  | [] => (true, [])
  | b :: bs =>
    let newValue := UInt8.ofNat ((b.toNat + 1) % 256)
    if newValue = 0 then
      let r := incRev bs
      (r.1, newValue :: r.2)
    else (false, newValue :: bs)

/-- `getSuccessorImpl`, name-component-types.hpp 122-145: whether the length was extended, and the
new value. -/
def successorImpl (v : Bytes) : Bool × Bytes :=
  let r := incRev v.reverse
  (r.1, if r.1 then r.2.reverse ++ [0] else r.2.reverse)

/-- `getMinValue`, name-component-types.hpp 67-72, 212-217. -/
def minValue (type : Nat) : Bytes :=
  match kindOf type with
  | .sha256 _ => List.replicate 32 0
  | _ => []

/-- `Component::getSuccessor`, name-component.cpp 453-464, with the per-type `getSuccessor`
(name-component-types.hpp 60-64, 205-210). -/
def Comp.successor (c : Comp) : Comp :=
  let r := successorImpl c.value
  match kindOf c.type with
  | .sha256 _ => if r.1 then ⟨c.type + 1, minValue (c.type + 1)⟩ else ⟨c.type, r.2⟩
  | _ => ⟨c.type, r.2⟩

/-- `Name::getSuccessor`, name.cpp 263-272. -/
def successor (n : List Comp) : List Comp :=
  match n.getLast? with
  | none => [⟨1, List.replicate 32 0⟩]
  | some c => n.dropLast ++ [c.successor]

/-! ### URI -/

/-- Decimal printing (`std::to_string`, `operator<<` on an unsigned number); fuel bounds the number
of digits minus one. -/
def decFuel : Nat → Nat → Bytes
  | 0, n => [UInt8.ofNat (48 + n % 10)]
  | f + 1, n => if n < 10 then [UInt8.ofNat (48 + n)] else decFuel f (n / 10) ++ [UInt8.ofNat (48 + n % 10)]

def dec (n : Nat) : Bytes := decFuel n n

def isDigit (c : UInt8) : Bool := 48 ≤ c.toNat && c.toNat ≤ 57

/-- The number read by `std::strtoul`/`std::stoull` in base 10: the leading digits. White space and
a sign, which these functions also accept, are not represented: both callers compare the decimal
printing of the result with the input, which then fails (name-component.cpp 148-149,
name-component-types.hpp 289-291). -/
def leadNumber (s : Bytes) : Nat :=
  (s.takeWhile isDigit).foldl (fun acc c => acc * 10 + (c.toNat - 48)) 0

/-- `writeUriEscapedValue`, name-component-types.hpp 150-159. -/
def escapedValue (v : Bytes) : Bytes :=
  (if v.all (· = 46) then [46, 46, 46] else []) ++ Hex.escape v

/-- `ComponentType::writeUri`, name-component-types.hpp 107-112 (canonical format). -/
def Comp.uriCanonical (c : Comp) : Bytes := dec c.type ++ [61] ++ escapedValue c.value

/-- `isNumber`, name-component.cpp 209-214. -/
def isNumber (v : Bytes) : Bool :=
  v.length = 1 || v.length = 2 || v.length = 4 || v.length = 8

/-- Per-type `writeUri` (alternate format), name-component-types.hpp 171-175, 236-241, 294-303. -/
def Comp.uriAlternate (c : Comp) : Bytes :=
  match kindOf c.type with
  | .base => c.uriCanonical
  | .generic => escapedValue c.value
  | .sha256 p => p ++ [61] ++ Hex.hexEncode false c.value
  | .decimal p =>
    if isNumber c.value then p ++ [61] ++ dec (beNat c.value) else c.uriCanonical

/-- `Component::toUri`, name-component.cpp 189-198; the environment variable only selects which of
the two formats is used (160-187). -/
def Comp.toUri (alt : Bool) (c : Comp) : Bytes := if alt then c.uriAlternate else c.uriCanonical

/-- The validating constructors, name-component.cpp 85-107. -/
def mkComp (type : Nat) (value : Bytes) : Option Comp :=
  if ensureValid ⟨type, value⟩ then some ⟨type, value⟩ else none

/-- `parseUriEscapedValue`, name-component.cpp 123-136. The code drops the *last* three octets; they
are all periods. -/
def parseEscaped (type : Nat) (input : Bytes) : Option Comp :=
  let value := Hex.unescape input
  if value.all (· = 46) then
    if value.length < 3 then none else mkComp type (value.take (value.length - 3))
  else mkComp type value

/-- `Component::fromNumber`, name-component.cpp 346-350. -/
def fromNumber (n type : Nat) : Option Comp := mkComp type (writeNonNegativeInteger n)

/-- `parseAltUriValue` of a decimal type, name-component-types.hpp 275-292. -/
def parseDecimal (type : Nat) (input : Bytes) : Option Comp :=
  let n := leadNumber input
  if n < 2 ^ 64 ∧ dec n = input then fromNumber n type else none

/-- `parseAltUriValue` of a digest type, name-component-types.hpp 225-234. -/
def parseSha256 (type : Nat) (input : Bytes) : Option Comp :=
  match Hex.fromHex input with
  | none => none
  | some value => mkComp type value

/-- `findByUriPrefix` and `parseAltUriValue`, name-component.cpp 152-156. -/
def parseAlt (pfx input : Bytes) : Option Comp :=
  if pfx = pSha256digest then parseSha256 1 input
  else if pfx = pParamsSha256 then parseSha256 2 input
  else if pfx = pSeg then parseDecimal 50 input
  else if pfx = pOff then parseDecimal 52 input
  else if pfx = pV then parseDecimal 54 input
  else if pfx = pT then parseDecimal 56 input
  else if pfx = pSeq then parseDecimal 58 input
  else none

/-- `Component::fromUri`, name-component.cpp 138-158; `none` is an exception. -/
def compFromUri (input : Bytes) : Option Comp :=
  if 61 ∉ input then parseEscaped 8 input
  else
    let typePrefix := input.takeWhile (· ≠ 61)
    let rest := (input.dropWhile (· ≠ 61)).drop 1
    let type := leadNumber typePrefix
    if 1 ≤ type ∧ type ≤ 65535 ∧ dec type = typePrefix then parseEscaped type rest
    else parseAlt typePrefix rest

/-- Stripping of the scheme, name.cpp 51-58. -/
def stripScheme (uri : Bytes) : Bytes :=
  if 58 ∈ uri then
    if 47 ∉ uri ∨ (uri.takeWhile (· ≠ 58)).length < (uri.takeWhile (· ≠ 47)).length then
      uri.drop ((uri.takeWhile (· ≠ 58)).length + 1)
    else uri
  else uri

/-- Trimming of the leading slash and authority, name.cpp 61-76; `none` when there was only an
authority. -/
def stripAuthority (uri : Bytes) : Option Bytes :=
  match uri with
  | 47 :: 47 :: rest => if 47 ∈ rest then some ((rest.dropWhile (· ≠ 47)).drop 1) else none
  | 47 :: rest => some rest
  | _ => some uri

/-- The loop of the URI constructor, name.cpp 79-87; fuel bounds the iterations. -/
def uriLoop : Nat → Bytes → Option (List Comp)
  | 0, uri => if uri = [] then some [] else none
  | f + 1, uri =>
    if uri = [] then some []
    else
      let component := uri.takeWhile (· ≠ 47)
      match compFromUri component with
      | none => none
      | some c =>
        if component.length + 1 ≥ uri.length then some [c]
        else (uriLoop f (uri.drop (component.length + 1))).map (c :: ·)

/-- `Name(std::string_view)`, name.cpp 46-88; `none` is an exception. -/
def fromUri (uri : Bytes) : Option (List Comp) :=
  if uri = [] then some []
  else match stripAuthority (stripScheme uri) with
    | none => some []
    | some u => uriLoop u.length u

/-- `Name::toUri`, name.cpp 323-343. -/
def toUri (alt : Bool) (n : List Comp) : Bytes :=
  if n = [] then [47] else n.flatMap (fun c => 47 :: c.toUri alt)

/-! ### Naming conventions -/

/-- The five kinds of conventional components with their marker octet and typed TLV-TYPE,
encoding/tlv.hpp 99-103, name-component.hpp 34-60. -/
inductive Conv where
  | segment | byteOffset | version | timestamp | sequence
  deriving DecidableEq, Repr

def Conv.marker : Conv → UInt8
  | .segment => 0x00 | .byteOffset => 0xFB | .version => 0xFD | .timestamp => 0xFC | .sequence => 0xFE

def Conv.typ : Conv → Nat
  | .segment => 50 | .byteOffset => 52 | .version => 54 | .timestamp => 56 | .sequence => 58

/-- The global settings, name-component.cpp 37-81. -/
structure Settings where
  encodeMarker : Bool
  decodeMarker : Bool
  decodeTyped : Bool

/-- `fromSegment` … `fromSequenceNumber`, name-component.cpp 346-410. -/
def Conv.from (s : Settings) (k : Conv) (n : Nat) : Option Comp :=
  if s.encodeMarker then mkComp 8 (k.marker :: writeNonNegativeInteger n)
  else fromNumber n k.typ

/-- `isNumberWithMarker`, name-component.cpp 216-221. -/
def isNumberWithMarker (m : UInt8) (v : Bytes) : Bool :=
  (v.length = 2 || v.length = 3 || v.length = 5 || v.length = 9) && v.head? = some m

/-- `isSegment` … `isSequenceNumber`, name-component.cpp 223-256. -/
def Conv.is (s : Settings) (k : Conv) (c : Comp) : Bool :=
  (s.decodeMarker && c.type = 8 && isNumberWithMarker k.marker c.value) ||
  (s.decodeTyped && c.type = k.typ && isNumber c.value)

/-- `toSegment` … `toSequenceNumber`, name-component.cpp 260-342 (`none` is an exception);
`toTimestamp` yields the number of microseconds. -/
def Conv.to (s : Settings) (k : Conv) (c : Comp) : Option Nat :=
  if s.decodeMarker ∧ c.type = 8 then
    if isNumberWithMarker k.marker c.value then readNniValue (c.value.drop 1) else none
  else if s.decodeTyped ∧ c.type = k.typ then
    if isNumber c.value then readNniValue c.value else none
  else none

/-! ### Name objects: editing and wire cache -/

/-- A `Name`: `m_wire.hasWire()`'s octets and the components (`m_wire.elements()`). -/
structure Obj where
  wire : Option Bytes
  comps : List WComp
  deriving DecidableEq, Repr

/-- `Name()`, name.cpp 35-38. -/
def Obj.empty : Obj := ⟨none, []⟩

/-- The octets produced by `Name::wireEncode(encoder)`, name.cpp 90-101. -/
def encodeComps (cs : List Comp) : Bytes :=
  let v := cs.flatMap Comp.encode
  writeVarNumber 7 ++ writeVarNumber v.length ++ v

/-- `Name::wireEncode()`, name.cpp 105-122: after it `m_wire` is the new block, parsed: its elements
are the components with their encoding. -/
def Obj.wireEncode (o : Obj) : Obj × Bytes :=
  match o.wire with
  | some w => (o, w)
  | none =>
    let w := encodeComps (o.comps.map (·.comp))
    (⟨some w, o.comps.map (fun c => ⟨some c.comp.encode, c.comp⟩)⟩, w)

/-- `Name::wireDecode`, name.cpp 124-132; `none` is an exception. -/
def Obj.wireDecode (b : Block.Raw) : Option Obj :=
  if b.type ≠ 7 then none
  else match Block.parseElements b.value with
    | none => none
    | some es => some ⟨some b.wire, es.map (fun r => ⟨some r.wire, ⟨r.type, r.value⟩⟩)⟩

/-- `Name::append(component)` (all `append`/`appendX` overloads end there), name.hpp 307-323 with
`Block::push_back`. -/
def Obj.append (o : Obj) (c : WComp) : Obj := ⟨none, o.comps ++ [c]⟩

/-- `Name::append(name)`, name.cpp 216-228 (also when the argument is the name itself). -/
def Obj.appendName (o : Obj) (cs : List WComp) : Obj := cs.foldl Obj.append o

/-- `Name::set`, name.cpp 180-202; `none` when the index is outside the name (undefined). -/
def Obj.set (o : Obj) (i : Int) (c : WComp) : Option Obj :=
  let i := if i < 0 then i + o.comps.length else i
  if 0 ≤ i ∧ i < o.comps.length then some ⟨none, o.comps.set i.toNat c⟩ else none

/-- `Name::erase`, name.cpp 244-253; `none` when the index is outside the name (undefined). -/
def Obj.erase (o : Obj) (i : Int) : Option Obj :=
  let j := if i ≥ 0 then i else o.comps.length - (-i)
  if 0 ≤ j ∧ j < o.comps.length then some ⟨none, o.comps.eraseIdx j.toNat⟩ else none

/-- `Name::clear`, name.cpp 255-259. -/
def Obj.clear (_ : Obj) : Obj := ⟨none, []⟩

/-- `Name::deepCopy`, name.cpp 134-141. -/
def Obj.deepCopy (o : Obj) : Obj := (Obj.wireEncode ⟨none, o.comps⟩).1

/-- `hash<Name>`, name.cpp 359-363, for a hash function `H` over octets. -/
def Obj.hash {α} (H : Bytes → α) (o : Obj) : α := H o.wireEncode.2

/-- `Component::wireEncode()`, name-component.cpp 482-495. -/
def WComp.wireEncode (c : WComp) : Bytes :=
  match c.wire with
  | some w => w
  | none => c.comp.encode

/-! ### Sub-names -/

/-- `Name::at`, name.cpp 145-157; `none` is an exception. -/
def at' {α} (n : List α) (i : Int) : Option α :=
  if i < -(n.length : Int) ∨ i ≥ n.length then none
  else n[(if i < 0 then i + n.length else i).toNat]?

/-- `Name::getSubName`, name.cpp 159-176; `nComponents` is a `size_t` (`npos` = 2^64-1) and
`iStart + nComponents` wraps around. -/
def getSubName {α} (n : List α) (iStartComponent : Int) (nComponents : Nat) : List α :=
  let i := if iStartComponent < 0 then iStartComponent + n.length else iStartComponent
  let iStart := if i < 0 then 0 else i.toNat
  let iEnd := if nComponents ≠ 2 ^ 64 - 1 then min n.length ((iStart + nComponents) % 2 ^ 64)
    else n.length
  (n.take iEnd).drop iStart

/-- `Name::getPrefix`, name.hpp 240-247: a negative argument is added to `size()` as `size_t`. -/
def getPrefix {α} (n : List α) (nComponents : Int) : List α :=
  if nComponents < 0 then getSubName n 0 (((n.length : Int) + nComponents) % 2 ^ 64).toNat
  else getSubName n 0 nComponents.toNat

end Ndn.Name
