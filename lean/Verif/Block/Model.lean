import Verif.Tlv.Model
/-
Model of ndn::Block: ndn-cxx/encoding/block.hpp, ndn-cxx/encoding/block.cpp.
-/
namespace Ndn.Block
open Tlv

/-- A decoded TLV element: the octets of the whole element (`[m_begin,m_end)`), its TLV-TYPE and
its TLV-VALUE (`[m_valueBegin,m_valueEnd)`). The shared buffer is represented by these slices. -/
structure Raw where
  type : Nat
  wire : Bytes
  value : Bytes
  deriving DecidableEq, Repr, Inhabited

/-- `Block::fromBuffer(span)`, encoding/block.cpp 190-219: `none` is `{false, {}}`; otherwise the
block and the bytes after it. `Block(span)` (54-76) is the same text with exceptions instead of
`false`, and `fromBuffer(buffer, offset)` (164-188) is the same on the bytes from `offset` on. -/
def fromBuffer (bs : Bytes) : Option (Raw × Bytes) :=
  match readType bs with
  | none => none
  | some (type, r1) =>
    match readVarNumber r1 with
    | none => none
    | some (length, pos) =>
      if length > pos.length then none
      else
        some (⟨type, bs.take (bs.length - pos.length + length), pos.take length⟩, pos.drop length)

/-- `Block::fromBuffer(buffer, offset)`, block.cpp 164-188. Precondition of the code:
`offset ≤ buffer.size()` (otherwise `std::next` runs past the end: `none` here). -/
def fromBufferAt (buffer : Bytes) (offset : Nat) : Option (Option (Raw × Bytes)) :=
  if offset > buffer.length then none else some (fromBuffer (buffer.drop offset))

/-- `Block(ConstBufferPtr, begin, end, verifyLength)`, block.cpp 88-115, on the octets
`[begin,end)`; the iterator-range checks are not represented (the range is given as a list), the
`Buffer is empty` check is the `[]` case of the type reader. Used by `Block(buffer)`,
`blockFromValue`. When the length is not verified the value is everything after the header. -/
def fromRange (bs : Bytes) (verifyLength : Bool) : Option Raw :=
  match readType bs with
  | none => none
  | some (type, r1) =>
    match readVarNumber r1 with
    | none => none
    | some (length, value) =>
      if verifyLength && length != value.length then none else some ⟨type, bs, value⟩

/-- `Block::blockFromValue`, block.cpp 313-321. -/
def blockFromValue (value : Bytes) : Option Raw :=
  if value.length = 0 then none else fromRange value true

/-- Outcome of a call that may throw. -/
inductive Outcome where
  | ok
  | threw
  deriving DecidableEq, Repr

/-- The `while` loop of `Block::parse`, block.cpp 328-349: `elements` is `m_elements`, `bs` the
octets from `begin` to `end`. The first argument bounds the number of iterations (the loop consumes
at least two octets per iteration, `parse` passes the value size). On a header that cannot be
read `readType`/`readVarNumber` throw and `m_elements` keeps what was added so far; on a length
beyond the end `m_elements` is cleared first. -/
def parseLoop : Nat → List Raw → Bytes → Outcome × List Raw
  | _, elements, [] => (.ok, elements)
  | 0, elements, _ :: _ => (.threw, elements)
  | fuel + 1, elements, b :: bs =>
    match readType (b :: bs) with
    | none => (.threw, elements)
    | some (type, r1) =>
      match readVarNumber r1 with
      | none => (.threw, elements)
      | some (length, pos) =>
        if length > pos.length then (.threw, [])
        else
          parseLoop fuel
            (elements ++
              [⟨type, (b :: bs).take ((b :: bs).length - pos.length + length), pos.take length⟩])
            (pos.drop length)

/-- `Block::parse`, block.cpp 319-350: given the value and the current `m_elements`, the outcome
and the new `m_elements`. -/
def parse (value : Bytes) (elements : List Raw) : Outcome × List Raw :=
  if elements ≠ [] ∨ value.length = 0 then (.ok, elements)
  else parseLoop value.length [] value

/-- First call of `parse()` on a freshly decoded block: the elements, or an exception. -/
def parseElements (value : Bytes) : Option (List Raw) :=
  match parse value [] with
  | (.ok, es) => some es
  | (.threw, _) => none

/-- `Block::equals`, block.cpp 482-490, on decoded blocks. -/
def Raw.equals (a b : Raw) : Bool := a.type == b.type && a.value == b.value

/-- `MAX_SIZE_OF_BLOCK_FROM_STREAM` = `MAX_NDN_PACKET_SIZE`, block.cpp 43, tlv.hpp 41. -/
def maxPacketSize : Nat := 8800

/-- Outcome of `Block::fromStream`; `undefined` is the case in which `tlSize + length` wraps
around 64 bits, so that the buffer is smaller than the `length` octets about to be read into it
and the count passed to `istream::read` is negative. -/
inductive StreamResult where
  | ok (b : Raw) (rest : Bytes)
  | error
  | undefined
  deriving DecidableEq, Repr

/-- `Block::fromStream`, block.cpp 221-251. The stream is the list of octets ahead; the one octet
of look-ahead of `istream_iterator` is put back (229-231), so it does not show. The block is
re-encoded with minimal TYPE and LENGTH into a buffer of `tlSize + length` octets. -/
def fromStream (is : Bytes) : StreamResult :=
  match readTypeSlow is with
  | none => .error
  | some (type, r1) =>
    match readVarNumberSlow r1 with
    | none => .error
    | some (length, r2) =>
      let tlSize := sizeOfVarNumber type + sizeOfVarNumber length
      if (tlSize + length) % 2 ^ 64 > maxPacketSize then .error
      else if tlSize + length ≥ 2 ^ 64 then .undefined
      else if r2.length < length then .error
      else
        match fromRange (writeVarNumber type ++ writeVarNumber length ++ r2.take length) true with
        | none => .error
        | some b => .ok b (r2.drop length)

/-! ### Block objects: encoding and element mutators -/

/-- A `Block` object: TLV-TYPE, underlying buffer (`none` = `m_buffer == nullptr`; otherwise the
octets `[m_begin,m_end)` — empty when there is no wire — and `[m_valueBegin,m_valueEnd)`),
`m_size` and `m_elements`. block.hpp 398-434. -/
inductive Obj where
  | mk (type : Nat) (buf : Option (Bytes × Bytes)) (size : Nat) (elements : List Obj)
  deriving Repr

namespace Obj

def type : Obj → Nat | mk t _ _ _ => t
def buf : Obj → Option (Bytes × Bytes) | mk _ b _ _ => b
def size : Obj → Nat | mk _ _ s _ => s
def elements : Obj → List Obj | mk _ _ _ es => es

/-- `hasWire`, block.hpp 204-208. -/
def hasWire (b : Obj) : Bool :=
  match b.buf with
  | none => false
  | some (w, _) => w ≠ []

/-- `value_size`/`value_bytes`, block.hpp 298-316: empty without a buffer. -/
def valueBytes (b : Obj) : Bytes :=
  match b.buf with
  | none => []
  | some (_, v) => v

/-- `Block(uint32_t type)`, block.cpp 136-140. -/
def ofType (t : Nat) : Obj := mk t none (sizeOfVarNumber t + sizeOfVarNumber 0) []

/-- `Block(type, ConstBufferPtr value)`, block.cpp 142-151. -/
def ofValue (t : Nat) (v : Bytes) : Obj :=
  mk t (some ([], v)) (sizeOfVarNumber t + sizeOfVarNumber v.length + v.length) []

/-- A decoded block (block.cpp 117-129) as an object. -/
def ofRaw (r : Raw) : Obj := mk r.type (some (r.wire, r.value)) r.wire.length []

/-- `parse`, block.cpp 325-350, when it succeeds; an exception leaves the elements that
`Block.parse` describes. -/
def parse (b : Obj) : Outcome × Obj :=
  if b.elements.length ≠ 0 ∨ b.valueBytes.length = 0 then (.ok, b)
  else
    let r := parseLoop b.valueBytes.length [] b.valueBytes
    (r.1, mk b.type b.buf b.size (r.2.map ofRaw))

/-- `resetWire`, block.cpp 298-303. -/
def resetWire : Obj → Obj | mk t _ s es => mk t none s es

/-- `push_back`, block.cpp 454-466. -/
def pushBack (b e : Obj) : Obj :=
  match b.resetWire with | mk t buf s es => mk t buf s (es ++ [e])

/-- `insert`, block.cpp 468-473, at index `i` (precondition `i ≤ elements().size()`, else `none`). -/
def insert (b : Obj) (i : Nat) (e : Obj) : Option Obj :=
  if i > b.elements.length then none
  else match b.resetWire with | mk t buf s es => some (mk t buf s (es.take i ++ [e] ++ es.drop i))

/-- `erase(position)`, block.cpp 440-445, at index `i` (precondition `i < elements().size()`). -/
def erase (b : Obj) (i : Nat) : Option Obj :=
  if i ≥ b.elements.length then none
  else match b.resetWire with | mk t buf s es => some (mk t buf s (es.take i ++ es.drop (i + 1)))

/-- `erase(first, last)`, block.cpp 447-452, for indices `i ≤ j ≤ elements().size()`. -/
def eraseRange (b : Obj) (i j : Nat) : Option Obj :=
  if i > j ∨ j > b.elements.length then none
  else match b.resetWire with | mk t buf s es => some (mk t buf s (es.take i ++ es.drop j))

/-- `remove(type)`, block.cpp 430-438. -/
def remove (b : Obj) (type : Nat) : Obj :=
  match b.resetWire with | mk t buf s es => mk t buf s (es.filter (fun e => e.type ≠ type))

/-- `find(type)`, block.cpp 423-428 (`get`, 413-421, throws on `none`). -/
def find (b : Obj) (type : Nat) : Option Obj := b.elements.find? (fun e => e.type = type)

mutual
/-- `encode(EncodingBuffer&)`, block.cpp 387-411: the object afterwards and the octets prepended. -/
def encodeTo : Obj → Obj × Bytes
  | mk t (some (_, v)) _ es =>
    let w := writeVarNumber t ++ writeVarNumber v.length ++ v
    (mk t (some (w, v)) w.length es, w)
  | mk t none _ es =>
    let r := encodeList es
    let w := writeVarNumber t ++ writeVarNumber r.2.length ++ r.2
    (mk t (some (w, r.2)) w.length r.1, w)
/-- The loop of block.cpp 396-398: elements in reverse order, each prepended. -/
def encodeList : List Obj → List Obj × Bytes
  | [] => ([], [])
  | e :: es =>
    let r := encodeList es
    let x := encodeTo e
    (x.1 :: r.1, x.2 ++ r.2)
end

/-- `encode()`, block.cpp 352-363. -/
def encode (b : Obj) : Obj := if b.hasWire then b else (encodeTo b).1

mutual
/-- `encode(EncodingEstimator&)`, block.cpp 365-375. -/
def estimate : Obj → Nat
  | mk _ (some _) s _ => s
  | mk t none _ es =>
    let len := estimateList es
    let len := len + sizeOfVarNumber len
    len + sizeOfVarNumber t
/-- `encodeValue(EncodingEstimator&)`, block.cpp 377-385. -/
def estimateList : List Obj → Nat
  | [] => 0
  | e :: es => estimateList es + estimate e
end

/-- `Block::equals`, block.cpp 482-490. -/
def equals (a b : Obj) : Bool := a.type == b.type && a.valueBytes == b.valueBytes

end Obj
end Ndn.Block
