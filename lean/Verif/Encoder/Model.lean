import Verif.Tlv.Model
/-
Model of ndn::encoding::Encoder and ndn::encoding::Estimator:
ndn-cxx/encoding/encoder.hpp, encoder.cpp, estimator.hpp.

Iterators are indices into the buffer. Buffer sizes are `Nat` (the doubling in `reserveBack`/
`reserveFront` is assumed not to overflow `size_t`). A write outside the storage is `none`.
-/
namespace Ndn.Encoder
open Tlv

/-- Encoder members, encoder.hpp 242-247. -/
structure State where
  buffer : Bytes
  begin_ : Nat
  end_ : Nat
  deriving DecidableEq, Repr

/-- `Encoder(totalReserve, reserveFromBack)`, encoder.cpp 30-34. -/
def init (totalReserve reserveFromBack : Nat) : State :=
  let p := totalReserve - (if reserveFromBack < totalReserve then reserveFromBack else 0)
  ⟨List.replicate totalReserve 0, p, p⟩

/-- `reserve(size, addInFront)`, encoder.cpp 62-94. -/
def reserve (s : State) (size : Nat) (addInFront : Bool) : State :=
  let size := if size < s.buffer.length then s.buffer.length else size
  if addInFront then
    let diffEnd := s.buffer.length - s.end_
    let diffBegin := s.buffer.length - s.begin_
    ⟨List.replicate (size - s.buffer.length) 0 ++ s.buffer, size - diffBegin, size - diffEnd⟩
  else
    ⟨s.buffer ++ List.replicate (size - s.buffer.length) 0, s.begin_, s.end_⟩

/-- `reserveBack(size)`, encoder.cpp 43-48. -/
def reserveBack (s : State) (size : Nat) : State :=
  if s.end_ + size > s.buffer.length then reserve s (s.buffer.length * 2 + size) false else s

/-- `reserveFront(size)`, encoder.cpp 50-55. -/
def reserveFront (s : State) (size : Nat) : State :=
  if size > s.begin_ then reserve s (s.buffer.length * 2 + size) true else s

/-- `std::copy(first, last, position)` into the buffer; `none` when it would run outside. -/
def writeAt (buffer : Bytes) (pos : Nat) (bytes : Bytes) : Option Bytes :=
  if pos + bytes.length > buffer.length then none
  else some (buffer.take pos ++ bytes ++ buffer.drop (pos + bytes.length))

/-- `prependRange`/`prependBytes`, encoder.hpp 250-263, encoder.cpp 96-100. -/
def prependBytes (s : State) (bytes : Bytes) : Option (State × Nat) :=
  let s := reserveFront s bytes.length
  if s.begin_ < bytes.length then none
  else
    let begin_ := s.begin_ - bytes.length
    match writeAt s.buffer begin_ bytes with
    | none => none
    | some buffer => some (⟨buffer, begin_, s.end_⟩, bytes.length)

/-- `appendRange`/`appendBytes`, encoder.hpp 265-278, encoder.cpp 102-106. -/
def appendBytes (s : State) (bytes : Bytes) : Option (State × Nat) :=
  let s := reserveBack s bytes.length
  match writeAt s.buffer s.end_ bytes with
  | none => none
  | some buffer => some (⟨buffer, s.begin_, s.end_ + bytes.length⟩, bytes.length)

/-- `prependVarNumber`, encoder.cpp 108-133. -/
def prependVarNumber (s : State) (n : Nat) : Option (State × Nat) :=
  if n < 253 then do
    let (s, _) ← prependBytes s [UInt8.ofNat n]
    return (s, 1)
  else if n ≤ 65535 then do
    let (s, _) ← prependBytes s (beBytes 2 n)
    let (s, _) ← prependBytes s [253]
    return (s, 3)
  else if n ≤ 4294967295 then do
    let (s, _) ← prependBytes s (beBytes 4 n)
    let (s, _) ← prependBytes s [254]
    return (s, 5)
  else do
    let (s, _) ← prependBytes s (beBytes 8 n)
    let (s, _) ← prependBytes s [255]
    return (s, 9)

/-- `appendVarNumber`, encoder.cpp 135-160. -/
def appendVarNumber (s : State) (n : Nat) : Option (State × Nat) :=
  if n < 253 then do
    let (s, _) ← appendBytes s [UInt8.ofNat n]
    return (s, 1)
  else if n ≤ 65535 then do
    let (s, _) ← appendBytes s [253]
    let (s, _) ← appendBytes s (beBytes 2 n)
    return (s, 3)
  else if n ≤ 4294967295 then do
    let (s, _) ← appendBytes s [254]
    let (s, _) ← appendBytes s (beBytes 4 n)
    return (s, 5)
  else do
    let (s, _) ← appendBytes s [255]
    let (s, _) ← appendBytes s (beBytes 8 n)
    return (s, 9)

/-- `prependNonNegativeInteger`, encoder.cpp 162-180. -/
def prependNonNegativeInteger (s : State) (n : Nat) : Option (State × Nat) :=
  if n ≤ 255 then prependBytes s [UInt8.ofNat n]
  else if n ≤ 65535 then prependBytes s (beBytes 2 n)
  else if n ≤ 4294967295 then prependBytes s (beBytes 4 n)
  else prependBytes s (beBytes 8 n)

/-- `appendNonNegativeInteger`, encoder.cpp 182-200. -/
def appendNonNegativeInteger (s : State) (n : Nat) : Option (State × Nat) :=
  if n ≤ 255 then appendBytes s [UInt8.ofNat n]
  else if n ≤ 65535 then appendBytes s (beBytes 2 n)
  else if n ≤ 4294967295 then appendBytes s (beBytes 4 n)
  else appendBytes s (beBytes 8 n)

/-- The octets between `begin()` and `end()`, encoder.hpp 146-226; `size()` is `end - begin`. -/
def contents (s : State) : Bytes := (s.buffer.drop s.begin_).take (s.end_ - s.begin_)

/-- Calls on an Encoder. -/
inductive Op where
  | prependBytes (bs : Bytes)
  | appendBytes (bs : Bytes)
  | prependVar (n : Nat)
  | appendVar (n : Nat)
  | prependNni (n : Nat)
  | appendNni (n : Nat)
  | reserveFront (n : Nat)
  | reserveBack (n : Nat)
  | reserve (n : Nat) (front : Bool)
  deriving Repr

/-- One call: the state and the returned size (0 for the `void` calls). -/
def step (s : State) : Op → Option (State × Nat)
  | .prependBytes bs => Encoder.prependBytes s bs
  | .appendBytes bs => Encoder.appendBytes s bs
  | .prependVar n => prependVarNumber s n
  | .appendVar n => appendVarNumber s n
  | .prependNni n => prependNonNegativeInteger s n
  | .appendNni n => appendNonNegativeInteger s n
  | .reserveFront n => some (Encoder.reserveFront s n, 0)
  | .reserveBack n => some (Encoder.reserveBack s n, 0)
  | .reserve n f => some (Encoder.reserve s n f, 0)

def run (s : State) : List Op → Option (State × List Nat)
  | [] => some (s, [])
  | op :: ops =>
    match step s op with
    | none => none
    | some (s', n) => (run s' ops).map (fun p => (p.1, n :: p.2))

/-- `Estimator`, estimator.hpp 36-112: the size returned by the same call (the `reserve` family
does not exist on an Estimator and counts 0). -/
def estimate : Op → Nat
  | .prependBytes bs => bs.length
  | .appendBytes bs => bs.length
  | .prependVar n => sizeOfVarNumber n
  | .appendVar n => sizeOfVarNumber n
  | .prependNni n => sizeOfNonNegativeInteger n
  | .appendNni n => sizeOfNonNegativeInteger n
  | .reserveFront _ => 0
  | .reserveBack _ => 0
  | .reserve _ _ => 0

end Ndn.Encoder
