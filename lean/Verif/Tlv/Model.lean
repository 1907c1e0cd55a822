/-
Model of the TLV number codec: ndn-cxx/encoding/tlv.hpp and ndn-cxx/encoding/tlv.cpp.

Numbers are `Nat`; the C++ code holds them in `uint64_t`, so every theorem that
writes a number assumes it is below `2^64`, and every number read is proved to be.
A read position is the list of bytes still ahead of the iterator.
-/
namespace Ndn

/-- `span<const uint8_t>` / `Buffer` / iterator range of octets. -/
abbrev Bytes := List UInt8

namespace Tlv

/-- Value of a big-endian byte sequence: `boost::endian::big_to_native` applied to the bytes
copied in `detail::readNumber`, encoding/tlv.hpp 316-345 (fast path). -/
def beNat (bs : Bytes) : Nat := bs.foldl (fun acc b => acc * 256 + b.toNat) 0

/-- The `k` bytes of `boost::endian::native_to_big` of `n` truncated to `8*k` bits:
encoding/tlv.cpp 93-94, 99-100, 105-106 (and 120, 125, 130). -/
def beBytes : Nat → Nat → Bytes
  | 0, _ => []
  | k + 1, n => UInt8.ofNat (n / 256 ^ k) :: beBytes k n

/-- `detail::readNumber`, fast path (contiguous iterators), encoding/tlv.hpp 308-344.
The `default: NDN_CXX_UNREACHABLE` branch is not represented: callers pass only 1, 2, 4, 8. -/
def readNumber (size : Nat) (bs : Bytes) : Option (Nat × Bytes) :=
  if bs.length < size then none else some (beNat (bs.take size), bs.drop size)

/-- Loop of `detail::readNumber`, slow path (input iterators), encoding/tlv.hpp 347-355, with
`count` remaining iterations and accumulator `number` kept to 64 bits. -/
def readNumberSlowLoop : Nat → Nat → Bytes → Option (Nat × Bytes)
  | 0, number, bs => some (number, bs)
  | _ + 1, _, [] => none
  | c + 1, number, b :: bs => readNumberSlowLoop c (((number <<< 8) ||| b.toNat) % 2 ^ 64) bs

/-- `detail::readNumber`, slow path, encoding/tlv.hpp 346-356. -/
def readNumberSlow (size : Nat) (bs : Bytes) : Option (Nat × Bytes) :=
  readNumberSlowLoop size 0 bs

/-- `tlv::readVarNumber`, encoding/tlv.hpp 361-378 (throwing variant 395-405 maps `none` to
`tlv::Error`). -/
def readVarNumber : Bytes → Option (Nat × Bytes)
  | [] => none
  | firstOctet :: bs =>
    if firstOctet.toNat < 253 then some (firstOctet.toNat, bs)
    else readNumber (1 <<< (firstOctet.toNat &&& 3)) bs

/-- `tlv::readVarNumber` instantiated with a non-contiguous iterator (`istream_iterator`), as used
by `Block::fromStream`: same text, slow-path `readNumber`. -/
def readVarNumberSlow : Bytes → Option (Nat × Bytes)
  | [] => none
  | firstOctet :: bs =>
    if firstOctet.toNat < 253 then some (firstOctet.toNat, bs)
    else readNumberSlow (1 <<< (firstOctet.toNat &&& 3)) bs

/-- `tlv::readType`, encoding/tlv.hpp 380-392 (throwing variant 407-417). `tlv::Invalid` is 0. -/
def readType (bs : Bytes) : Option (Nat × Bytes) :=
  match readVarNumber bs with
  | none => none
  | some (number, rest) =>
    if number = 0 ∨ number > 2 ^ 32 - 1 then none else some (number, rest)

/-- `tlv::readType` over a stream iterator. -/
def readTypeSlow (bs : Bytes) : Option (Nat × Bytes) :=
  match readVarNumberSlow bs with
  | none => none
  | some (number, rest) =>
    if number = 0 ∨ number > 2 ^ 32 - 1 then none else some (number, rest)

/-- `tlv::sizeOfVarNumber`, encoding/tlv.hpp 419-425. -/
def sizeOfVarNumber (number : Nat) : Nat :=
  if number < 253 then 1 else if number ≤ 65535 then 3 else if number ≤ 4294967295 then 5 else 9

/-- `tlv::writeVarNumber`, encoding/tlv.cpp 85-110: the bytes put on the stream. -/
def writeVarNumber (number : Nat) : Bytes :=
  if number < 253 then [UInt8.ofNat number]
  else if number ≤ 65535 then 253 :: beBytes 2 number
  else if number ≤ 4294967295 then 254 :: beBytes 4 number
  else 255 :: beBytes 8 number

/-- `tlv::readNonNegativeInteger`, encoding/tlv.hpp 427-442; `none` is `tlv::Error`. -/
def readNonNegativeInteger (len : Nat) (bs : Bytes) : Option (Nat × Bytes) :=
  if len ≠ 1 ∧ len ≠ 2 ∧ len ≠ 4 ∧ len ≠ 8 then none else readNumber len bs

/-- `tlv::sizeOfNonNegativeInteger`, encoding/tlv.hpp 444-450. -/
def sizeOfNonNegativeInteger (n : Nat) : Nat :=
  if n ≤ 255 then 1 else if n ≤ 65535 then 2 else if n ≤ 4294967295 then 4 else 8

/-- `tlv::writeNonNegativeInteger`, encoding/tlv.cpp 112-134. -/
def writeNonNegativeInteger (n : Nat) : Bytes :=
  if n ≤ 255 then [UInt8.ofNat n]
  else if n ≤ 65535 then beBytes 2 n
  else if n ≤ 4294967295 then beBytes 4 n
  else beBytes 8 n

/-- `readNonNegativeInteger(const Block&)` applied to a TLV-VALUE: encoding/block-helpers.cpp 89-94.
The bytes left over by the reader are none because the length passed is the value size. -/
def readNniValue (value : Bytes) : Option Nat :=
  (readNonNegativeInteger value.length value).map (·.1)

/-- `readNonNegativeIntegerAs<R>`, encoding/block-helpers.hpp 94-103, with `maxR` the largest value
of `R` (for an enum: of its underlying type). -/
def readNniValueAs (maxR : Nat) (value : Bytes) : Option Nat :=
  match readNniValue value with
  | none => none
  | some v => if v > maxR then none else some v

/-- `tlv::isCriticalType`, encoding/tlv.hpp 161-165. -/
def isCriticalType (type : Nat) : Bool := type ≤ 31 || type &&& 1 == 1

end Tlv
end Ndn
