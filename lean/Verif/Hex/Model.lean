import Verif.Tlv.Model
/-
Model of percent escaping (ndn-cxx/util/string-helper.{hpp,cpp}) and of the hex transforms
(ndn-cxx/security/transform/{hex-encode,hex-decode,strip-space,transform-base,buffer-source,
stream-sink}.cpp). Strings are byte lists.
-/
namespace Ndn.Hex

/-- `toHexChar`, util/string-helper.hpp 122-128, and the pads `H2CL`/`H2CU`,
security/transform/hex-encode.cpp 26-36: the character of the low nibble of `n`. -/
def toHexChar (n : Nat) (upper : Bool) : UInt8 :=
  let d := n % 16
  if d < 10 then UInt8.ofNat (48 + d)
  else if upper then UInt8.ofNat (65 + (d - 10)) else UInt8.ofNat (97 + (d - 10))

/-- `fromHexChar`, util/string-helper.hpp 133-140; `none` is -1. -/
def fromHexChar (c : UInt8) : Option Nat :=
  if 48 ≤ c.toNat ∧ c.toNat ≤ 57 then some (c.toNat - 48)
  else if 65 ≤ c.toNat ∧ c.toNat ≤ 70 then some (c.toNat - 65 + 10)
  else if 97 ≤ c.toNat ∧ c.toNat ≤ 102 then some (c.toNat - 97 + 10)
  else none

/-- The characters left alone by `escape`, util/string-helper.cpp 93-97. -/
def isUnreserved (c : UInt8) : Bool :=
  (97 ≤ c.toNat && c.toNat ≤ 122) || (65 ≤ c.toNat && c.toNat ≤ 90) ||
  (48 ≤ c.toNat && c.toNat ≤ 57) || c = 45 || c = 46 || c = 95 || c = 126

/-- `escape`, util/string-helper.cpp 88-106. -/
def escape : Bytes → Bytes
  | [] => []
  | c :: s =>
    if isUnreserved c then c :: escape s
    else 37 :: toHexChar (c.toNat / 16) true :: toHexChar c.toNat true :: escape s

/-- `unescape`, util/string-helper.cpp 116-138. -/
def unescape : Bytes → Bytes
  | [] => []
  | [a] => [a]
  | [a, b] => [a, b]
  | a :: b :: c :: s =>
    if a = 37 then
      match fromHexChar b, fromHexChar c with
      | some hi, some lo => UInt8.ofNat (hi * 16 + lo) :: unescape s
      | _, _ => a :: b :: c :: unescape s
    else a :: unescape (b :: c :: s)

/-! ### Transforms -/

/-- `HexEncode::toHex`, hex-encode.cpp 45-59. -/
def hexEncode (upper : Bool) (data : Bytes) : Bytes :=
  data.flatMap (fun b => [toHexChar (b.toNat / 16) upper, toHexChar b.toNat upper])

/-- The table `C2H`, hex-decode.cpp 27-45 (`none` is -1), transcribed by ranges: 48-57 give 0-9,
65-70 and 97-102 give 10-15, everything else -1. It coincides with `fromHexChar`. -/
def c2h (c : UInt8) : Option Nat :=
  if 48 ≤ c.toNat ∧ c.toNat ≤ 57 then some (c.toNat - 48)
  else if 65 ≤ c.toNat ∧ c.toNat ≤ 70 then some (c.toNat - 55)
  else if 97 ≤ c.toNat ∧ c.toNat ≤ 102 then some (c.toNat - 87)
  else none

/-- One octet from two characters, hex-decode.cpp 85-88 and 95-98. -/
def hexPair (hi lo : UInt8) : Option UInt8 :=
  match c2h hi, c2h lo with
  | some h, some l => some (UInt8.ofNat (h * 16 + l))
  | _, _ => none

/-- The `while (hexLen >= 2)` loop, hex-decode.cpp 94-102. -/
def hexPairs : Bytes → Option Bytes
  | a :: b :: s =>
    match hexPair a b with
    | none => none
    | some x => (hexPairs s).map (x :: ·)
  | _ => some []

/-- `HexDecode::toBytes`, hex-decode.cpp 76-105; `odd` is `m_oddByte` if `m_hasOddByte`. Called
with non-empty input only. -/
def toBytes (odd : Option UInt8) (hex : Bytes) : Option Bytes :=
  match odd, hex with
  | some o, a :: s =>
    match hexPair o a with
    | none => none
    | some x => (hexPairs s).map (x :: ·)
  | _, _ => hexPairs hex

/-- `HexDecode::convert`, hex-decode.cpp 48-67: new odd byte and output, `none` on an exception.
All input is always consumed. -/
def hexConvert (odd : Option UInt8) (hex : Bytes) : Option (Option UInt8 × Bytes) :=
  if hex = [] then some (odd, [])
  else
    match toBytes odd hex with
    | none => none
    | some out =>
      let totalDecodedLen := hex.length + (if odd.isSome then 1 else 0)
      some (if totalDecodedLen % 2 = 1 then hex.getLast? else none, out)

/-- Feeding chunks one after another to a `HexDecode` whose output is taken completely each time,
then `end()` (`HexDecode::finalize`, hex-decode.cpp 69-74). -/
def hexDecodeChunks (odd : Option UInt8) : List Bytes → Option Bytes
  | [] => if odd.isSome then none else some []
  | c :: cs =>
    match hexConvert odd c with
    | none => none
    | some (odd', out) => (hexDecodeChunks odd' cs).map (out ++ ·)

/-- `fromHex`, util/string-helper.cpp 64-79: a single buffer through `hexDecode`. -/
def fromHex (s : Bytes) : Option Bytes := hexDecodeChunks none [s]

/-- `StripSpace::convert`, strip-space.cpp 35-49, with the white-space set as a predicate. -/
def stripSpace (ws : UInt8 → Bool) (data : Bytes) : Bytes := data.filter (fun c => !ws c)

/-- The default white-space set `" \f\n\r\t\v"`, strip-space.cpp 26. -/
def defaultWs (c : UInt8) : Bool := c = 32 || c = 12 || c = 10 || c = 13 || c = 9 || c = 11

/-! ### The generic transform with a downstream module that may accept only part of a write -/

/-- A converter: internal state, `convert` (consuming all its input; `none` is an exception) and
whether `finalize` flushes the output (the default, transform-base.cpp 126-130) or is overridden by
a check of the state only (hex-decode.cpp 69-74). -/
structure Conv (σ : Type) where
  init : σ
  convert : σ → Bytes → Option (σ × Bytes)
  finalOk : σ → Bool
  flushAtEnd : Bool

/-- A `Transform` in a chain: converter state, unflushed output (`m_oBuffer` from
`m_outputOffset`), what the next module has accepted so far, and how much the next module will
accept at each of its future writes (everything once the list is used up). -/
structure TState (σ : Type) where
  conv : σ
  pending : Bytes
  out : Bytes
  accept : List Nat

/-- `flushOutputBuffer`, transform-base.cpp 66-74. -/
def flush {σ} (t : TState σ) : TState σ :=
  if t.pending = [] then t
  else
    match t.accept with
    | [] => { t with pending := [], out := t.out ++ t.pending }
    | k :: ks => { t with pending := t.pending.drop k, out := t.out ++ t.pending.take k, accept := ks }

/-- `Transform::doWrite`, transform-base.cpp 98-113 (with the empty default `preTransform`): how
much was converted. -/
def doWrite {σ} (c : Conv σ) (t : TState σ) (data : Bytes) : Option (TState σ × Nat) :=
  let t := flush t
  if t.pending ≠ [] then some (t, 0)
  else
    match c.convert t.conv data with
    | none => none
    | some (s, out) => some (flush { t with conv := s, pending := out }, data.length)

/-- The loop of `BufferSource::doPump`, buffer-source.cpp 46-51, on one buffer; fuel bounds the
iterations. -/
def pumpOne {σ} (c : Conv σ) : Nat → TState σ → Bytes → Option (TState σ)
  | _, t, [] => some t
  | 0, _, _ :: _ => none
  | f + 1, t, b :: bs =>
    match doWrite c t (b :: bs) with
    | none => none
    | some (t', n) => pumpOne c f t' ((b :: bs).drop n)

/-- `flushAllOutput`, transform-base.cpp 76-82. -/
def flushAll {σ} : Nat → TState σ → Option (TState σ)
  | 0, t => if t.pending = [] then some t else none
  | f + 1, t => if t.pending = [] then some t else flushAll f (flush t)

/-- `BufferSource::doPump` over several buffers, then `end()` (buffer-source.cpp 41-54,
transform-base.cpp 115-119): what the next module received. -/
def pump {σ} (c : Conv σ) (fuel : Nat) (t : TState σ) : List Bytes → Option Bytes
  | [] =>
    if c.finalOk t.conv then
      if c.flushAtEnd then (flushAll fuel t).map (·.out) else some t.out
    else none
  | b :: bs => (pumpOne c fuel t b).bind (fun t' => pump c fuel t' bs)

/-- `HexEncode` as a converter. -/
def hexEncodeConv (upper : Bool) : Conv Unit :=
  ⟨(), fun _ d => some ((), hexEncode upper d), fun _ => true, true⟩

/-- `StripSpace` as a converter. -/
def stripSpaceConv (ws : UInt8 → Bool) : Conv Unit :=
  ⟨(), fun _ d => some ((), stripSpace ws d), fun _ => true, true⟩

/-- `HexDecode` as a converter: `finalize` is overridden and does not flush. -/
def hexDecodeConv : Conv (Option UInt8) :=
  ⟨none, hexConvert, fun o => o.isNone, false⟩

end Ndn.Hex
