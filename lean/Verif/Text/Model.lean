import Verif.Name.Model
import Verif.Hex.Model
import Verif.Config.Model
import Verif.Net.Model
/-
Model of the texts of the NFD management enumerations, encoding/nfd-constants.cpp, printed to a stream with default flags and in the
"C" locale, and of `util::IndentedStream`, util/indented-stream.cpp.
-/
namespace Ndn.Text
open Name (dec)
open Net (isSpace)

/-- The octets of a word; all of them are ASCII. -/
def w (s : String) : Bytes := s.toList.map fun c => UInt8.ofNat c.toNat

/-! ### Enumerations -/

/-- `operator<<(FaceScope)`, nfd-constants.cpp 33-45; the values are in nfd-constants.hpp 33-37. -/
def faceScopeText (n : Nat) : Bytes :=
  if n = 255 then w "none" else if n = 0 then w "non-local" else if n = 1 then w "local" else dec n

/-- `operator<<(FacePersistency)`, nfd-constants.cpp 47-61; nfd-constants.hpp 44-49. -/
def persistencyText (n : Nat) : Bytes :=
  if n = 255 then w "none" else if n = 0 then w "persistent" else if n = 1 then w "on-demand" else if n = 2 then w "permanent" else dec n

/-- `operator<<(LinkType)`, nfd-constants.cpp 63-77; nfd-constants.hpp 56-61. -/
def linkTypeText (n : Nat) : Bytes :=
  if n = 255 then w "none" else if n = 0 then w "point-to-point" else if n = 1 then w "multi-access" else if n = 2 then w "adhoc" else dec n

/-- `operator<<(FaceEventKind)`, nfd-constants.cpp 79-95; nfd-constants.hpp 76-82. -/
def eventText (n : Nat) : Bytes :=
  if n = 0 then w "none" else if n = 1 then w "created" else if n = 2 then w "destroyed" else if n = 3 then w "up"
  else if n = 4 then w "down" else dec n

/-- `operator<<(RouteOrigin)`, nfd-constants.cpp 146-169; nfd-constants.hpp 98-107. -/
def originText (n : Nat) : Bytes :=
  if n = 65535 then w "none" else if n = 0 then w "app" else if n = 64 then w "autoreg" else if n = 65 then w "client"
  else if n = 66 then w "autoconf" else if n = 128 then w "nlsr" else if n = 129 then w "prefixann" else if n = 255 then w "static"
  else dec n

/-- `is >> s` for a string: white space is skipped, then all up to the next white space is taken. -/
def readToken (s : Bytes) : Bytes × Bytes :=
  let t := s.dropWhile isSpace
  (t.takeWhile fun c => !isSpace c, t.dropWhile fun c => !isSpace c)

/-- The chain of comparisons and the number, nfd-constants.cpp 105-141; `none`: the failure bit is set. -/
def originOf (s : Bytes) : Option Nat :=
  if Config.iequals s (w "none") then some 65535
  else if Config.iequals s (w "app") then some 0
  else if Config.iequals s (w "autoreg") then some 64
  else if Config.iequals s (w "client") then some 65
  else if Config.iequals s (w "autoconf") then some 66
  else if Config.iequals s (w "nlsr") then some 128
  else if Config.iequals s (w "prefixann") then some 129
  else if Config.iequals s (w "static") then some 255
  else
    let v : Int := (Config.toInt32 s).getD (-1)
    if 0 ≤ v ∧ v ≤ 65535 then some v.toNat else none

/-- `operator>>(RouteOrigin)`, nfd-constants.cpp 97-144: whether it succeeds, the value, and what is left in the stream. -/
def readOrigin (s : Bytes) : Bool × Nat × Bytes :=
  let t := readToken s
  match originOf t.1 with
  | some n => (true, n, t.2)
  | none => (false, 65535, t.2)

/-- `std::hex << num`; fuel bounds the number of digits minus one. -/
def hexFuel : Nat → Nat → Bytes
  | 0, n => [Hex.toHexChar n false]
  | f + 1, n => if n < 16 then [Hex.toHexChar n false] else hexFuel f (n / 16) ++ [Hex.toHexChar n false]

/-- `AsHex`, util/string-helper.hpp 77-95 with `printHex`, string-helper.cpp 35-48. -/
def asHex (n : Nat) : Bytes := w "0x" ++ hexFuel n n

/-- What `make_ostream_joiner(os, '|')` writes for these values, util/ostream-joiner.hpp. -/
def joinBar : List Bytes → Bytes
  | [] => []
  | [t] => t
  | t :: ts => t ++ 124 :: joinBar ts

/-- The loop over the known bits, nfd-constants.cpp 184-189: the tokens and the flags that are left. Clearing a bit that is set subtracts
it. -/
def knownBits : List (Nat × Bytes) → Nat → List Bytes × Nat
  | [], f => ([], f)
  | (bit, token) :: rest, f =>
    if f &&& bit ≠ 0 then
      let r := knownBits rest (f - bit)
      (token :: r.1, r.2)
    else knownBits rest f

/-- `operator<<(RouteFlags)`, nfd-constants.cpp 171-196. -/
def flagsText (f : Nat) : Bytes :=
  if f = 0 then w "none"
  else
    let r := knownBits [(1, w "child-inherit"), (2, w "capture")] f
    joinBar (r.1 ++ if r.2 ≠ 0 then [asHex r.2] else [])

/-! ### Indented output -/

/-- `boost::split` at the newlines: one piece more than there are newlines. -/
def pieces : Bytes → List Bytes
  | [] => [[]]
  | c :: s =>
    if c = 10 then [] :: pieces s
    else match pieces s with
      | p :: ps => (c :: p) :: ps
      | [] => [[c]]

/-- The lines, indented-stream.cpp 55-58: an empty last piece is dropped. -/
def flushLines (s : Bytes) : List Bytes :=
  let ps := pieces s
  if ps.getLast? = some [] then ps.dropLast else ps

/-- What is called on an indented stream. -/
inductive IOp where
  | write (s : Bytes)
  | flush
  deriving DecidableEq, Repr

/-- The text in the buffer and what was written to the underlying stream. -/
structure Ind where
  buf : Bytes := []
  out : Bytes := []

/-- `StreamBuf::sync`, indented-stream.cpp 46-64. -/
def Ind.sync (indent : Bytes) (s : Ind) : Ind := ⟨[], s.out ++ (flushLines s.buf).flatMap fun l => indent ++ l ++ [10]⟩

def Ind.step (indent : Bytes) (s : Ind) : IOp → Ind
  | .write t => { s with buf := s.buf ++ t }
  | .flush => s.sync indent

/-- All that arrives at the underlying stream until the indented stream is destroyed, indented-stream.cpp 37-40. -/
def indented (indent : Bytes) (ops : List IOp) : Bytes := ((ops.foldl (Ind.step indent) {}).sync indent).out

end Ndn.Text
