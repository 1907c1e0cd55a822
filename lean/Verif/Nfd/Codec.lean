import Verif.Mgmt.Params
/-
The way the NFD management structures of ndn-cxx/mgmt/nfd are decoded and encoded: each `wireDecode` is a sequence of
`if (val != end && val->type() == T) { m_field = read(*val); ++val; } else …` blocks, each object keeps the encoding it
was decoded from or last encoded to in `m_wire`, and each setter resets it.
-/
namespace Ndn.Nfd
open Tlv Block Name Packet Mgmt

/-- Reading one element: the value, an exception, or undefined behaviour. -/
inductive Rd (α : Type) where
  | ok (a : α)
  | bad
  | ub
  deriving DecidableEq, Repr

def Rd.map {α β : Type} (f : α → β) : Rd α → Rd β
  | .ok a => .ok (f a)
  | .bad => .bad
  | .ub => .ub

def Rd.of {α : Type} : Option α → Rd α
  | some a => .ok a
  | none => .bad

/-- `readNonNegativeInteger`, encoding/block-helpers.cpp 89-94. -/
def num (e : Raw) : Rd Nat := .of (readNniValue e.value)

/-- `readNonNegativeIntegerAs` for an integer or enumeration type whose largest value is `mx`,
encoding/block-helpers.hpp 74-104. -/
def numAs (mx : Nat) (e : Raw) : Rd Nat := .of (readNniValueAs mx e.value)

/-- `readString`, encoding/block-helpers.cpp 183-187. -/
def text (e : Raw) : Rd Bytes := .ok e.value

/-- `time::milliseconds` or `time::nanoseconds` made from `readNonNegativeInteger`: the 64-bit number becomes signed. -/
def signed (e : Raw) : Rd Int := .of ((readNniValue e.value).map toI64)

/-- `Name::wireDecode`, name.cpp 124-132. -/
def nameIn (e : Raw) : Rd (List Comp) := .of (nameOf e)

/-- One of the `if` blocks. -/
inductive Step (σ : Type) where
  /-- A required field: without an element of this type here, an exception. -/
  | req (t : Nat) (f : σ → Raw → Rd σ)
  /-- An optional field: without an element of this type here, it is cleared. -/
  | opt (t : Nat) (f : σ → Raw → Rd σ) (clear : σ → σ)

/-- How a call ends. -/
inductive Out where
  | ok
  | threw
  | ub
  deriving DecidableEq, Repr

/-- The blocks, in order, over the elements from `val` on. Elements left at the end are not looked at. What the blocks
before an exception assigned stays assigned. -/
def runSteps {σ : Type} : List (Step σ) → σ → List Raw → Out × σ
  | [], s, _ => (.ok, s)
  | .req t f :: k, s, es =>
    match es with
    | [] => (.threw, s)
    | e :: rest =>
      if e.type = t then
        match f s e with
        | .ok s' => runSteps k s' rest
        | .bad => (.threw, s)
        | .ub => (.ub, s)
      else (.threw, s)
  | .opt t f clear :: k, s, es =>
    match es with
    | [] => runSteps k (clear s) []
    | e :: rest =>
      if e.type = t then
        match f s e with
        | .ok s' => runSteps k s' rest
        | .bad => (.threw, s)
        | .ub => (.ub, s)
      else runSteps k (clear s) es

/-- A structure with an encoding: the type of its element, what `wireEncode(encoder)` writes inside, what the members are
when the elements start to be looked at, and the blocks of `wireDecode`. -/
structure Codec (σ : Type) where
  type : Nat
  value : σ → Bytes
  start : σ → σ := fun s => s
  fill : σ → List Raw → Out × σ

/-- An object: its members and `m_wire` when it has one. -/
structure Obj (σ : Type) where
  wire : Option Raw
  v : σ

/-- The element an object without cached encoding is encoded to. -/
def Codec.encode {σ : Type} (c : Codec σ) (s : σ) : Raw := binaryBlock c.type (c.value s)

/-- `wireEncode()`: for instance face-status.cpp 81-95. -/
def Codec.wireEncode {σ : Type} (c : Codec σ) (o : Obj σ) : Obj σ × Raw :=
  match o.wire with
  | some w => (o, w)
  | none => (⟨some (c.encode o.v), o.v⟩, c.encode o.v)

/-- `wireDecode(block)`: for instance face-status.cpp 97-106. An element of another type leaves the object alone;
`m_wire` is assigned before the elements are looked at. -/
def Codec.wireDecode {σ : Type} (c : Codec σ) (o : Obj σ) (b : Raw) : Out × Obj σ :=
  if b.type ≠ c.type then (.threw, o)
  else match parseElements b.value with
    | none => (.threw, ⟨some b, c.start o.v⟩)
    | some es => ((c.fill (c.start o.v) es).1, ⟨some b, (c.fill (c.start o.v) es).2⟩)

/-- What a caller may do: a setter (here its effect on the members), encoding, decoding. -/
inductive Op (α : Type) where
  | set (x : α)
  | encode
  | decode (b : Raw)

/-- One call. Every setter also resets `m_wire` (the lines are cited at the setters). -/
def Codec.step {σ α : Type} (c : Codec σ) (apply : α → σ → σ) (o : Obj σ) : Op α → Out × Obj σ
  | .set x => (.ok, ⟨none, apply x o.v⟩)
  | .encode => (.ok, (c.wireEncode o).1)
  | .decode b => c.wireDecode o b

/-- A sequence of calls, none of which ends in an exception; `none` if one does. -/
def Codec.run {σ α : Type} (c : Codec σ) (apply : α → σ → σ) : List (Op α) → Obj σ → Option (Obj σ)
  | [], o => some o
  | op :: ops, o =>
    match c.step apply o op with
    | (.ok, o') => c.run apply ops o'
    | _ => none

end Ndn.Nfd
