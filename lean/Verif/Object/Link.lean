import Verif.Packet.Model

/-!
# Link

Model of `Link`, `ndn-cxx/link.{hpp,cpp}`, on top of the model of `Data` (its base class).
Names are lists of components; simplified: a `Name` keeps the octets it was decoded from, and
encodes to those, here it is always encoded with minimal TYPE and LENGTH.
-/

namespace Ndn.Object
open Ndn.Tlv Ndn.Block Ndn.Name Ndn.Packet

/-- A `Link`: the base class and `m_delegations`. -/
structure Link where
  d : DObj
  dels : List (List Comp)

/-- `makeNestedBlock(tlv::Content, first, last)`, encoding/block-helpers.hpp 342-381, of names. -/
def linkContent (dels : List (List Comp)) : Raw := binaryBlock 21 ((dels.map encodeComps).flatten)

/-- `encodeContent`, link.cpp 41-46. -/
def Link.encodeContent (H : Bytes → Bytes) (l : Link) : Link :=
  { l with d := ((l.d.step H (.setContentType 1)).2.step H (.setContentBlock (linkContent l.dels))).2 }

/-- `Link()`, link.cpp 28. -/
def Link.empty : Link := ⟨DObj.init [], []⟩

/-- `Link(name, delegations)`, link.cpp 35-40. -/
def Link.make (H : Bytes → Bytes) (name : List Comp) (dels : List (List Comp)) : Link :=
  Link.encodeContent H ⟨DObj.init name, dels⟩

/-- The loop of `wireDecode`, link.cpp 62-69: whether it ran to the end, and `m_delegations`. -/
def delLoop : List (List Comp) → List Raw → Bool × List (List Comp)
  | acc, [] => (true, acc)
  | acc, e :: es =>
    if e.type = 7 then
      match nameOf e with
      | none => (false, acc)
      | some n => delLoop (acc ++ [n]) es
    else if isCriticalType e.type then (false, acc)
    else delLoop acc es

/-- The value of the Content element; absent Content behaves as empty. -/
def contentValue (f : DFields) : Bytes :=
  match f.content with
  | none => []
  | some c => c.value

/-- `wireDecode`, link.cpp 48-70. -/
def Link.wireDecode (l : Link) (b : Raw) : Bool × Link :=
  let r := l.d.wireDecode b
  if r.1 then
    if r.2.f.minfo.type ≠ 1 then (false, { l with d := r.2 })
    else match parseElements (contentValue r.2.f) with
      | none => (false, ⟨r.2, []⟩)
      | some es => let q := delLoop [] es; (q.1, ⟨r.2, q.2⟩)
  else (false, { l with d := r.2 })

/-- `Link(wire)`, link.cpp 30-33: the delegations, or an exception. -/
def linkDecode (b : Raw) : Option (List (List Comp)) :=
  match Link.empty.wireDecode b with
  | (true, l) => some l.dels
  | (false, _) => none

/-- `std::remove` followed by `erase`. -/
def dropAll (n : List Comp) : List (List Comp) → List (List Comp)
  | [] => []
  | x :: xs => if x = n then dropAll n xs else x :: dropAll n xs

/-- Calls on a `Link`: its own, and those of the base class. -/
inductive LOp where
  | set (dels : List (List Comp))
  | add (n : List Comp)
  | remove (n : List Comp)
  | decode (b : Raw)
  | data (op : DOp)

/-- One call: its result (for the calls that return none, whether they returned normally) and the
object; link.cpp 72-103. -/
def Link.step (H : Bytes → Bytes) (l : Link) : LOp → Bool × Link
  | .set dels => (true, Link.encodeContent H { l with dels := dels })
  | .add n =>
    if l.dels.contains n then (false, l)
    else (true, Link.encodeContent H { l with dels := l.dels ++ [n] })
  | .remove n =>
    let r := dropAll n l.dels
    if r.length = l.dels.length then (false, l)
    else (true, Link.encodeContent H { l with dels := r })
  | .decode b => l.wireDecode b
  | .data op => let r := l.d.step H op; (r.1, { l with d := r.2 })

end Ndn.Object
