import Verif.Tlv.Spec
import Verif.Block.Model
/-
Independent specification of TLV elements.
-/
namespace Ndn.Block.Spec
open Tlv.Spec

/-- `TlvForm wire type value`: the octets `wire` are a TLV element of the given type and value:
TYPE in 1..2^32-1, LENGTH equal to the size of the value, then the value, nothing else. -/
def TlvForm (wire : Bytes) (type : Nat) (value : Bytes) : Prop :=
  ∃ t l, wire = t ++ l ++ value ∧ VarForm t type ∧ 1 ≤ type ∧ type ≤ 2 ^ 32 - 1 ∧
    VarForm l value.length

/-- A list of decoded elements is a correct reading of the octets `bs`: the element wires
concatenated are `bs` and each is a TLV element of its type and value. -/
def ReadsAs (bs : Bytes) (es : List Raw) : Prop :=
  bs = (es.map Raw.wire).flatten ∧ ∀ e ∈ es, TlvForm e.wire e.type e.value

/-- An abstract TLV tree. -/
inductive Tree where
  | leaf (type : Nat) (value : Bytes)
  | node (type : Nat) (children : List Tree)

/-- Canonical (shortest-form) TLV of a type and a value. -/
def tlv (type : Nat) (value : Bytes) : Bytes :=
  Tlv.writeVarNumber type ++ Tlv.writeVarNumber value.length ++ value

mutual
/-- The canonical encoding of a tree. -/
def Tree.enc : Tree → Bytes
  | .leaf t v => tlv t v
  | .node t cs => tlv t (Tree.encList cs)
def Tree.encList : List Tree → Bytes
  | [] => []
  | c :: cs => Tree.enc c ++ Tree.encList cs
end

mutual
/-- Types legal and sizes representable. -/
def Tree.WF : Tree → Prop
  | .leaf t v => 1 ≤ t ∧ t ≤ 2 ^ 32 - 1 ∧ v.length < 2 ^ 64
  | .node t cs => 1 ≤ t ∧ t ≤ 2 ^ 32 - 1 ∧ (Tree.encList cs).length < 2 ^ 64 ∧ Tree.WFList cs
def Tree.WFList : List Tree → Prop
  | [] => True
  | c :: cs => Tree.WF c ∧ Tree.WFList cs
end

mutual
/-- The decoded block `r` is the tree `t`: same type; for a leaf the same value; for a node the
value parses, and its elements are, in order, the children. -/
def Tree.Is : Tree → Raw → Prop
  | .leaf t v, r => r.type = t ∧ r.value = v
  | .node t cs, r => r.type = t ∧ ∃ rs, parseElements r.value = some rs ∧ Tree.IsList cs rs
def Tree.IsList : List Tree → List Raw → Prop
  | [], rs => rs = []
  | c :: cs, rs => ∃ r rs', rs = r :: rs' ∧ Tree.Is c r ∧ Tree.IsList cs rs'
end

end Ndn.Block.Spec
