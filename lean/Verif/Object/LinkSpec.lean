import Verif.Object.Link
import Verif.Packet.Spec

/-! What a Link packet contains (packet format 0.3, LinkContent). -/

namespace Ndn.Object.Spec
open Ndn.Block Ndn.Block.Spec Ndn.Name Ndn.Packet Ndn.Packet.Spec Ndn.Object

/-- The element is this name. -/
def NameIs (e : Raw) (n : List Comp) : Prop :=
  e.type = 7 ∧ ∃ cs, ReadsAs e.value cs ∧ n = cs.map fun r => (⟨r.type, r.value⟩ : Comp)

/-- The elements of the content are these delegations, in this order, possibly with unrecognised
elements that are not critical in between. -/
def LinkContent : List Raw → List (List Comp) → Prop
  | [], ds => ds = []
  | e :: es, ds =>
    (∃ n rest, NameIs e n ∧ ds = n :: rest ∧ LinkContent es rest) ∨
    (e.type ≠ 7 ∧ Ignorable e ∧ LinkContent es ds)

/-- The Data packet with these fields is a Link with these delegations. -/
def IsLink (f : DFields) (ds : List (List Comp)) : Prop :=
  f.minfo.type = 1 ∧ ∃ es, LinkContent es ds ∧
    match f.content with
    | none => es = []
    | some c => ReadsAs c.value es

/-- Names that can be encoded, as a list. -/
def DelsWF (ds : List (List Comp)) : Prop :=
  (∀ n ∈ ds, NameWF n) ∧ ((ds.map encodeComps).flatten).length < 2 ^ 64

/-- Calls of the base class that do not touch the content or its type. -/
def neutral : DOp → Bool
  | .setContent _ => false
  | .setContentBlock _ => false
  | .unsetContent => false
  | .setContentType _ => false
  | .setMetaInfo _ => false
  | .wireDecode _ => false
  | _ => true

end Ndn.Object.Spec
