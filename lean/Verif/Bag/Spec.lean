import Verif.Bag.Model
import Verif.Packet.Spec
namespace Ndn.Bag.Spec
open Ndn.Tlv Ndn.Block Ndn.Name Ndn.Packet Ndn.Packet.Spec

/-- The elements of an AdditionalDescription and the pairs of key and value they list, in order: a DescriptionEntry (512)
holds exactly a DescriptionKey (513) and a DescriptionValue (514); elements that may be ignored are. -/
inductive Listed : List Raw → List (Bytes × Bytes) → Prop
  | nil : Listed [] []
  | entry {e k v : Raw} {es : List Raw} {l : List (Bytes × Bytes)} : e.type = 512 → Block.Spec.ReadsAs e.value [k, v] →
      k.type = 513 → v.type = 514 → Listed es l → Listed (e :: es) ((k.value, v.value) :: l)
  | skip {e : Raw} {es : List Raw} {l : List (Bytes × Bytes)} : e.type ≠ 512 → Ignorable e → Listed es l → Listed (e :: es) l

/-- The value a list of pairs gives to a key: that of its last pair with this key. -/
def lastFor (k : Bytes) (l : List (Bytes × Bytes)) : Option Bytes := (l.reverse.find? (fun e => e.1 = k)).map (·.2)

/-- Iteration: the keys come in strictly increasing order. -/
def Ordered (l : List (Bytes × Bytes)) : Prop := l.Pairwise (fun a b => Net.strLt a.1 b.1 = true)

end Ndn.Bag.Spec
