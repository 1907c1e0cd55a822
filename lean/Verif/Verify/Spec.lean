import Verif.Verify.Model
import Verif.Packet.Spec
import Verif.Interest.Spec
/-
The parts of a signed packet, as the packet format has them.
-/
namespace Ndn.Verify.Spec
open Ndn.Block Ndn.Block.Spec Ndn.Packet Ndn.Packet.Spec Ndn.Interest

/-- `w` is a Data packet with the members `f`; `signed` are its octets from the name up to the signature value, whose content is
`sig`. -/
def DataParts (w : Bytes) (f : DFields) (signed sig : Bytes) : Prop :=
  ∃ v n rest sv post, TlvForm w 6 v ∧ dataDecode ⟨6, w, v⟩ = some f ∧ ReadsAs v (n :: rest ++ sv :: post) ∧
    n.type = 7 ∧ (∀ e ∈ rest, e.type ≠ 23) ∧ sv.type = 23 ∧ signed = ((n :: rest).map Raw.wire).flatten ∧ sig = sv.value

/-- `w` is an Interest with the members `f`, signed as specified today: `signed` are the octets of the components of its name up
to the parameters digest, which is the last one, and of the elements from the parameters up to the first signature value, whose
content is `sig`. The first signature information element among the parameters says `info`. Unused elements (a hop limit or second parameters) just before the signature value do not count. -/
def InterestParts (H : Bytes → Bytes) (auto : Bool) (w : Bytes) (f : IFields) (info : SigInfo) (signed sig : Bytes) : Prop :=
  ∃ v n cs c pre p mid skip sv post, TlvForm w 5 v ∧ interestDecode H auto ⟨5, w, v⟩ = some f ∧
    ReadsAs v (n :: (pre ++ p :: (mid ++ (skip ++ sv :: post)))) ∧ ReadsAs n.value (cs ++ [c]) ∧ c.type = 2 ∧
    (∀ e ∈ pre, e.type ≠ 36) ∧ p.type = 36 ∧ (∀ e ∈ mid, e.type ≠ 46) ∧ (∀ e ∈ mid.getLast?, e.type ≠ 34 ∧ e.type ≠ 36) ∧
    (∀ e ∈ skip, e.type = 34 ∨ e.type = 36) ∧ sv.type = 46 ∧
    (∃ e es, f.params.find? (fun e => e.type = 44) = some e ∧ ReadsAs e.value es ∧ SigGrammar es info) ∧
    signed = ((cs ++ p :: mid).map Raw.wire).flatten ∧ sig = sv.value

/-- `w` is an Interest with the members `f`, signed in the old way: the last two components of the name contain a signature
information element and another element, whose content is `sig`; `signed` are the octets of all components but the last. -/
def OldParts (H : Bytes → Bytes) (auto : Bool) (w : Bytes) (f : IFields) (info : SigInfo) (signed sig : Bytes) : Prop :=
  ∃ (v : Bytes) (n : Raw) (rest cs : List Raw) (i c : Raw) (ib : Bytes) (t : Nat), TlvForm w 5 v ∧ interestDecode H auto ⟨5, w, v⟩ = some f ∧ ReadsAs v (n :: rest) ∧
    ReadsAs n.value (cs ++ [i, c]) ∧
    TlvForm i.value 22 ib ∧ (∃ es, ReadsAs ib es ∧ SigGrammar es info) ∧ TlvForm c.value t sig ∧
    signed = ((cs ++ [i]).map Raw.wire).flatten

end Ndn.Verify.Spec
