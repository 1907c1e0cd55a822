import Verif.Verify.Model
/-
Model of `KeyChain::sign(Interest&)` for the old format of signed Interests.
-/
namespace Ndn.Verify
open Ndn.Name Ndn.Block Ndn.Packet Ndn.Interest

/-- The components of a name as octets: `Name::wireEncode().value_bytes()`. -/
def compOctets (n : List Comp) : Bytes := (n.map Comp.encode).flatten

/-- `KeyChain::sign(Interest&, params)` with `SignedInterestFormat::V02`, key-chain.cpp 425-438: `s` is the signature information
that `prepareSignatureInfo` returned, `sign` the signature with the key. `none`: exception. Both blocks are appended as octets of
generic components (name.hpp 340-343). -/
def signOld (H : Bytes → Bytes) (auto : Bool) (o : IObj) (s : SObj) (sign : Bytes → Bytes) : Option IObj :=
  match s.wireEncode 22 with
  | none => none
  | some (_, ib) =>
    let n1 := o.f.name ++ [⟨8, ib.wire⟩]
    let n2 := n1 ++ [⟨8, tlvBytes 23 (sign (compOctets n1))⟩]
    match o.step H auto (.setName n2) with
    | (true, o) => some o
    | (false, _) => none

end Ndn.Verify
