import Verif.KeyChain.Model
import Verif.Interest.Model
import Verif.Verify.SignModel
/-
Model of `KeyChain::sign(Interest&, params)` with the PIB and the TPM.
-/
namespace Ndn.Secure
open Ndn.Name Ndn.Block Ndn.Packet Ndn.Interest Ndn.Verify Ndn.Pib Ndn.KeyChain

variable {σ K : Type}

/-- `KeyChain::sign(Interest&, params)` after `prepareSignatureInfo`, key-chain.cpp 417-439: `n` is the name of the key, `si` the
signature information. `new`: the format asked for is V03, not V02, the default (signing-info.hpp 36-44, signing-info.cpp 52).
`rnd` is the nonce made if there is none. The exceptions of the encoder are one here. -/
def signPrepared (C : Crypto K) (auto new : Bool) (o : IObj) (n : PName) (si : SigInfo) (a : Alg) (rnd : Bytes) : KM σ K IObj :=
  if new then
    match o.setSigInfo C.sha ⟨none, si⟩ with
    | (false, _) => raise .encode
    | (true, o) =>
      match o.extractSignedRanges C.sha auto rnd with
      | (_, none) => raise .encode
      | (o, some (r1, r2)) => do
        let sig ← rawSign C (r1 ++ r2) n a
        match o.setSigValue C.sha sig with
        | (false, _) => raise .encode
        | (true, o) => pure o
  else
    match SObj.wireEncode ⟨none, si⟩ 22 with
    | none => raise .encode
    | some (_, ib) => do
      let n1 := o.f.name ++ [⟨8, ib.wire⟩]
      let sig ← rawSign C (compOctets n1) n a
      match o.step C.sha auto (.setName (n1 ++ [⟨8, tlvBytes 23 sig⟩])) with
      | (false, _) => raise .encode
      | (true, o) => pure o

/-- `KeyChain::sign(Interest&, params)`, key-chain.cpp 412-440. -/
def signInterest (C : Crypto K) (b : Backend σ) (auto new : Bool) (o : IObj) (p : SInfo K) (rnd : Bytes) : KM σ K IObj := do
  let (n, si) ← prepare C b p
  signPrepared C auto new o n si p.alg rnd

end Ndn.Secure
