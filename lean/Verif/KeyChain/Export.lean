import Verif.KeyChain.Model
/-
Model of `KeyChain::exportSafeBag` and of what it uses of `Tpm`.
-/
namespace Ndn.KeyChain
open Ndn.Name Ndn.Tlv Ndn.Block Ndn.Packet Ndn.Pib

variable {σ K : Type}

/-- `Tpm::exportPrivateKey`, tpm.cpp 94-98, `BackEnd::exportKey`, back-end.cpp 84-91, `BackEndMem::doExportKey`,
back-end-mem.cpp 105-111. `save` is `PrivateKey::savePkcs8` with a password, `none` is `PrivateKey::Error`. -/
def tpmExport (save : K → Bytes → Option Bytes) (n : PName) (pw : Bytes) : KM σ K Bytes := fun s =>
  match get n s.tpm.keys with
  | none => (.error .tpm, s)
  | some none => (.error .ub, s)
  | some (some k) => match save k pw with
    | none => (.error .crypto, s)
    | some enc => (.ok enc, s)

/-- `KeyChain::exportSafeBag`, key-chain.cpp 316-330; the bag is the certificate and the encrypted key. -/
def exportSafeBag (save : K → Bytes → Option Bytes) (c : Crt) (pw : Bytes) : KM σ K (Crt × Bytes) := do
  let enc ← rethrowTpm (tpmExport save c.keyName pw)
  pure (c, enc)

end Ndn.KeyChain
