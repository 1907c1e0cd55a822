import Verif.Secure.Model
import Verif.Bag.Model
import Verif.Cert.Model
/-
Model of a receiver of certificates.
-/
namespace Ndn.Secure
open Ndn.Name Ndn.Block Ndn.Packet Ndn.Verify Ndn.KeyChain Ndn.Bag

variable {K : Type}

/-- `getValidityPeriod`, certificate.cpp 89-93, and signature-info.cpp 202-209; `none`: an exception. `other` is what Boost.Date_Time
makes of texts in other formats. -/
def validityOf (other : Bytes → Cert.Parsed) (d : DObj) : Option Cert.Validity :=
  match findOther 253 d.f.sigInfo.others with
  | none => none
  | some b =>
    match Cert.Validity.default.wireDecode other b with
    | (.ok, v) => some v
    | _ => none

/-- `isValid`, certificate.cpp 95-99; `none`: an exception or a signed overflow. -/
def certValid (other : Bytes → Cert.Parsed) (d : DObj) (now : Int) : Option Bool :=
  (validityOf other d).bind (·.isValid now)

/-- `getPublicKey`, certificate.hpp 117-121. -/
def publicKeyOf (d : DObj) : Bytes := (d.f.content.map Raw.value).getD []

/-- `Certificate(Block(w))`, certificate.cpp 60-63; `none`: an exception. -/
def receiveCert (w : Bytes) : Option DObj :=
  match fromBuffer w with
  | some (b, []) => certOfBlock b
  | _ => none

/-- The key in the call of `PublicKey::loadPkcs8`, verification-helpers.cpp 177-187, 226-228; `none`: an exception. -/
def loadKey (C : Crypto K) (bits : Bytes) : Option Ndn.Pipe.VKey := (C.keyType bits).map fun _ => .pub (C.verify bits)

/-- A receiver who knows the public key of the issuer: `verifySignature(cert, anchor)`, `cert.isValid(now)` and then
`verifySignature(data, cert)`, as the validator does with a chain of one certificate: validator.cpp 86, validation-state.cpp 52-69 and 92-104.
The policy is not modelled here. -/
def trusts (C : Crypto K) (other : Bytes → Cert.Parsed) (anchor : Bytes) (now : Int) (cw dw : Bytes) : Bool :=
  match receiveCert cw with
  | none => false
  | some c =>
    decide (checkData (verify (loadKey C anchor)) cw = some true) && decide (certValid other c now = some true) &&
      decide (checkData (verifyCert C.sha (some (loadKey C (publicKeyOf c)))) dw = some true)

end Ndn.Secure
