import Verif.Secure.CertModel
import Verif.Secure.Spec
import Verif.Cert.Spec
import Verif.Bag.Props
/-
What a certificate made with a key chain means to its receivers.
-/
namespace Ndn.Secure.Spec
open Ndn.Name Ndn.Tlv Ndn.Block Ndn.Packet Ndn.Verify Ndn.Pib Ndn.Pib.Spec Ndn.KeyChain Ndn.KeyChain.Spec

variable {σ K : Type}

/-- The element `b` is a validity period from the second `nb` to the second `na`. -/
def IsPeriod (b : Raw) (nb na : Int) : Prop :=
  Cert.Spec.Representable nb ∧ Cert.Spec.Representable na ∧ Ndn.Block.fromBuffer (Cert.Validity.wireEncode ⟨nb, na, none⟩).1 = some (b, [])

/-- At the instant `now`, in nanoseconds, the period has begun and is not over. -/
def Within (nb na now : Int) : Prop := nb * 1000000000 ≤ now ∧ now ≤ na * 1000000000

instance (nb na now : Int) : Decidable (Within nb na now) := by unfold Within; infer_instance

/-- The octets `w` are a certificate for the public key `pub`, named after the key `n` as the options ask for, valid from `nb` to
`na`, which the public key `issuer` verifies. With it, a receiver who knows the public key of the issuer accepts exactly the packets
which `pub` verifies, as long as the period lasts. -/
structure Vouches (C : Crypto K) (n : PName) (pub : Bytes) (o : CertOpts) (nb na : Int) (issuer w : Bytes) : Prop where
  received : ∀ other, ∃ c, receiveCert w = some c ∧ publicKeyOf c = pub ∧
    c.f.name = n ++ [o.issuer, ⟨54, writeNonNegativeInteger o.version⟩] ∧
    Bag.extractKeyName c.f.name = some n ∧ Bag.issuerIdOf c.f.name = some o.issuer ∧
    (∀ i id, n = i ++ [⟨8, [75, 69, 89]⟩, id] → Bag.extractIdentity c.f.name = some i ∧ Bag.keyIdOf c.f.name = some id) ∧
    (∃ v, validityOf other c = some v ∧ v.notBefore = nb ∧ v.notAfter = na) ∧
    ∀ now, ∃ ok, certValid other c now = some ok ∧ (ok = true ↔ Within nb na now)
  verifies : checkData (verify (loadKey C issuer)) w = some true
  chain : ∀ other now dw, trusts C other issuer now w dw = true ↔ Within nb na now ∧ checkData (verify (loadKey C pub)) dw = some true

/-- The fields `f` are those of a certificate with the public key `pub`: a name for it, content type Key, a freshness period, and
in the SignatureInfo, as the first element of type 253, a period that is read as from `nb` to `na`. -/
def CertFields (other : Bytes → Cert.Parsed) (f : DFields) (pub : Bytes) (nb na : Int) : Prop :=
  (∃ i k s v, Bag.CertNamed f.name i k s v) ∧ f.minfo.type = 2 ∧ 0 < f.minfo.getFreshness ∧ pub = (f.content.map Raw.value).getD [] ∧
  ∃ pre b post x y, f.sigInfo.others = pre ++ b :: post ∧ (∀ e ∈ pre, e.type ≠ 253) ∧ b.type = 253 ∧ Ndn.Block.Spec.ReadsAs b.value [x, y] ∧
    x.type = 254 ∧ x.value.length = 15 ∧ y.type = 255 ∧ y.value.length = 15 ∧
    Cert.decodeTime other x.value = (.ok, nb) ∧ Cert.decodeTime other y.value = (.ok, na)

/-- A call that makes a certificate named after the key `n` for the public key `pub` has the result `r`. -/
def Issues (C : Crypto K) (kw : KWorld K) (n : PName) (pub : Bytes) (p : SInfo K) (o : CertOpts) (r : Except Err KRes) : Prop :=
  ∀ nb na k loc bits, IsPeriod o.validity nb na → 0 < o.freshness → Signer kw.pib p k loc → kw.pib.v.key k = some bits → p.alg = .sha256 →
    Encodable C (.reset (certFields n pub o)) (keyInfo C { p with info := (SObj.addCustom ⟨none, p.info⟩ o.validity).s } bits loc) →
    ∃ d w, r = .ok (.data d) ∧ d.wire = some w ∧ Vouches C n pub o nb na bits w

/-- The calls of both `makeCertificate`, for a key of the PIB and for a request. -/
def IssueCalls (C : Crypto K) (kw : KWorld K) (op : KOp K) (r : Except Err KRes) : Prop :=
  (∀ h p o k bits, op = .makeCert h p o → kw.pib.hs h = .alive (.key k) → kw.pib.v.key k = some bits → Issues C kw k bits p o r) ∧
  (∀ req p o k, op = .makeCertFor req p o → (C.keyType req.pub).isSome → CertName k req.name → Issues C kw k req.pub p o r)

end Ndn.Secure.Spec
