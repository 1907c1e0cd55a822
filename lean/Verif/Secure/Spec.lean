import Verif.Secure.Model
import Verif.KeyChain.HistSpec
import Verif.Verify.NewSignProps
/-
What a receiver makes of packets signed with a key chain.
-/
namespace Ndn.Secure.Spec
open Ndn.Name Ndn.Tlv Ndn.Block Ndn.Packet Ndn.Packet.Spec Ndn.Interest Ndn.Interest.Spec Ndn.Verify Ndn.Verify.Spec Ndn.Pib Ndn.Pib.Spec
  Ndn.KeyChain Ndn.KeyChain.Spec

variable {σ K : Type}

/-- The key chain makes the signature `sig`. -/
def Made (C : Crypto K) (sig : Bytes) : Prop := (∃ x a m, C.sign x a m = some sig) ∨ ∃ m, sig = C.sha m

/-- How a receiver checks a packet: with the public key in the PIB, or with any certificate of the key there. -/
def Keys (C : Crypto K) (v : View) (k : PName) (bits : Bytes) (check : (Parsed → Bool) → Option Bool) : Prop :=
  check (verify (some (.pub (C.verify bits)))) = some true ∧
  ∀ c x, v.cert c = some x → x.keyName = k → check (verifyCert C.sha (some (some (.pub (C.verify x.pub))))) = some true

/-- What a call `sign(Data&, params)` with the result `r` does: its receiver accepts the packet. -/
structure DataAccepted (C : Crypto K) (kw : KWorld K) (d : DObj) (p : SInfo K) (r : Except Err KRes) : Prop where
  key : ∀ k loc bits, Signer kw.pib p k loc → kw.pib.v.key k = some bits → p.alg = .sha256 → Encodable C d (keyInfo C p bits loc) →
    ∃ d' w, r = .ok (.data d') ∧ d'.wire = some w ∧ Keys C kw.pib.v k bits (checkData · w)
  digest : Digest kw.pib p → Encodable C d (digestInfo p) →
    ∃ d' w, r = .ok (.data d') ∧ d'.wire = some w ∧ checkData (verifyCert C.sha none) w = some true
  /-- a receiver with the HMAC key -/
  hmac : p.type = .hmac → p.name ≠ digestIdentity → ∀ x mac, (kw.priv p.name).getD p.hmac = some x → (∀ m, C.sign x p.alg m = some (mac m)) →
    Encodable C d (hmacInfo p) → ∃ d' w, r = .ok (.data d') ∧ d'.wire = some w ∧ checkData (verify (some (.hmac mac))) w = some true

/-- An Interest that can be signed in the new format: it is not signed yet, its name has no digest but the last component if it
has parameters, and it can be encoded with any signature that is made. -/
structure Signable (C : Crypto K) (f : IFields) (base : List Comp) (si : SigInfo) (rnd : Bytes) : Prop where
  wf : InterestWF C.sha { f with nonce := some (f.nonce.getD rnd) }
  name : NameWithout f base
  unsigned : ∀ e ∈ f.params, e.type ≠ 44 ∧ e.type ≠ 46
  info : SigWF si
  size : ∀ sig, Made C sig → (withSignature C.sha f base si rnd sig).encode.length < 2 ^ 64

/-- The Interest with a signature in the old format, in its name. -/
def oldSigned (f : IFields) (ib sig : Bytes) : IFields := { f with name := f.name ++ [⟨8, ib⟩, ⟨8, tlvBytes 23 sig⟩] }

/-- An Interest that can be signed in the old format. -/
structure SignableOld (C : Crypto K) (f : IFields) (si : SigInfo) : Prop where
  wf : InterestWF C.sha f
  unsigned : ∀ e ∈ f.params, e.type ≠ 44
  info : SigWF si
  size : ∀ ib sig, si.encode 22 = some ib → Made C sig → (oldSigned f ib sig).encode.length < 2 ^ 64

/-- The Interest `f` is signed in one of the formats: the rest of it stays. -/
def SignedInterest (C : Crypto K) (new : Bool) (f : IFields) (base : List Comp) (si : SigInfo) (rnd : Bytes) (f' : IFields) : Prop :=
  match new with
  | true => ∃ sig, f' = withSignature C.sha f base si rnd sig
  | false => ∃ ib sig, si.encode 22 = some ib ∧ f' = oldSigned f ib sig

def Can (C : Crypto K) (new : Bool) (f : IFields) (base : List Comp) (si : SigInfo) (rnd : Bytes) : Prop :=
  match new with
  | true => Signable C f base si rnd
  | false => SignableOld C f si

/-- What signing Interests with the key chain in the state `s`, which stores `kw`, does: the receiver accepts the Interest. -/
structure InterestsAccepted (C : Crypto K) (b : Backend σ) (auto : Bool) (kw : KWorld K) (s : St σ K) : Prop where
  key : ∀ (new : Bool) f wire base rnd p k loc bits, Signer kw.pib p k loc → kw.pib.v.key k = some bits → p.alg = .sha256 →
    Can C new f base (keyInfo C p bits loc) rnd →
    ∃ f' s', signInterest C b auto new ⟨f, wire⟩ p rnd s = (.ok ⟨f', none⟩, s') ∧ Stores b kw s' ∧
      SignedInterest C new f base (keyInfo C p bits loc) rnd f' ∧ Keys C kw.pib.v k bits (checkInterest C.sha auto · f'.encode)
  digest : ∀ (new : Bool) f wire base rnd p, Digest kw.pib p → Can C new f base (digestInfo p) rnd →
    ∃ f' s', signInterest C b auto new ⟨f, wire⟩ p rnd s = (.ok ⟨f', none⟩, s') ∧ Stores b kw s' ∧
      SignedInterest C new f base (digestInfo p) rnd f' ∧ checkInterest C.sha auto (verifyCert C.sha none) f'.encode = some true
  hmac : ∀ (new : Bool) f wire base rnd p, p.type = .hmac → p.name ≠ digestIdentity → ∀ x mac, (kw.priv p.name).getD p.hmac = some x →
    (∀ m, C.sign x p.alg m = some (mac m)) → Can C new f base (hmacInfo p) rnd →
    ∃ f' s', signInterest C b auto new ⟨f, wire⟩ p rnd s = (.ok ⟨f', none⟩, s') ∧ Answers b s'.pib.db kw.pib.v ∧
      SignedInterest C new f base (hmacInfo p) rnd f' ∧ checkInterest C.sha auto (verify (some (.hmac mac))) f'.encode = some true
  /-- there is no such key -/
  none : ∀ (new : Bool) o rnd p, (∀ k loc, ¬ Signer kw.pib p k loc) → ¬ Digest kw.pib p → p.type ≠ .hmac →
    ∃ e s', signInterest C b auto new o p rnd s = (.error e, s') ∧ (e = .signing ∨ e = .invalid) ∧ Stores b kw s'

end Ndn.Secure.Spec
