import Verif.Pib.Front
import Verif.Packet.Model
import Verif.Name.Model
/-
Model of `KeyChain` (security/key-chain.{hpp,cpp}), of `Tpm` with a back end that keeps a map from names to private
keys (security/tpm/{tpm,back-end}.cpp, security/tpm/impl/back-end-mem.cpp) and of `SigningInfo`
(security/signing-info.{hpp,cpp}), on top of the model of the PIB (`Verif.Pib.Front`).

Simplifications:
* The cryptographic operations are parameters (`Crypto`).
* What a call takes from outside (generated keys, random numbers, the time) are arguments of the call.
* Identity and key handles are the numbers of `Verif.Pib.Front`.
* Locators, `exportSafeBag` and the registries of back ends are not modelled. The version component of a certificate
  name is the one of the typed naming convention, which is the default.
-/
namespace Ndn.KeyChain
open Ndn.Name Ndn.Tlv Ndn.Block Ndn.Packet Ndn.Pib

/-- `KeyType`, security-common.hpp 106-112; no kind of key that signs is left out. -/
inductive KType where
  | rsa | ec | hmac
  deriving DecidableEq, Repr

/-- `DigestAlgorithm`, security-common.hpp 117-130, as far as it matters here. -/
inductive Alg where
  | sha256 | other (n : Nat)
  deriving DecidableEq, Repr

/-- The cryptographic operations. -/
structure Crypto (K : Type) where
  /-- `PrivateKey::getKeyType() == KeyType::HMAC` -/
  isHmac : K → Bool
  /-- `PrivateKey::derivePublicKey`; `none`: `PrivateKey::Error`. -/
  pub : K → Option Bytes
  /-- `PrivateKey::getKeyDigest(SHA256)` -/
  keyDigest : K → Bytes
  /-- `PrivateKey::loadPkcs8` with a password; `none`: `PrivateKey::Error`. -/
  load : Bytes → Bytes → Option K
  /-- `signerFilter`; `none`: `transform::Error`. -/
  sign : K → Alg → Bytes → Option Bytes
  /-- `verifySignature(blobs, sig, key)`, verification-helpers.cpp 63-91, which uses SHA-256. -/
  verify : Bytes → Bytes → Bytes → Bool
  /-- `PublicKey::loadPkcs8` and `getKeyType`; `none`: an unsupported or invalid key. -/
  keyType : Bytes → Option KType
  sha : Bytes → Bytes

/-- The exceptions: `KeyChain::Error`, `InvalidSigningInfoError`, `Tpm::Error`, `Pib::Error`, `std::invalid_argument`,
`std::domain_error` (an expired handle), `transform::Error` or `PrivateKey::Error`, `Certificate::Error`, an error of
the packet encoder; then a failed assertion or null pointer, and a loop that still draws random numbers. -/
inductive Err where
  | chain | signing | tpm | pib | invalid | domain | crypto | cert | encode | ub | drawing
  deriving DecidableEq, Repr

/-- `Tpm` with its back end: the private keys stored (`BackEndMem::Impl::keys`, back-end-mem.cpp 35-39) and the handles
kept (`Tpm::m_keys`, tpm.hpp 217). `none` is a null pointer. -/
structure Tpm (K : Type) where
  keys : List (PName × Option K)
  cache : List (PName × K)

def Tpm.init {K : Type} : Tpm K := ⟨[], []⟩

/-- A `KeyChain`, key-chain.hpp 511-512. `trail` is not part of the program: the contents of the two back ends after
each call made on one of them, the last one first. -/
structure St (σ K : Type) where
  pib : Front σ
  tpm : Tpm K
  trail : List (σ × List (PName × Option K))

/-- A function that uses the key chain and may throw. -/
def KM (σ K α : Type) : Type := St σ K → Except Err α × St σ K

variable {σ K : Type}

instance : Monad (KM σ K) where
  pure a := fun s => (.ok a, s)
  bind m f := fun s => match m s with
    | (.ok a, s') => f a s'
    | (.error e, s') => (.error e, s')

def raise {α : Type} (e : Err) : KM σ K α := fun s => (.error e, s)

/-- `try { m } catch (const Pib::Error&) { h }`. -/
def orPib {α : Type} (m h : KM σ K α) : KM σ K α := fun s =>
  match m s with
  | (.error .pib, s') => h s'
  | r => r

/-- `try { m } catch (const Tpm::Error&) { throw Error }`. -/
def rethrowTpm {α : Type} (m : KM σ K α) : KM σ K α := fun s =>
  match m s with
  | (.error .tpm, s') => (.error .chain, s')
  | r => r

/-- `try { m } catch (const transform::Error&) { h }`. -/
def orCrypto {α : Type} (m h : KM σ K α) : KM σ K α := fun s =>
  match m s with
  | (.error .crypto, s') => h s'
  | r => r

def note (s : St σ K) : St σ K := { s with trail := (s.pib.db, s.tpm.keys) :: s.trail }

/-! ## Calls on the PIB -/

def outErr : Out → Option Err
  | .refused => some .pib
  | .invalid => some .invalid
  | .dead => some .domain
  | .ub => some .ub
  | _ => none

/-- A call on the `Pib` or on an identity or key. -/
def pib (b : Backend σ) (op : FOp) : KM σ K Out := fun s =>
  let r := fstep b s.pib op
  let s' := note { s with pib := r.2 }
  match outErr r.1 with
  | some e => (.error e, s')
  | none => (.ok r.1, s')

def pibIdent (b : Backend σ) (op : FOp) : KM σ K Nat := do
  match ← pib b op with
  | .ident h => pure h
  | _ => raise .ub

def pibKey (b : Backend σ) (op : FOp) : KM σ K Nat := do
  match ← pib b op with
  | .key h => pure h
  | _ => raise .ub

def pibNames (b : Backend σ) (op : FOp) : KM σ K (List PName) := do
  match ← pib b op with
  | .names l => pure l
  | _ => raise .ub

def pibBits (b : Backend σ) (op : FOp) : KM σ K Bytes := do
  match ← pib b op with
  | .bits l => pure l
  | _ => raise .ub

def pibCert (b : Backend σ) (op : FOp) : KM σ K Crt := do
  match ← pib b op with
  | .cert c => pure c
  | _ => raise .ub

def pibDone (b : Backend σ) (op : FOp) : KM σ K Unit := do
  let _ ← pib b op
  pure ()

/-- `Identity::operator bool`, identity.cpp 82-85. -/
def identValid (h : Nat) : KM σ K Bool := fun s => (.ok (s.pib.ident? h).isSome, s)

/-- `Key::operator bool`, key.cpp 101-104. -/
def keyValid (h : Nat) : KM σ K Bool := fun s => (.ok (s.pib.key? h).isSome, s)

/-! ## The TPM -/

/-- `Tpm::hasKey`, tpm.cpp 38-42. -/
def tpmHas (n : PName) : KM σ K Bool := fun s => (.ok (get n s.tpm.keys).isSome, s)

/-- `m_impl->keys[keyName] = key`. -/
def tpmPut (n : PName) (k : Option K) : KM σ K Unit := fun s =>
  (.ok (), note { s with tpm := { s.tpm with keys := put n k s.tpm.keys } })

/-- `m_keys[keyName] = handle`. -/
def tpmKeep (n : PName) (k : K) : KM σ K Unit := fun s =>
  (.ok (), { s with tpm := { s.tpm with cache := put n k s.tpm.cache } })

/-- `constructKeyName`, key.cpp 125-131. -/
def keyNameOf (identity : PName) (id : Comp) : PName := identity ++ [keyComp, id]

/-- `KeyParams`: the key type is that of the key generated; `user`: `KeyIdType::USER_SPECIFIED`. -/
inductive KeyId where
  | user (id : Comp) | sha256 | random
  deriving DecidableEq, Repr

/-- The loop of `constructAsymmetricKeyName`, back-end.cpp 127-134, over the numbers drawn. -/
def drawName (identity : PName) : List Nat → KM σ K PName
  | [] => raise .drawing
  | n :: ns => do
    let name := keyNameOf identity ⟨8, writeNonNegativeInteger n⟩
    if ← tpmHas name then drawName identity ns else pure name

/-- `constructAsymmetricKeyName`, back-end.cpp 111-139, and `constructHmacKeyName`, 141-146: `gen` is the key
generated. -/
def constructName (C : Crypto K) (identity : PName) (id : KeyId) (gen : K) (rnd : List Nat) : KM σ K PName :=
  if C.isHmac gen then pure (identity ++ [⟨8, C.keyDigest gen⟩])
  else match id with
    | .user c => pure (keyNameOf identity c)
    | .sha256 => match C.pub gen with
      | none => raise .crypto
      | some p => pure (keyNameOf identity ⟨8, C.sha p⟩)
    | .random => drawName identity rnd

/-- `BackEndMem::doCreateKey`, back-end-mem.cpp 70-97. -/
def doCreateKey (C : Crypto K) (identity : PName) (id : KeyId) (gen : K) (rnd : List Nat) : KM σ K PName := do
  let name ← constructName C identity id gen rnd
  tpmPut name (some gen)
  pure name

/-- `BackEnd::createKey`, back-end.cpp 50-76. -/
def backCreateKey (C : Crypto K) (identity : PName) (id : KeyId) (gen : K) (rnd : List Nat) : KM σ K PName := do
  if C.isHmac gen then doCreateKey C identity id gen rnd
  else match id with
    | .user c => do
      if ← tpmHas (keyNameOf identity c) then raise .tpm else doCreateKey C identity id gen rnd
    | _ => doCreateKey C identity id gen rnd

/-- `Tpm::createKey`, tpm.cpp 44-51. -/
def tpmCreateKey (C : Crypto K) (identity : PName) (id : KeyId) (gen : K) (rnd : List Nat) : KM σ K PName := do
  let name ← backCreateKey C identity id gen rnd
  tpmKeep name gen
  pure name

/-- `Tpm::deleteKey`, tpm.cpp 53-60. -/
def tpmDelete (n : PName) : KM σ K Unit := fun s =>
  (.ok (), note { s with tpm := ⟨del n s.tpm.keys, del n s.tpm.cache⟩ })

/-- `Tpm::findKey`, tpm.cpp 112-125, and `BackEndMem::doGetKeyHandle`, back-end-mem.cpp 61-68; a handle for a null
pointer fails the assertion in key-handle-mem.cpp 33-37. -/
def tpmFind (n : PName) : KM σ K (Option K) := fun s =>
  match get n s.tpm.cache with
  | some k => (.ok (some k), s)
  | none => match get n s.tpm.keys with
    | none => (.ok none, s)
    | some none => (.error .ub, s)
    | some (some k) => (.ok (some k), { s with tpm := { s.tpm with cache := put n k s.tpm.cache } })

/-- `Tpm::getPublicKey`, tpm.cpp 62-67. -/
def tpmPublicKey (C : Crypto K) (n : PName) : KM σ K (Option Bytes) := do
  match ← tpmFind n with
  | none => pure none
  | some k => match C.pub k with
    | none => raise .crypto
    | some p => pure (some p)

/-- `Tpm::sign`, tpm.cpp 69-74. -/
def tpmSign (C : Crypto K) (m : Bytes) (n : PName) (a : Alg) : KM σ K (Option Bytes) := do
  match ← tpmFind n with
  | none => pure none
  | some k => match C.sign k a m with
    | none => raise .crypto
    | some s => pure (some s)

/-- `BackEnd::importKey`, back-end.cpp 102-109, with `Tpm::importPrivateKey`, tpm.cpp 106-110. -/
def tpmImport (n : PName) (k : Option K) : KM σ K Unit := do
  if ← tpmHas n then raise .tpm else tpmPut n k

/-- `BackEnd::importKey`, back-end.cpp 93-100, `BackEndMem::doImportKey`, back-end-mem.cpp 113-130, with
`Tpm::importPrivateKey`, tpm.cpp 100-104. -/
def tpmImportPkcs8 (C : Crypto K) (n : PName) (enc pw : Bytes) : KM σ K Unit := do
  if ← tpmHas n then raise .tpm
  else match C.load enc pw with
    | none => raise .tpm
    | some k => tpmPut n (some k)

/-! ## SigningInfo -/

/-- `SigningInfo::SignerType`, signing-info.hpp 60-73. -/
inductive SType where
  | null | ident | key | cert | sha256 | hmac
  deriving DecidableEq, Repr

/-- `SigningInfo`, signing-info.hpp 306-313. `none` for `ident`, `key` and `hmac`: a default-constructed handle, a null
pointer. -/
structure SInfo (K : Type) where
  type : SType
  name : PName
  ident : Option Nat
  key : Option Nat
  hmac : Option K
  alg : Alg
  info : SigInfo
  v03 : Bool

/-- `getDigestSha256Identity`, signing-info.cpp 31-36: /localhost/identity/digest-sha256. -/
def digestIdentity : PName :=
  [⟨8, [108, 111, 99, 97, 108, 104, 111, 115, 116]⟩, ⟨8, [105, 100, 101, 110, 116, 105, 116, 121]⟩,
    ⟨8, [100, 105, 103, 101, 115, 116, 45, 115, 104, 97, 50, 53, 54]⟩]

/-- `getHmacIdentity`, signing-info.cpp 38-43: /localhost/identity/hmac. -/
def hmacIdentity : PName :=
  [⟨8, [108, 111, 99, 97, 108, 104, 111, 115, 116]⟩, ⟨8, [105, 100, 101, 110, 116, 105, 116, 121]⟩, ⟨8, [104, 109, 97, 99]⟩]

namespace SInfo

/-- `SigningInfo(signerType, signerName, signatureInfo)`, signing-info.cpp 45-55. -/
def make (type : SType) (name : PName) (info : SigInfo) : SInfo K := ⟨type, name, none, none, none, .sha256, info, false⟩

def init : SInfo K := make .null [] SigInfo.init

/-- `setSigningIdentity`, signing-info.cpp 107-114. -/
def setSigningIdentity (p : SInfo K) (n : PName) : SInfo K := { p with type := .ident, name := n, ident := none }
/-- `setSigningKeyName`, 116-123. -/
def setSigningKeyName (p : SInfo K) (n : PName) : SInfo K := { p with type := .key, name := n, key := none }
/-- `setSigningCertName`, 125-131. -/
def setSigningCertName (p : SInfo K) (n : PName) : SInfo K := { p with type := .cert, name := n }
/-- `setSha256Signing`, 152-158. -/
def setSha256Signing (p : SInfo K) : SInfo K := { p with type := .sha256, name := [] }
/-- `setSigningHmacKey`, 133-150, after the key `k` has been read from the text. -/
def setSigningHmac (C : Crypto K) (p : SInfo K) (k : K) : SInfo K :=
  { p with type := .hmac, hmac := some k, name := hmacIdentity ++ [⟨8, C.keyDigest k⟩] }
/-- `setPibIdentity`, 160-167: `n` is the name of the identity if the handle is valid. -/
def setPibIdentity (p : SInfo K) (h : Option Nat) (n : Option PName) : SInfo K :=
  { p with type := .ident, name := n.getD [], ident := h }
/-- `setPibKey`, 169-176. -/
def setPibKey (p : SInfo K) (h : Option Nat) (n : Option PName) : SInfo K :=
  { p with type := .key, name := n.getD [], key := h }

end SInfo

/-! ## Signing -/

/-- `KeyChain::getSignatureType`, key-chain.cpp 767-780; the digest algorithm is not used. -/
def signatureType : Option KType → KM σ K Nat
  | some .rsa => pure 1
  | some .ec => pure 3
  | some .hmac => pure 4
  | none => raise .chain

/-- `prepareSignatureInfoSha256`, key-chain.cpp 681-689. -/
def prepareSha256 (p : SInfo K) : KM σ K (PName × SigInfo) :=
  pure (digestIdentity, { p.info with type := some 0 })

/-- `prepareSignatureInfoHmac`, key-chain.cpp 691-705. -/
def prepareHmac (p : SInfo K) : KM σ K (PName × SigInfo) := do
  if ← tpmHas p.name then pure () else tpmImport p.name p.hmac
  let t ← signatureType (some .hmac)
  pure (p.name, { p.info with type := some t, keyLocator := some (.name p.name) })

/-- `prepareSignatureInfoWithKey`, key-chain.cpp 721-744. -/
def prepareKey (C : Crypto K) (b : Backend σ) (p : SInfo K) (h : Nat) (cert : Option PName) : KM σ K (PName × SigInfo) := do
  let bits ← pibBits b (.keyBits h)
  let t ← signatureType (C.keyType bits)
  let name ← pibNames b (.keyName h)
  let name := name.headD []
  match p.info.keyLocator with
  | some _ => pure (name, { p.info with type := some t })
  | none =>
    let kl ← match cert with
      | some c => pure c
      | none => orPib (do let c ← pibCert b (.getDefaultCert h); pure c.name) (pure name)
    pure (name, { p.info with type := some t, keyLocator := some (.name kl) })

/-- `prepareSignatureInfoWithIdentity`, key-chain.cpp 707-719. -/
def prepareIdent (C : Crypto K) (b : Backend σ) (p : SInfo K) (h : Nat) : KM σ K (PName × SigInfo) := do
  let k ← orPib (pibKey b (.getDefaultKey h)) (raise .signing)
  prepareKey C b p k none

/-- A handle that is given and valid. -/
def usable (valid : Nat → KM σ K Bool) : Option Nat → KM σ K (Option Nat)
  | none => pure none
  | some h => do if ← valid h then pure (some h) else pure none

/-- `prepareSignatureInfo`, key-chain.cpp 607-679. -/
def prepare (C : Crypto K) (b : Backend σ) (p : SInfo K) : KM σ K (PName × SigInfo) :=
  match p.type with
  | .null => do
    match ← orPib (do let h ← pibIdent b .getDefaultIdentity; pure (some h)) (pure none) with
    | none => prepareSha256 p
    | some h => prepareIdent C b p h
  | .ident => do
    let h ← match ← usable identValid p.ident with
      | some h => pure h
      | none => orPib (pibIdent b (.getIdentity p.name)) (raise .signing)
    prepareIdent C b p h
  | .key => do
    let h ← match ← usable keyValid p.key with
      | some h => pure h
      | none => match identityOf p.name with
        | none => raise .invalid
        | some i => orPib (do let h ← pibIdent b (.getIdentity i); pibKey b (.getKey h p.name)) (raise .signing)
    prepareKey C b p h none
  | .cert =>
    match keyOf p.name with
    | none => raise .invalid
    | some k => match identityOf k with
      | none => raise .invalid
      | some i => do
        let h ← orPib (do let h ← pibIdent b (.getIdentity i); pibKey b (.getKey h k)) (raise .signing)
        prepareKey C b p h (some p.name)
  | .sha256 => prepareSha256 p
  | .hmac => prepareHmac p

/-- `KeyChain::sign(bufs, keyName, digestAlgorithm)`, key-chain.cpp 746-765. -/
def rawSign (C : Crypto K) (m : Bytes) (n : PName) (a : Alg) : KM σ K Bytes := do
  if n = digestIdentity then pure (C.sha m)
  else match ← tpmSign C m n a with
    | none => raise .signing
    | some s => pure s

/-- `KeyChain::sign(data, params)`, key-chain.cpp 399-410. -/
def signData (C : Crypto K) (b : Backend σ) (d : DObj) (p : SInfo K) : KM σ K DObj := do
  let (n, si) ← prepare C b p
  let d := DObj.reset { d.f with sigInfo := si }
  match d.f.encodeUnsigned with
  | none => raise .encode
  | some u => do
    let sig ← rawSign C u n p.alg
    match d.finish u sig with
    | (d', some _) => pure d'
    | (_, none) => raise .encode

/-- `MakeCertificateOptions`, key-chain.hpp 41-76; the validity period is given as its element. -/
structure CertOpts where
  issuer : Comp
  version : Nat
  freshness : Int
  validity : Raw

/-- `Certificate(data)`, certificate.cpp 41-53, as the PIB knows it; the rest of the certificate is its encoding. -/
def toCert (d : DObj) : Option Crt :=
  if validCert d.f.name && decide (d.f.minfo.type = 2) && decide (0 < d.f.minfo.getFreshness) then
    some ⟨d.f.name, (d.f.content.map Raw.value).getD [], d.wire.getD []⟩
  else none

/-- The packet built by `KeyChain::makeCertificate`, key-chain.cpp 571-578. -/
def certData (name : PName) (pub : Bytes) (o : CertOpts) : DObj :=
  .reset ⟨name ++ [o.issuer, ⟨54, writeNonNegativeInteger o.version⟩], { MetaInfo.init with type := 2, freshness := o.freshness.toNat },
    some (binaryBlock 21 pub), SigInfo.init, none⟩

/-- `KeyChain::makeCertificate(keyName, publicKey, params, opts)`, key-chain.cpp 561-591, which returns the packet. -/
def makeCertPacket (C : Crypto K) (b : Backend σ) (name : PName) (pub : Bytes) (p : SInfo K) (o : CertOpts) : KM σ K DObj := do
  if o.freshness ≤ 0 then raise .invalid
  else
    let info := (SObj.addCustom ⟨none, p.info⟩ o.validity).s
    let d ← signData C b (certData name pub o) { p with info := info }
    match toCert d with
    | none => raise .cert
    | some _ => pure d

/-- `KeyChain::makeCertificate(publicKey, params, opts)`, key-chain.cpp 440-445. -/
def makeCert (C : Crypto K) (b : Backend σ) (h : Nat) (p : SInfo K) (o : CertOpts) : KM σ K DObj := do
  let name ← pibNames b (.keyName h)
  let pub ← pibBits b (.keyBits h)
  makeCertPacket C b (name.headD []) pub p o

/-- `KeyChain::makeCertificate(certRequest, params, opts)`, key-chain.cpp 447-461. -/
def makeCertFor (C : Crypto K) (b : Backend σ) (req : Crt) (p : SInfo K) (o : CertOpts) : KM σ K DObj :=
  match C.keyType req.pub, keyOf req.name with
  | some _, some k => makeCertPacket C b k req.pub p o
  | _, _ => raise .invalid

/-! ## Management -/

/-- What a call takes from outside: the key generated, the numbers drawn, the version and validity period of a
self-signed certificate. -/
structure Env (K : Type) where
  gen : K
  rnd : List Nat
  version : Nat
  validity : Raw

/-- `SELF`, key-chain.cpp 70: `self`. -/
def selfComp : Comp := ⟨8, [115, 101, 108, 102]⟩

/-- `KeyChain::selfSign`, key-chain.cpp 593-605; freshness one hour, as in key-chain.hpp 65. -/
def selfSign (C : Crypto K) (b : Backend σ) (e : Env K) (h : Nat) : KM σ K Unit := do
  let name ← pibNames b (.keyName h)
  let p := SInfo.init.setPibKey (some h) (some (name.headD []))
  let d ← makeCert C b h p ⟨selfComp, e.version, 3600000, e.validity⟩
  match toCert d with
  | none => raise .cert
  | some c => pibDone b (.addCert h c)

/-- `KeyChain::createKey`, key-chain.cpp 247-262. -/
def createKey (C : Crypto K) (b : Backend σ) (e : Env K) (h : Nat) (id : KeyId) : KM σ K Nat := do
  if ← identValid h then
    let i ← pibNames b (.identName h)
    let k ← tpmCreateKey C (i.headD []) id e.gen e.rnd
    match ← tpmPublicKey C k with
    | none => raise .ub
    | some pub => do
      let kh ← pibKey b (.addKey h pub k)
      selfSign C b e kh
      pure kh
  else raise .ub

/-- `KeyChain::createIdentity`, key-chain.cpp 197-220. -/
def createIdentity (C : Crypto K) (b : Backend σ) (e : Env K) (n : PName) (id : KeyId) : KM σ K Nat := do
  let h ← pibIdent b (.addIdentity n)
  let k ← orPib (pibKey b (.getDefaultKey h)) (createKey C b e h id)
  orPib (do let _ ← pibCert b (.getDefaultCert k); pure ()) (selfSign C b e k)
  pure h

def tpmDeleteAll : List PName → KM σ K Unit
  | [] => pure ()
  | n :: ns => do tpmDelete n; tpmDeleteAll ns

/-- `KeyChain::deleteIdentity`, key-chain.cpp 222-237. -/
def deleteIdentity (b : Backend σ) (h : Nat) : KM σ K Unit := do
  if ← identValid h then
    let i ← pibNames b (.identName h)
    let ks ← pibNames b (.keys h)
    tpmDeleteAll ks
    pibDone b (.removeIdentity (i.headD []))
  else pure ()

/-- `KeyChain::setDefaultIdentity`, key-chain.cpp 239-245. -/
def setDefaultIdentity (b : Backend σ) (h : Nat) : KM σ K Unit := do
  if ← identValid h then
    let i ← pibNames b (.identName h)
    pibDone b (.setDefaultIdentity (i.headD []))
  else raise .ub

/-- `KeyChain::createHmacKey`, key-chain.cpp 264-268. -/
def createHmacKey (C : Crypto K) (e : Env K) (n : PName) (id : KeyId) : KM σ K PName := tpmCreateKey C n id e.gen e.rnd

/-- `KeyChain::deleteKey`, key-chain.cpp 270-281. -/
def deleteKey (b : Backend σ) (h k : Nat) : KM σ K Unit := do
  if ← identValid h then
    if ← keyValid k then
      let n ← pibNames b (.keyName k)
      pibDone b (.removeKey h (n.headD []))
      tpmDelete (n.headD [])
    else pure ()
  else raise .ub

/-- `KeyChain::setDefaultKey`, key-chain.cpp 283-290. -/
def setDefaultKey (b : Backend σ) (h k : Nat) : KM σ K Unit := do
  if ← identValid h then
    if ← keyValid k then
      let n ← pibNames b (.keyName k)
      pibDone b (.setDefaultKey h (n.headD []))
    else raise .ub
  else raise .ub

/-- `addCertificate`, `deleteCertificate`, `setDefaultCertificate`, key-chain.cpp 292-314. -/
def onKeyHandle (b : Backend σ) (k : Nat) (op : FOp) : KM σ K Unit := do
  if ← keyValid k then pibDone b op else raise .ub

/-- `KeyChain::importSafeBag`, key-chain.cpp 332-380: the certificate and the encrypted key of the bag, the password, and
the random message. A certificate is one whose constructor did not throw. -/
def importSafeBag (C : Crypto K) (b : Backend σ) (c : Crt) (enc pw msg : Bytes) : KM σ K Unit := do
  if ← tpmHas c.keyName then raise .chain
  else
    let known ← orPib (do let h ← pibIdent b (.getIdentity c.identity); let _ ← pibKey b (.getKey h c.keyName); pure true)
      (pure false)
    if known then raise .chain
    else
      rethrowTpm (tpmImportPkcs8 C c.keyName enc pw)
      let sig ← orCrypto (tpmSign C msg c.keyName .sha256) (do tpmDelete c.keyName; raise .chain)
      match sig with
      | none => raise .ub
      | some sig =>
        if C.verify c.pub msg sig then do
          let h ← pibIdent b (.addIdentity c.identity)
          let k ← pibKey b (.addKey h c.pub c.keyName)
          pibDone b (.addCert k c)
        else do
          tpmDelete c.keyName
          raise .chain

/-- `KeyChain::importPrivateKey`, key-chain.cpp 382-395; the key is not a null pointer. -/
def importPrivateKey (n : PName) (k : K) : KM σ K Unit := do
  if ← tpmHas n then raise .chain else rethrowTpm (tpmImport n (some k))

/-! ## Histories -/

/-- The calls. `query`: a call on `getPib()`, which is constant, and the handles obtained from it. -/
inductive KOp (K : Type) where
  | createIdentity (n : PName) (id : KeyId) (e : Env K)
  | deleteIdentity (h : Nat)
  | setDefaultIdentity (h : Nat)
  | createKey (h : Nat) (id : KeyId) (e : Env K)
  | createHmacKey (n : PName) (id : KeyId) (e : Env K)
  | deleteKey (h k : Nat)
  | setDefaultKey (h k : Nat)
  | addCertificate (k : Nat) (c : Crt)
  | deleteCertificate (k : Nat) (c : PName)
  | setDefaultCertificate (k : Nat) (c : Crt)
  | importSafeBag (c : Crt) (enc pw msg : Bytes)
  | importPrivateKey (n : PName) (k : K)
  | sign (d : DObj) (p : SInfo K)
  | makeCert (k : Nat) (p : SInfo K) (o : CertOpts)
  | makeCertFor (req : Crt) (p : SInfo K) (o : CertOpts)
  | query (op : FOp)

/-- The constant calls. -/
def isQuery : FOp → Bool
  | .getIdentity _ | .identities | .getDefaultIdentity | .identName _ | .getKey _ _ | .keys _ | .getDefaultKey _
  | .keyName _ | .keyBits _ | .getCert _ _ | .certs _ | .getDefaultCert _ => true
  | _ => false

/-- What a call returns. -/
inductive KRes where
  | ident (h : Nat) | key (h : Nat) | name (n : PName) | data (d : DObj) | out (o : Out) | done
  deriving DecidableEq, Repr

def kop (C : Crypto K) (b : Backend σ) : KOp K → KM σ K KRes
  | .createIdentity n id e => do return .ident (← createIdentity C b e n id)
  | .deleteIdentity h => do deleteIdentity b h; return .done
  | .setDefaultIdentity h => do setDefaultIdentity b h; return .done
  | .createKey h id e => do return .key (← createKey C b e h id)
  | .createHmacKey n id e => do return .name (← createHmacKey C e n id)
  | .deleteKey h k => do deleteKey b h k; return .done
  | .setDefaultKey h k => do setDefaultKey b h k; return .done
  | .addCertificate k c => do onKeyHandle b k (.addCert k c); return .done
  | .deleteCertificate k c => do onKeyHandle b k (.removeCert k c); return .done
  | .setDefaultCertificate k c => do onKeyHandle b k (.setDefaultNewCert k c); return .done
  | .importSafeBag c enc pw msg => do importSafeBag C b c enc pw msg; return .done
  | .importPrivateKey n k => do importPrivateKey n k; return .done
  | .sign d p => do return .data (← signData C b d p)
  | .makeCert k p o => do return .data (← makeCert C b k p o)
  | .makeCertFor req p o => do return .data (← makeCertFor C b req p o)
  | .query op => do if isQuery op then return .out (← pib b op) else return .done

/-- A new key chain: empty PIB and TPM. -/
def St.init (b : Backend σ) : St σ K := ⟨Front.start b b.init, Tpm.init, []⟩

def krun (C : Crypto K) (b : Backend σ) : List (KOp K) → St σ K → List (Except Err KRes) × St σ K
  | [], s => ([], s)
  | op :: ops, s =>
    let r := kop C b op s
    let q := krun C b ops r.2
    (r.1 :: q.1, q.2)

end Ndn.KeyChain
