import Verif.KeyChain.Model
import Verif.Pib.FrontSpec
/-
What a key chain promises, from the documentation in security/key-chain.hpp and security/signing-info.hpp.
-/
namespace Ndn.KeyChain.Spec
open Ndn.Name Ndn.Tlv Ndn.Block Ndn.Packet Ndn.Pib Ndn.Pib.Spec

variable {σ K : Type}

/-- Signatures made with the private key verify with the public key. -/
def Match (C : Crypto K) (x : K) (bits : Bytes) : Prop :=
  ∀ m, ∃ sig, C.sign x .sha256 m = some sig ∧ C.verify bits m sig = true

/-- The cryptographic operations work: a private key matches the public key derived from it, and only keys of a known
kind verify anything. -/
structure Works (C : Crypto K) : Prop where
  pair : ∀ x p, C.pub x = some p → Match C x p
  /-- an HMAC key has no public key -/
  hmac : ∀ x, C.isHmac x = true → C.pub x = none
  kind : ∀ p m sig, C.verify p m sig = true → (C.keyType p).isSome

/-- Every key of the PIB has its private key in the TPM. -/
def Held (C : Crypto K) (v : View) (keys : List (PName × Option K)) : Prop :=
  ∀ k bits, v.key k = some bits → ∃ x, get k keys = some (some x) ∧ Match C x bits

/-- Every certificate of the PIB has the public key of its key. -/
def Certs (v : View) : Prop := ∀ c x, v.cert c = some x → v.key x.keyName = some x.pub

/-- Nothing is lost: identities, keys, certificates and defaults stay. -/
structure Grows (v v' : View) : Prop where
  ident : ∀ i, v.ident i = true → v'.ident i = true
  key : ∀ k x, v.key k = some x → v'.key k = some x
  cert : ∀ c, (v.cert c).isSome → (v'.cert c).isSome
  defIdent : ∀ i, v.defIdent = some i → v'.defIdent = some i
  defKey : ∀ i k, v.defKey i = some k → v'.defKey i = some k
  defCert : ∀ k c, v.defCert k = some c → v'.defCert k = some c

/-- No handle expires. -/
def Live (w w' : World) : Prop := ∀ x r, w.hs x = .alive r → w'.hs x = .alive r

/-- No private key is lost. -/
def KeysGrow (keys keys' : List (PName × Option K)) : Prop := ∀ n x, get n keys = some x → get n keys' = some x

/-! ## What is asked for with a `SigningInfo` -/

/-- The identity: by a valid handle, or else by name. -/
def IdentGiven (w : World) (p : SInfo K) (i : PName) : Prop :=
  (∃ h, p.ident = some h ∧ w.hs h = .alive (.ident i)) ∨
    (¬ ∃ h j, p.ident = some h ∧ w.hs h = .alive (.ident j)) ∧ p.name = i ∧ w.v.ident i = true

/-- The key: by a valid handle, or else by name. -/
def KeyGiven (w : World) (p : SInfo K) (k : PName) : Prop :=
  (∃ h, p.key = some h ∧ w.hs h = .alive (.key k)) ∨
    (¬ ∃ h j, p.key = some h ∧ w.hs h = .alive (.key j)) ∧ p.name = k ∧ (w.v.key k).isSome

/-- The name to look for to find the public key: that of the default certificate, or of the key if there is none. -/
def locator (v : View) (k : PName) : PName := (v.defCert k).getD k

/-- The key to sign with, and the name that goes into the KeyLocator. -/
inductive Signer (w : World) (p : SInfo K) : PName → PName → Prop
  | default {i k} : p.type = .null → w.v.defIdent = some i → w.v.defKey i = some k → Signer w p k (locator w.v k)
  | ident {i k} : p.type = .ident → IdentGiven w p i → w.v.defKey i = some k → Signer w p k (locator w.v k)
  | key {k} : p.type = .key → KeyGiven w p k → Signer w p k (locator w.v k)
  | cert {k} : p.type = .cert → CertName k p.name → (w.v.key k).isSome → Signer w p k p.name

/-- Only a digest is asked for, or there is no default identity. -/
def Digest (w : World) (p : SInfo K) : Prop := p.type = .sha256 ∨ p.type = .null ∧ w.v.defIdent = none

/-- The numbers of the signature types. -/
def kindNo : KType → Nat
  | .rsa => 1
  | .ec => 3
  | .hmac => 4

/-- The SignatureInfo for a key with these bits. A KeyLocator given by the caller stays. -/
def keyInfo (C : Crypto K) (p : SInfo K) (bits : Bytes) (loc : PName) : SigInfo :=
  { p.info with type := (C.keyType bits).map kindNo, keyLocator := some (p.info.keyLocator.getD (.name loc)) }

/-- `d'` is `d` with this SignatureInfo and a signature made of `sig` on the portion `u`. -/
def Signed (d : DObj) (si : SigInfo) (u sig : Bytes) (d' : DObj) : Prop :=
  { d.f with sigInfo := si : DFields }.encodeUnsigned = some u ∧
    ∃ w, (DObj.reset { d.f with sigInfo := si }).finish u sig = (d', some w)

/-- A name made from a digest of the key generated is not in use in the TPM. -/
def Fresh (C : Crypto K) (i : PName) (id : KeyId) (gen : K) (priv : PName → Option (Option K)) : Prop :=
  (C.isHmac gen = true → priv (i ++ [⟨8, C.keyDigest gen⟩]) = none) ∧
  (C.isHmac gen = false → id = .sha256 → ∀ p, C.pub gen = some p → priv (i ++ [keyComp, ⟨8, C.sha p⟩]) = none)

/-- The name of a key created below `i`: `rnd` are the numbers drawn. -/
def NameFor (C : Crypto K) (i : PName) (id : KeyId) (gen : K) (rnd : List Nat) (k : PName) : Prop :=
  ∃ c, k = i ++ [keyComp, c] ∧ match id with
    | .user u => c = u
    | .sha256 => ∃ p, C.pub gen = some p ∧ c = ⟨8, C.sha p⟩
    | .random => ∃ n ∈ rnd, c = ⟨8, writeNonNegativeInteger n⟩

/-- The identity has a default key with a default certificate. -/
def Ready (v : View) (n : PName) : Prop := v.ident n = true ∧ ∃ k c, v.defKey n = some k ∧ v.defCert k = some c

/-- The packet of a certificate for the public key `pub` called `n`, before it is signed. -/
def certFields (n : PName) (pub : Bytes) (o : CertOpts) : DFields :=
  ⟨n ++ [o.issuer, ⟨54, writeNonNegativeInteger o.version⟩], { MetaInfo.init with type := 2, freshness := o.freshness.toNat },
    some (binaryBlock 21 pub), SigInfo.init, none⟩

/-- The SignatureInfo of a self-signed certificate: the KeyLocator names the key. -/
def selfInfo (C : Crypto K) (pub : Bytes) (k : PName) (validity : Raw) : SigInfo :=
  ⟨(C.keyType pub).map kindNo, some (.name k), [validity]⟩

/-- The certificate is a packet with the public key, for one hour fresh, and with a signature that verifies with this key. -/
def SelfSigned (C : Crypto K) (k : PName) (e : Env K) (c : Crt) : Prop :=
  ∃ d u sig, Signed (.reset (certFields k c.pub ⟨selfComp, e.version, 3600000, e.validity⟩)) (selfInfo C c.pub k e.validity) u sig d ∧
    C.verify c.pub u sig = true ∧ c.name = d.f.name ∧ c.rest = d.wire.getD []

/-- A key `k` was made for the identity: the private key is stored in the TPM, the public key in the PIB, and a
self-signed certificate for it. -/
def KeyAdded (C : Crypto K) (v : View) (priv : PName → Option (Option K)) (i : PName) (id : KeyId) (e : Env K) (k : PName) (v' : View)
    (priv' : PName → Option (Option K)) : Prop :=
  ∃ p c, NameFor C i id e.gen e.rnd k ∧ v.key k = none ∧ priv k = none ∧ C.pub e.gen = some p ∧ CertName k c.name ∧ c.pub = p ∧
    SelfSigned C k e c ∧ v' = (v.addKey i k p).addCert c ∧ priv' = upd priv k (some (some e.gen))

/-- The identity is there, with a default key that has a default certificate, and only what was missing was added. -/
def IdentMade (C : Crypto K) (v : View) (priv : PName → Option (Option K)) (n : PName) (id : KeyId) (e : Env K) (v' : View)
    (priv' : PName → Option (Option K)) : Prop :=
  match v.defKey n with
  | some k => priv' = priv ∧ match v.defCert k with
    | some _ => v' = withIdent v n
    | none => ∃ c, CertName k c.name ∧ v.key k = some c.pub ∧ SelfSigned C k e c ∧ v' = (withIdent v n).addCert c
  | none => ∃ k, KeyAdded C (withIdent v n) priv n id e k v' priv'

/-- The private key read from a bag that signs the test message so that it verifies with the public key of the
certificate is the private key for it. -/
def TestSound (C : Crypto K) (c : Crt) (enc pw msg : Bytes) : Prop :=
  ∀ x sig, C.load enc pw = some x → C.sign x .sha256 msg = some sig → C.verify c.pub msg sig = true → Match C x c.pub

/-- There is no such key yet, and the private key of the bag is for the certificate, as far as the test message tells. -/
def Importable (C : Crypto K) (priv : PName → Option (Option K)) (k : PName) (c : Crt) (enc pw msg : Bytes) : Prop :=
  priv k = none ∧ ∃ x sig, C.load enc pw = some x ∧ C.sign x .sha256 msg = some sig ∧ C.verify c.pub msg sig = true

end Ndn.KeyChain.Spec
