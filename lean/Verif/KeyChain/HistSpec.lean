import Verif.KeyChain.Spec
import Verif.Packet.Spec
/-
The allowed outcomes of the calls on a key chain, and histories of calls.
-/
namespace Ndn.KeyChain.Spec
open Ndn.Name Ndn.Tlv Ndn.Block Ndn.Packet Ndn.Pib Ndn.Pib.Spec

variable {σ K : Type}

/-- What a key chain stores: the PIB with the handles given out, and the private keys of the TPM; `some none` is a null
pointer stored there. -/
structure KWorld (K : Type) where
  pib : World
  priv : PName → Option (Option K)

def KWorld.init : KWorld K := ⟨World.init, fun _ => none⟩

/-- The PIB and the TPM belong together: each key has its private key in the TPM, each certificate the public key of its key. -/
def Consistent (C : Crypto K) (kw : KWorld K) : Prop :=
  (∀ k bits, kw.pib.v.key k = some bits → ∃ x, kw.priv k = some (some x) ∧ Match C x bits) ∧ Certs kw.pib.v

/-- Nothing changes, but handles may be given out. -/
def Unchanged (kw kw' : KWorld K) : Prop := kw'.pib.v = kw.pib.v ∧ Live kw.pib kw'.pib ∧ kw'.priv = kw.priv

/-- Nothing is lost. -/
def Extended (kw kw' : KWorld K) : Prop :=
  Grows kw.pib.v kw'.pib.v ∧ Live kw.pib kw'.pib ∧ ∀ n x, kw.priv n = some x → kw'.priv n = some x

/-! ## Signing -/

/-- The outcome of signing `d` with the private key called `n`, or only with a digest. -/
def SignRes (C : Crypto K) (d : DObj) (si : SigInfo) (n : PName) (a : Alg) (priv : PName → Option (Option K)) (r : Except Err DObj) : Prop :=
  match { d.f with sigInfo := si : DFields }.encodeUnsigned with
  | none => r = .error .encode
  | some u =>
    let fin (sig : Bytes) : Prop := (∃ d', Signed d si u sig d' ∧ r = .ok d') ∨
      (((DObj.reset { d.f with sigInfo := si }).finish u sig).2 = none ∧ r = .error .encode)
    if n = digestIdentity then fin (C.sha u)
    else match priv n with
      | none => r = .error .signing
      | some none => r = .error .ub
      | some (some x) => match C.sign x a u with
        | some sig => fin sig
        | none => r = .error .crypto

/-- Signing as asked for with `p`. -/
def SignStep (C : Crypto K) (kw : KWorld K) (p : SInfo K) (d : DObj) (r : Except Err DObj) (kw' : KWorld K) : Prop :=
  kw'.pib.v = kw.pib.v ∧ Live kw.pib kw'.pib ∧
  ((∃ k loc bits, Signer kw.pib p k loc ∧ kw.pib.v.key k = some bits ∧ kw'.priv = kw.priv ∧
      SignRes C d (keyInfo C p bits loc) k p.alg kw.priv r) ∨
   (Digest kw.pib p ∧ kw'.priv = kw.priv ∧ SignRes C d { p.info with type := some 0 } digestIdentity p.alg kw.priv r) ∨
   (p.type = .hmac ∧ kw'.priv = (if (kw.priv p.name).isSome then kw.priv else upd kw.priv p.name (some p.hmac)) ∧
      SignRes C d { p.info with type := some 4, keyLocator := some (.name p.name) } p.name p.alg kw'.priv r) ∨
   (kw'.priv = kw.priv ∧ (∀ k loc, ¬ Signer kw.pib p k loc) ∧ ¬ Digest kw.pib p ∧ p.type ≠ .hmac ∧
    (r = .error .signing ∨ r = .error .invalid ∧
      (p.type = .key ∧ (∀ i, ¬ KeyName i p.name) ∨ p.type = .cert ∧ (∀ k, ¬ CertName k p.name)))))

/-- A packet that is a certificate. -/
def IsCert (d : DObj) : Prop := (∃ k, CertName k d.f.name) ∧ d.f.minfo.type = 2 ∧ 0 < d.f.minfo.getFreshness

open Classical in
/-- Making a certificate. -/
def CertStep (C : Crypto K) (kw : KWorld K) (n : PName) (pub : Bytes) (p : SInfo K) (o : CertOpts) (r : Except Err KRes) (kw' : KWorld K) : Prop :=
  if o.freshness ≤ 0 then r = .error .invalid ∧ Unchanged kw kw'
  else ∃ rs, SignStep C kw { p with info := (SObj.addCustom ⟨none, p.info⟩ o.validity).s } (.reset (certFields n pub o)) rs kw' ∧
    match rs with
    | .ok d => if IsCert d then r = .ok (.data d) else r = .error .cert
    | .error e => r = .error e

/-- The packet can be encoded with any signature that is made. -/
def Encodable (C : Crypto K) (d : DObj) (si : SigInfo) : Prop :=
  ∀ sig, ((∃ x a m, C.sign x a m = some sig) ∨ ∃ m, sig = C.sha m) →
    Ndn.Packet.Spec.DataWF { d.f with sigInfo := si, sigValue := some (binaryBlock 23 sig) }

/-! ## Creating keys -/

/-- The self-signed certificate of the key `k` can be encoded. -/
def SelfEncodable (C : Crypto K) (k : PName) (pub : Bytes) (e : Env K) : Prop :=
  Encodable C (.reset (certFields k pub ⟨selfComp, e.version, 3600000, e.validity⟩)) (selfInfo C pub k e.validity)

/-- The name asked for is not in use, or one of the numbers drawn gives such a name. -/
def NameFree (i : PName) (id : KeyId) (rnd : List Nat) (priv : PName → Option (Option K)) : Prop :=
  match id with
  | .user c => priv (i ++ [keyComp, c]) = none
  | .sha256 => True
  | .random => ∃ n ∈ rnd, priv (i ++ [keyComp, ⟨8, writeNonNegativeInteger n⟩]) = none

/-- Nothing stands in the way of a new key below `i`: it has a public key, there is a name for it, and its certificate can
be encoded. -/
def Possible (C : Crypto K) (i : PName) (id : KeyId) (e : Env K) (priv : PName → Option (Option K)) : Prop :=
  ∃ p, C.pub e.gen = some p ∧ NameFree i id e.rnd priv ∧ ∀ k, NameFor C i id e.gen e.rnd k → SelfEncodable C k p e

/-- Nothing stands in the way of creating the identity `n`. -/
def IdentPossible (C : Crypto K) (v : View) (n : PName) (id : KeyId) (e : Env K) (priv : PName → Option (Option K)) : Prop :=
  match v.defKey n with
  | some k => ∀ bits, v.key k = some bits → SelfEncodable C k bits e
  | none => Possible C n id e priv

/-! ## All calls -/

/-- The result of a call passed on to the PIB. -/
def pibRes (out : Out) : Except Err KRes :=
  match outErr out with
  | some e => .error e
  | none => .ok .done

/-- A call on a key handle passed on to the PIB. -/
def OnKey (kw : KWorld K) (h : Nat) (op : FOp) (r : Except Err KRes) (kw' : KWorld K) : Prop :=
  match kw.pib.hs h with
  | .alive (.key _) => ∃ out, Step kw.pib op out kw'.pib ∧ r = pibRes out ∧ kw'.priv = kw.priv
  | _ => r = .error .ub ∧ kw' = kw

open Classical in
/-- The allowed outcomes of a call. -/
def KStep (C : Crypto K) (kw : KWorld K) (op : KOp K) (r : Except Err KRes) (kw' : KWorld K) : Prop :=
  match op with
  | .createIdentity n id e =>
    (∃ h, r = .ok (.ident h) ∧ kw'.pib.hs h = .alive (.ident n) ∧ Live kw.pib kw'.pib ∧ Ready kw'.pib.v n ∧
      IdentMade C kw.pib.v kw.priv n id e kw'.pib.v kw'.priv) ∨
    (∃ er, r = .error er ∧ ¬ Ready kw.pib.v n ∧ ¬ IdentPossible C kw.pib.v n id e kw.priv ∧ Extended kw kw')
  | .deleteIdentity h =>
    match kw.pib.hs h with
    | .alive (.ident i) => r = .ok .done ∧ kw' = ⟨⟨kw.pib.v.removeIdent i, kill kw.pib.hs (below i)⟩,
        fun n => if KeyName i n ∧ (kw.pib.v.key n).isSome then none else kw.priv n⟩
    | _ => r = .ok .done ∧ kw' = kw
  | .setDefaultIdentity h =>
    match kw.pib.hs h with
    | .alive (.ident i) => r = .ok .done ∧ kw'.pib.v = { kw.pib.v with defIdent := some i } ∧ Live kw.pib kw'.pib ∧ kw'.priv = kw.priv
    | _ => r = .error .ub ∧ kw' = kw
  | .createKey h id e =>
    match kw.pib.hs h with
    | .alive (.ident i) =>
      (∃ kh k, r = .ok (.key kh) ∧ kw'.pib.hs kh = .alive (.key k) ∧ Live kw.pib kw'.pib ∧
        KeyAdded C kw.pib.v kw.priv i id e k kw'.pib.v kw'.priv) ∨
      (∃ er, r = .error er ∧ ¬ Possible C i id e kw.priv ∧ Extended kw kw')
    | _ => r = .error .ub ∧ kw' = kw
  | .createHmacKey n id e =>
    (∃ k, r = .ok (.name k) ∧ (if C.isHmac e.gen then k = n ++ [⟨8, C.keyDigest e.gen⟩] else NameFor C n id e.gen e.rnd k) ∧
      kw.priv k = none ∧ kw' = ⟨kw.pib, upd kw.priv k (some (some e.gen))⟩) ∨
    (∃ er, r = .error er ∧ C.isHmac e.gen = false ∧ ¬ ((C.pub e.gen).isSome ∧ NameFree n id e.rnd kw.priv) ∧ kw' = kw)
  | .deleteKey h k =>
    match kw.pib.hs h, kw.pib.hs k with
    | .alive (.ident i), .alive (.key n) =>
      if KeyName i n then r = .ok .done ∧ kw' = ⟨⟨kw.pib.v.removeKey n, kill kw.pib.hs (theKey n)⟩, upd kw.priv n none⟩
      else (∃ er, r = .error er) ∧ kw' = kw
    | .alive (.ident _), _ => r = .ok .done ∧ kw' = kw
    | _, _ => (∃ er, r = .error er) ∧ kw' = kw
  | .setDefaultKey h k =>
    match kw.pib.hs h, kw.pib.hs k with
    | .alive (.ident i), .alive (.key n) =>
      if KeyName i n then r = .ok .done ∧ kw'.pib.v = { kw.pib.v with defKey := upd kw.pib.v.defKey i (some n) } ∧
        Live kw.pib kw'.pib ∧ kw'.priv = kw.priv
      else (∃ er, r = .error er) ∧ kw' = kw
    | _, _ => (∃ er, r = .error er) ∧ kw' = kw
  | .addCertificate h c => OnKey kw h (.addCert h c) r kw'
  | .deleteCertificate h c => OnKey kw h (.removeCert h c) r kw'
  | .setDefaultCertificate h c => OnKey kw h (.setDefaultNewCert h c) r kw'
  | .importSafeBag c enc pw msg =>
    ∃ k, CertName k c.name ∧
      if Importable C kw.priv k c enc pw msg then
        ∃ x, C.load enc pw = some x ∧ r = .ok .done ∧ Live kw.pib kw'.pib ∧ kw.pib.v.key k = none ∧
          kw'.pib.v = ((withIdent kw.pib.v c.identity).addKey c.identity k c.pub).addCert c ∧ kw'.priv = upd kw.priv k (some (some x))
      else r = .error .chain ∧ Unchanged kw kw'
  | .importPrivateKey n x =>
    if kw.priv n = none then r = .ok .done ∧ kw' = ⟨kw.pib, upd kw.priv n (some (some x))⟩ else r = .error .chain ∧ kw' = kw
  | .sign d p => ∃ rs, SignStep C kw p d rs kw' ∧ r = rs.map .data
  | .makeCert h p o =>
    match kw.pib.hs h with
    | .alive (.key k) => ∃ bits, kw.pib.v.key k = some bits ∧ CertStep C kw k bits p o r kw'
    | _ => r = .error .domain ∧ kw' = kw
  | .makeCertFor req p o =>
    if (C.keyType req.pub).isSome ∧ (∃ k, CertName k req.name) then ∃ k, CertName k req.name ∧ CertStep C kw k req.pub p o r kw'
    else r = .error .invalid ∧ kw' = kw
  | .query op =>
    if isQuery op then ∃ out, Step kw.pib op out kw'.pib ∧ kw'.pib.v = kw.pib.v ∧ kw'.priv = kw.priv ∧
      r = (match outErr out with | some e => .error e | none => .ok (.out out))
    else r = .ok .done ∧ kw' = kw

/-- The calls that work as documented: new keys do not get the name of a key stored in the TPM by way of a digest;
certificate objects have the name of a certificate, a certificate made default has the public key of the key, and the
default certificate is not replaced by another of the same name; the test message tells whether an imported key is the
one of the certificate. -/
def KFits (C : Crypto K) (kw : KWorld K) : KOp K → Prop
  | .createIdentity n id e => kw.pib.v.defKey n = none → Fresh C n id e.gen kw.priv
  | .createKey h id e => ∀ i, kw.pib.hs h = .alive (.ident i) → Fresh C i id e.gen kw.priv
  | .createHmacKey n id e => Fresh C n id e.gen kw.priv
  | .addCertificate h c => (∃ k, CertName k c.name) ∧ Fits kw.pib (.addCert h c)
  | .setDefaultCertificate h c => (∃ k, CertName k c.name) ∧ Fits kw.pib (.setDefaultNewCert h c)
  | .importSafeBag c enc pw msg => (∃ k, CertName k c.name) ∧ TestSound C c enc pw msg
  | _ => True

/-- The same, and keys removed are the default key of their identity, or there is none. -/
def KFitsMemory (C : Crypto K) (kw : KWorld K) (op : KOp K) : Prop :=
  KFits C kw op ∧ match op with
    | .deleteKey _ k => ∀ n, kw.pib.hs k = .alive (.key n) → DropsDefault kw.pib.v (.removeKey n)
    | _ => True

/-- A history runs in step with the specification: as long as the calls meet `P`, each outcome, the state after it and
the contents of the back ends after each access made in between meet `G`. -/
def Follows (C : Crypto K) (b : Backend σ) (P : KWorld K → KOp K → Prop)
    (G : KWorld K → KOp K → Except Err KRes → St σ K → KWorld K → Prop) : KWorld K → St σ K → List (KOp K) → Prop
  | _, _, [] => True
  | kw, s, op :: ops => P kw op → ∃ kw', G kw op (kop C b op { s with trail := [] }).1 (kop C b op { s with trail := [] }).2 kw' ∧
    Follows C b P G kw' (kop C b op { s with trail := [] }).2 ops

/-- The key chain stores what `kw` says. -/
structure Stores (b : Backend σ) (kw : KWorld K) (s : St σ K) : Prop where
  pib : Answers b s.pib.db kw.pib.v
  tpm : ∀ n, get n s.tpm.keys = kw.priv n

/-- Each key of the PIB can be used to sign, and the signature verifies with its public key; each certificate is for the
public key of its key. -/
structure Usable (C : Crypto K) (b : Backend σ) (s : St σ K) : Prop where
  sign : ∀ k bits, b.getKeyBits s.pib.db k = .ok bits →
    ∀ m, ∃ sig, (tpmSign C m k .sha256 s).1 = .ok (some sig) ∧ C.verify bits m sig = true
  cert : ∀ c x, b.getCertificate s.pib.db c = .ok x → b.getKeyBits s.pib.db x.keyName = .ok x.pub

/-- `d'` is `d` with this SignatureInfo and a signature `sig` such that `ok u sig`, where `u` is the portion covered by the
signature as a receiver of the packet finds it, who gets the same fields. -/
def SignedAs (d : DObj) (si : SigInfo) (ok : Bytes → Bytes → Prop) (d' : DObj) : Prop :=
  ∃ sig w blk es u, d'.f = { d.f with sigInfo := si, sigValue := some (binaryBlock 23 sig) } ∧ d'.wire = some w ∧
    Ndn.Block.fromBuffer w = some (blk, []) ∧ Ndn.Packet.dataDecode blk = some d'.f ∧ Ndn.Block.Spec.ReadsAs blk.value es ∧ Ndn.Packet.signedRange es = some u ∧ ok u sig

/-- The SignatureInfo of a packet signed with an HMAC key. -/
def hmacInfo (p : SInfo K) : SigInfo := { p.info with type := some 4, keyLocator := some (.name p.name) }

/-- The SignatureInfo of a packet with a digest only. -/
def digestInfo (p : SInfo K) : SigInfo := { p.info with type := some 0 }

/-- What a call of `sign` on a Data does. -/
structure Signs (C : Crypto K) (kw : KWorld K) (d : DObj) (p : SInfo K) (r : Except Err KRes) (kw' : KWorld K) : Prop where
  /-- the key asked for signs, and its public key in the PIB verifies the signature -/
  key : ∀ k loc bits, Signer kw.pib p k loc → kw.pib.v.key k = some bits → p.alg = .sha256 → Encodable C d (keyInfo C p bits loc) →
    ∃ d', r = .ok (.data d') ∧ SignedAs d (keyInfo C p bits loc) (fun u sig => C.verify bits u sig = true) d'
  digest : Digest kw.pib p → Encodable C d (digestInfo p) →
    ∃ d', r = .ok (.data d') ∧ SignedAs d (digestInfo p) (fun u sig => sig = C.sha u) d'
  /-- the key stored under the name, and otherwise the one given -/
  hmac : p.type = .hmac → p.name ≠ digestIdentity → ∀ x, (kw.priv p.name).getD p.hmac = some x → (∀ m, (C.sign x p.alg m).isSome) →
    Encodable C d (hmacInfo p) → ∃ d', r = .ok (.data d') ∧ SignedAs d (hmacInfo p) (fun u sig => C.sign x p.alg u = some sig) d'
  /-- no such key -/
  none : (∀ k loc, ¬ Signer kw.pib p k loc) → ¬ Digest kw.pib p → p.type ≠ .hmac → r = .error .signing ∨ r = .error .invalid
  /-- neither the PIB nor the TPM changes -/
  pib : kw'.pib.v = kw.pib.v ∧ Live kw.pib kw'.pib
  tpm : p.type ≠ .hmac ∨ (kw.priv p.name).isSome → kw'.priv = kw.priv

/-- What a call to make a certificate called after the key `n`, for the public key `pub`, does. -/
structure Certifies (C : Crypto K) (kw : KWorld K) (n : PName) (pub : Bytes) (p : SInfo K) (o : CertOpts) (r : Except Err KRes) : Prop where
  made : 0 < o.freshness → ∀ k loc bits, Signer kw.pib p k loc → kw.pib.v.key k = some bits → p.alg = .sha256 →
    Encodable C (.reset (certFields n pub o)) (keyInfo C { p with info := (SObj.addCustom ⟨none, p.info⟩ o.validity).s } bits loc) →
    ∃ d, r = .ok (.data d) ∧ IsCert d ∧
      SignedAs (.reset (certFields n pub o)) (keyInfo C { p with info := (SObj.addCustom ⟨none, p.info⟩ o.validity).s } bits loc)
        (fun u sig => C.verify bits u sig = true) d
  refused : o.freshness ≤ 0 → r = .error .invalid
  cert : ∀ x, r = .ok x → ∃ d, x = .data d ∧ IsCert d

/-- What the history has to show after each call. -/
structure Agrees (C : Crypto K) (b : Backend σ) (kw : KWorld K) (op : KOp K) (r : Except Err KRes) (s' : St σ K) (kw' : KWorld K) : Prop where
  step : KStep C kw op r kw'
  stores : Stores b kw' s'
  consistent : Consistent C kw'
  usable : Usable C b s'

/-- A key chain opened on what the back ends stored. -/
def reopen (b : Backend σ) (e : σ × List (PName × Option K)) : St σ K := ⟨Front.start b e.1, ⟨e.2, []⟩, []⟩

end Ndn.KeyChain.Spec
