import Verif.Pib.Model
/-
What a PIB is: identities, keys below identities and certificates below keys, each found by its name, with at most one
default on each level. Written from the documentation of `PibImpl` (security/pib/pib-impl.hpp).
-/
namespace Ndn.Pib.Spec
open Ndn.Name

/-- The name of a key: an identity, `KEY` and a key id. -/
def KeyName (i k : PName) : Prop := ∃ id : Comp, k = i ++ [keyComp, id]

/-- The name of a certificate: that of a key, an issuer and a version. -/
def CertName (k c : PName) : Prop := (∃ issuer version : Comp, c = k ++ [issuer, version]) ∧ ∃ i, KeyName i k

/-- What the queries of a PIB answer. -/
@[ext] structure View where
  ident : PName → Bool
  defIdent : Option PName
  key : PName → Option Bytes
  defKey : PName → Option PName
  cert : PName → Option Crt
  defCert : PName → Option PName

def View.empty : View := ⟨fun _ => false, none, fun _ => none, fun _ => none, fun _ => none, fun _ => none⟩

/-- Changing a function at one argument. -/
def upd {β : Type} (f : PName → β) (k : PName) (v : β) : PName → β := fun x => if x = k then v else f x

/-- `k` is the name of a key of `i`; `c` that of a certificate of `k`, or of `i`. -/
def isKeyOf (i k : PName) : Bool := decide (identityOf k = some i)
def isCertOf (k c : PName) : Bool := decide (keyOf c = some k)
def isCertOfIdent (i c : PName) : Bool := decide ((keyOf c).bind identityOf = some i)

/-- "If no default has been set, set the added one as default." -/
def orElse (d : Option PName) (n : PName) : Option PName := some (d.getD n)

def View.addIdent (v : View) (i : PName) : View :=
  { v with ident := upd v.ident i true, defIdent := orElse v.defIdent i }

def View.addKey (v : View) (i k : PName) (bits : Bytes) : View :=
  { v.addIdent i with key := upd v.key k (some bits), defKey := upd v.defKey i (orElse (v.defKey i) k) }

def View.addCert (v : View) (c : Crt) : View :=
  { v.addKey c.identity c.keyName c.pub with
    cert := upd v.cert c.name (some c)
    defCert := upd v.defCert c.keyName (orElse (v.defCert c.keyName) c.name) }

/-- A default that is removed is not replaced. -/
def dropDefault (d : Option PName) (n : PName) : Option PName := if d = some n then none else d

def View.removeIdent (v : View) (i : PName) : View :=
  { ident := upd v.ident i false
    defIdent := dropDefault v.defIdent i
    key := fun k => if isKeyOf i k then none else v.key k
    defKey := upd v.defKey i none
    cert := fun c => if isCertOfIdent i c then none else v.cert c
    defCert := fun k => if isKeyOf i k then none else v.defCert k }

def View.removeKey (v : View) (k : PName) : View :=
  { v with
    key := upd v.key k none
    defKey := fun i => dropDefault (v.defKey i) k
    cert := fun c => if isCertOf k c then none else v.cert c
    defCert := upd v.defCert k none }

def View.removeCert (v : View) (c : PName) : View :=
  { v with cert := upd v.cert c none, defCert := fun k => dropDefault (v.defCert k) c }

/-- The effect of a call, and whether it is refused. -/
def next (v : View) : Op → Res Unit × View
  | .addIdentity i => (.ok (), v.addIdent i)
  | .removeIdentity i => (.ok (), v.removeIdent i)
  | .setDefaultIdentity i => if v.ident i then (.ok (), { v with defIdent := some i }) else (.refused, v)
  | .addKey i k bits => (.ok (), v.addKey i k bits)
  | .removeKey k => (.ok (), v.removeKey k)
  | .setDefaultKey i k =>
    if (v.key k).isSome then (.ok (), { v with defKey := upd v.defKey i (some k) }) else (.refused, v)
  | .addCertificate c => (.ok (), v.addCert c)
  | .removeCertificate c => (.ok (), v.removeCert c)
  | .setDefaultCertificate k c =>
    if (v.cert c).isSome then (.ok (), { v with defCert := upd v.defCert k (some c) }) else (.refused, v)
  | .clear => (.ok (), View.empty)

def nexts : List Op → View → List (Res Unit) × View
  | [], v => ([], v)
  | op :: ops, v => let r := next v op; let q := nexts ops r.2; (r.1 :: q.1, q.2)

/-- The names given in a call are those of a key of that identity, a certificate of that key. This is what `Pib`,
`Identity` and `Key` check before they call a back end. -/
def Proper : Op → Prop
  | .addKey i k _ => KeyName i k
  | .setDefaultKey i k => KeyName i k
  | .removeKey k => ∃ i, KeyName i k
  | .addCertificate c => ∃ k, CertName k c.name
  | .removeCertificate c => ∃ k, CertName k c
  | .setDefaultCertificate k c => CertName k c
  | _ => True

/-- The calls that remove a key remove the default one, or there is none. -/
def DropsDefault (v : View) : Op → Prop
  | .removeKey k => ∀ i, KeyName i k → v.defKey i = none ∨ v.defKey i = some k
  | _ => True

/-- The same, for each of several calls. -/
def AllDropDefault : List Op → View → Prop
  | [], _ => True
  | op :: ops, v => DropsDefault v op ∧ AllDropDefault ops (next v op).2

/-- Every default exists and is below what it is the default of, and everything is below something that exists. -/
structure Coherent (v : View) : Prop where
  ident : ∀ i, v.defIdent = some i → v.ident i = true
  key : ∀ i k, v.defKey i = some k → (v.key k).isSome ∧ KeyName i k
  cert : ∀ k c, v.defCert k = some c → (v.cert c).isSome ∧ CertName k c
  parent : ∀ k, (v.key k).isSome → ∃ i, KeyName i k ∧ v.ident i = true
  issuer : ∀ c, (v.cert c).isSome → ∃ k, CertName k c ∧ (v.key k).isSome
  named : ∀ c x, v.cert c = some x → x.name = c

/-- The queries of a back end answer as `v` says. -/
structure Answers {σ : Type} (b : Backend σ) (s : σ) (v : View) : Prop where
  hasIdentity : ∀ i, b.hasIdentity s i = v.ident i
  getIdentities : ∀ i, i ∈ b.getIdentities s ↔ v.ident i = true
  getDefaultIdentity : b.getDefaultIdentity s = (match v.defIdent with | some i => .ok i | none => .refused)
  hasKey : ∀ k, b.hasKey s k = (v.key k).isSome
  getKeyBits : ∀ k, b.getKeyBits s k = (match v.key k with | some x => .ok x | none => .refused)
  getKeysOfIdentity : ∀ i, ∃ l, b.getKeysOfIdentity s i = .ok l ∧ ∀ k, k ∈ l ↔ (v.key k).isSome ∧ KeyName i k
  getDefaultKey : ∀ i, b.getDefaultKey s i = (match v.defKey i with | some k => .ok k | none => .refused)
  hasCertificate : ∀ c, b.hasCertificate s c = (v.cert c).isSome
  getCertificate : ∀ c, b.getCertificate s c = (match v.cert c with | some x => .ok x | none => .refused)
  getCertificatesOfKey : ∀ k, ∃ l, b.getCertificatesOfKey s k = .ok l ∧ ∀ c, c ∈ l ↔ (v.cert c).isSome ∧ CertName k c
  getDefaultCertificate : ∀ k, b.getDefaultCertificate s k =
    (match (v.defCert k).bind v.cert with | some x => .ok x | none => .refused)

/-- Seen by the queries: defaults exist and are below what they are the default of; keys and certificates have parents. -/
structure Sound {σ : Type} (b : Backend σ) (s : σ) : Prop where
  ident : ∀ i, b.getDefaultIdentity s = .ok i → b.hasIdentity s i = true
  key : ∀ i k, b.getDefaultKey s i = .ok k → KeyName i k ∧ b.hasKey s k = true
  cert : ∀ k c, b.getDefaultCertificate s k = .ok c → CertName k c.name ∧ b.getCertificate s c.name = .ok c
  parent : ∀ k, b.hasKey s k = true → ∃ i, KeyName i k ∧ b.hasIdentity s i = true
  issuer : ∀ c, b.hasCertificate s c = true → ∃ k, CertName k c ∧ b.hasKey s k = true

/-- The keys of `i` and their certificates are gone, and everything else is still there. -/
structure Gone {σ : Type} (b : Backend σ) (s s' : σ) (i : PName) : Prop where
  self : b.hasIdentity s' i = false
  keys : ∀ k, KeyName i k → b.hasKey s' k = false
  certs : ∀ k c, KeyName i k → CertName k c → b.hasCertificate s' c = false
  others : ∀ j, j ≠ i → b.hasIdentity s' j = b.hasIdentity s j
  otherKeys : ∀ k, ¬ KeyName i k → b.getKeyBits s' k = b.getKeyBits s k
  otherCerts : ∀ k c, ¬ KeyName i k → CertName k c → b.getCertificate s' c = b.getCertificate s c

/-- The certificates of a key are gone with it, and everything else is still there. -/
structure KeyGone {σ : Type} (b : Backend σ) (s s' : σ) (k : PName) : Prop where
  self : b.hasKey s' k = false
  certs : ∀ c, CertName k c → b.hasCertificate s' c = false
  idents : ∀ j, b.hasIdentity s' j = b.hasIdentity s j
  otherKeys : ∀ l, l ≠ k → b.getKeyBits s' l = b.getKeyBits s l
  otherCerts : ∀ c, ¬ CertName k c → b.getCertificate s' c = b.getCertificate s c

end Ndn.Pib.Spec
