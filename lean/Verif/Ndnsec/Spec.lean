import Verif.Ndnsec.Model
import Verif.KeyChain.HistSpec
/-
What the commands of `ndnsec` are to do, written from their help texts: to the identities, keys, certificates and
defaults in the PIB (`View`) and to the private keys in the TPM.
-/
namespace Ndn.Ndnsec.Spec
open Ndn.Name Ndn.Tlv Ndn.Block Ndn.Packet Ndn.Pib Ndn.Pib.Spec Ndn.KeyChain Ndn.KeyChain.Spec

variable {σ K : Type}

/-- What is stored: the PIB, and the private keys of the TPM. -/
structure Store (K : Type) where
  v : View
  priv : PName → Option (Option K)

def Store.empty : Store K := ⟨View.empty, fun _ => none⟩

/-- The files hold what `x` says. -/
structure Holds (b : Backend σ) (e : σ × List (PName × Option K)) (x : Store K) : Prop where
  pib : Answers b e.1 x.v
  tpm : ∀ n, get n e.2 = x.priv n

/-- The PIB and the TPM belong together. -/
def Whole (C : Crypto K) (x : Store K) : Prop :=
  Coherent x.v ∧ (∀ k bits, x.v.key k = some bits → ∃ z, x.priv k = some (some z) ∧ Match C z bits) ∧ Certs x.v

/-- Success with nothing to show, failure, wrong usage. -/
def Good (r : Exit) : Prop := r = .code 0 .nothing
def Bad (r : Exit) : Prop := r = .code 1 .nothing
def Usage (r : Exit) : Prop := r = .code 2 .nothing

/-- The name is shown, or there is none. -/
def Shows (d : Option PName) (r : Exit) : Prop :=
  match d with
  | some n => r = .code 0 (.name n)
  | none => Bad r

/-- The certificate is shown, or there is none. -/
def ShowsCert (d : Option Crt) (r : Exit) : Prop :=
  match d with
  | some c => r = .code 0 (.cert c)
  | none => Bad r

/-- Digests and keywords cannot be key or issuer IDs. -/
def Reserved (c : Comp) : Prop := ((c.type = 1 ∨ c.type = 2) ∧ c.value.length = 32) ∨ c.type = 32

/-- The key ID asked for by the options `--type`, `--keyid-type` and `--keyid`. -/
inductive KeyOptions : Char → Option Char → Option Comp → KeyId → Prop
  | default {t} : t = 'r' ∨ t = 'e' → KeyOptions t none none .random
  | random {t} : t = 'r' ∨ t = 'e' → KeyOptions t (some 'r') none .random
  | hash {t} : t = 'r' ∨ t = 'e' → KeyOptions t (some 'h') none .sha256
  | user {t c} : t = 'r' ∨ t = 'e' → c.value ≠ [] → ¬ Reserved c → KeyOptions t none (some c) (.user c)

/-- The key `k` of the identity `n`, and that identity, become the default. -/
def makeDefault (v : View) (n k : PName) : View := { v with defKey := upd v.defKey n (some k), defIdent := some n }

/-- The certificate `c` of the key `k` of the identity `i` is stored. A default that is not set is set in any case. -/
def installed (v : View) (i k : PName) (c : Crt) (identDef keyDef certDef : Bool) : View :=
  { v with
    cert := upd v.cert c.name (some c)
    defCert := upd v.defCert k (if certDef then some c.name else orElse (v.defCert k) c.name)
    defKey := upd v.defKey i (if keyDef then some k else orElse (v.defKey i) k)
    defIdent := if identDef then some i else orElse v.defIdent i }

/-- The result is a certificate made of these fields, with a signature as `ok` says, unless it cannot be encoded. -/
def Issues (C : Crypto K) (f : DFields) (si : SigInfo) (ok : Bytes → Bytes → Prop) (r : Exit) : Prop :=
  (Encodable C (.reset f) si → ∃ d, r = .code 0 (.data d) ∧ IsCert d ∧ SignedAs (.reset f) si ok d) ∧
  ((∃ d, r = .code 0 (.data d) ∧ IsCert d) ∨ Bad r)

/-- The SignatureInfo of a certificate signed by the key `k`, with these other elements. -/
def certInfo (C : Crypto K) (v : View) (k : PName) (bits : Bytes) (rest : List Raw) : SigInfo :=
  ⟨(C.keyType bits).map kindNo, some (.name (locator v k)), rest⟩

/-- The elements of a SignatureInfo after another is added; it takes the place of one of the same type. -/
def withCustom (l : List Raw) (r : Raw) : List Raw := (SObj.addCustom ⟨none, ⟨none, none, l⟩⟩ r).s.others

open Classical in
/-- What a command does. -/
def CmdStep (C : Crypto K) (x : Store K) (cmd : Cmd K) (r : Exit) (y : Store K) : Prop :=
  match cmd with
  | .delete k c n =>
    if k = true ∧ c = true then Usage r ∧ y = x
    else if c = true then if (x.v.cert n).isSome then Good r ∧ y = ⟨x.v.removeCert n, x.priv⟩ else Bad r ∧ y = x
    else if k = true then if (x.v.key n).isSome then Good r ∧ y = ⟨x.v.removeKey n, upd x.priv n none⟩ else Bad r ∧ y = x
    else if x.v.ident n = true then
      Good r ∧ y = ⟨x.v.removeIdent n, fun m => if KeyName n m ∧ (x.v.key m).isSome then none else x.priv m⟩
    else Bad r ∧ y = x
  | .setDefault k c n =>
    if k = true ∧ c = true then Usage r ∧ y = x
    else if k = true then
      if (x.v.key n).isSome then Good r ∧ ∃ i, KeyName i n ∧ y = ⟨{ x.v with defKey := upd x.v.defKey i (some n) }, x.priv⟩ else Bad r ∧ y = x
    else if c = true then
      if (x.v.cert n).isSome then Good r ∧ ∃ i k z, x.v.cert n = some z ∧ KeyName i k ∧ CertName k n ∧
        y = ⟨installed x.v i k z false false true, x.priv⟩
      else Bad r ∧ y = x
    else if x.v.ident n = true then Good r ∧ y = ⟨{ x.v with defIdent := some n }, x.priv⟩
    else Bad r ∧ y = x
  | .getDefault k c i key => y = x ∧
    if (k = true ∧ c = true) ∨ (i.isSome ∧ key.isSome) then Usage r
    else match key, i with
      | some m, _ => if c = true then Shows (x.v.defCert m) r else Usage r
      | none, some j =>
        if k = true then Shows (x.v.defKey j) r
        else if c = true then Shows ((x.v.defKey j).bind x.v.defCert) r
        else if (x.v.defKey j).isSome then Usage r else Bad r
      | none, none =>
        if k = true then Shows (x.v.defIdent.bind x.v.defKey) r
        else if c = true then Shows ((x.v.defIdent.bind x.v.defKey).bind x.v.defCert) r
        else Shows x.v.defIdent r
  | .keyGen n d t kt kid e =>
    (∃ id k v z, KeyOptions t kt kid id ∧ KeyAdded C (withIdent x.v n) x.priv n id e k v y.priv ∧
      v.defCert k = some z.name ∧ v.cert z.name = some z ∧ r = .code 0 (.cert z) ∧ y.v = if d = true then v else makeDefault v n k) ∨
    (∃ id, KeyOptions t kt kid id ∧ (∀ o, r ≠ .code 0 o) ∧ ¬ Possible C n id e x.priv ∧ Grows x.v y.v ∧ ∀ m z, x.priv m = some z → y.priv m = some z) ∨
    ((¬ ∃ id, KeyOptions t kt kid id) ∧ Usage r ∧ y = x)
  | .certInstall id kd nd c =>
    if (id = true ∧ kd = true) ∨ (id = true ∧ nd = true) ∨ (kd = true ∧ nd = true) then Usage r ∧ y = x
    else ∃ i k, KeyName i k ∧ CertName k c.name ∧
      if x.v.key k = some c.pub then Good r ∧ y = ⟨installed x.v i k c (!(id || kd || nd)) (!(kd || nd)) (!nd), x.priv⟩
      else Bad r ∧ y = x
  | .import_ c enc pw msg =>
    ∃ i k, KeyName i k ∧ CertName k c.name ∧
      if Importable C x.priv k c enc pw msg then
        ∃ z, C.load enc pw = some z ∧ Good r ∧ x.v.key k = none ∧
          y = ⟨((withIdent x.v i).addKey i k c.pub).addCert c, upd x.priv k (some (some z))⟩
      else Bad r ∧ y = x
  | .signReq k n version validity => y = x ∧
    match (if k = true then (if (x.v.key n).isSome then some n else none) else x.v.defKey n) with
    | none => Bad r
    | some m => ∃ bits, x.v.key m = some bits ∧
      Issues C (certFields m bits ⟨requestComp, version, 3600000, validity⟩) (certInfo C x.v m bits [validity])
        (fun u sig => C.verify bits u sig = true) r
  | .certGen signId info issuer nb na period version req => y = x ∧
    if (∃ t, na = some t ∧ t < nb) ∨ Reserved issuer then Usage r
    else if (C.keyType req.pub).isSome ∧ (∃ k, CertName k req.name) then
      ∃ k, CertName k req.name ∧
        let o : CertOpts := ⟨issuer, version, 3600000, period nb (na.getD (nb + 365 * 86400))⟩
        match (match signId with | some i => x.v.defKey i | none => x.v.defIdent.bind x.v.defKey) with
        | some m => ∃ bits, x.v.key m = some bits ∧
          Issues C (certFields k req.pub o) (certInfo C x.v m bits (withCustom info.toList o.validity))
            (fun u sig => C.verify bits u sig = true) r
        | none =>
          if signId = none ∧ x.v.defIdent = none then
            Issues C (certFields k req.pub o) ⟨some 0, none, withCustom info.toList o.validity⟩ (fun u sig => sig = C.sha u) r
          else Bad r
    else Bad r
  | .certDump i k n => y = x ∧
    if i = true ∧ k = true then Usage r
    else if i = true then ShowsCert (((x.v.defKey n).bind x.v.defCert).bind x.v.cert) r
    else if k = true then ShowsCert ((x.v.defCert n).bind x.v.cert) r
    else ShowsCert (x.v.cert n) r

/-- The commands covered: a new key does not get the name of a stored one by way of a digest; what is given as a
certificate is one, and not another one with the name of the default certificate of its key; the test message tells
whether an imported key is the one of the certificate. -/
def CmdFits (C : Crypto K) (x : Store K) : Cmd K → Prop
  | .keyGen n _ t kt kid e => ∀ id, KeyOptions t kt kid id → Fresh C n id e.gen x.priv
  | .certInstall _ _ _ c => ∃ k, CertName k c.name ∧ (x.v.defCert k = some c.name → x.v.cert c.name = some c)
  | .import_ c enc pw msg => (∃ k, CertName k c.name) ∧ TestSound C c enc pw msg
  | _ => True

/-- The command deletes an identity. -/
def DeletesIdent (cmd : Cmd K) : Prop := ∃ n, cmd = .delete false false n

/-- The files after commands were run one after the other, each by a new process, which may be killed at any access to the
files unless it deletes an identity; and what the files hold. -/
inductive Reached (C : Crypto K) (b : Backend σ) : Store K → σ × List (PName × Option K) → Prop
  | start : Reached C b Store.empty (b.init, [])
  | next {x e cmd cut y} : Reached C b x e → CmdFits C x cmd → (cut.isSome → ¬ DeletesIdent cmd) →
      Holds b (exec C b e cmd cut).2 y → Coherent y.v → Reached C b y (exec C b e cmd cut).2

end Ndn.Ndnsec.Spec
