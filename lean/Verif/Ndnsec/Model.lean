import Verif.KeyChain.Model
/-
Model of the program `ndnsec` (tools/ndnsec/*.cpp), which runs one command on the default key chain and ends. The
commands use the model of the key chain (`Verif.KeyChain.Model`).

Simplifications:
* The options are given after `boost::program_options` has read them; help and missing names are left out.
* Files and standard input are given by what is read from them: a certificate, or a certificate with an encrypted key.
* Passphrases are given; prompting for them is left out.
* The key chain is one that opens (locators are the subject of `Verif.Locator`), its TPM keeps a map from names to keys.
* What is printed is the name or packet, not its text. `list`, `export` and `--pretty` are left out, `cert-dump` only
  reads from the key chain.
-/
namespace Ndn.Ndnsec
open Ndn.Name Ndn.Tlv Ndn.Block Ndn.Packet Ndn.Pib Ndn.KeyChain

variable {σ K : Type}

/-- What a command writes to its standard output. -/
inductive Shown where
  | nothing
  | name (n : PName)
  | cert (c : Crt)
  | data (d : DObj)
  deriving DecidableEq, Repr

/-- How the program ends: with an exit code, by a failed assertion, or not at all. -/
inductive Exit where
  | code (n : Nat) (out : Shown)
  | abort
  | hangs
  deriving DecidableEq, Repr

/-- The commands with their options, named as the options are. What is drawn at random or read from the clock is given
as well. -/
inductive Cmd (K : Type) where
  | delete (k c : Bool) (n : PName)
  | setDefault (k c : Bool) (n : PName)
  | getDefault (k c : Bool) (i : Option PName) (key : Option PName)
  | keyGen (n : PName) (notDefault : Bool) (type : Char) (keyidType : Option Char) (keyid : Option Comp) (e : Env K)
  | certInstall (identityDefault keyDefault noDefault : Bool) (c : Crt)
  | import_ (c : Crt) (enc pw msg : Bytes)
  | signReq (k : Bool) (n : PName) (version : Nat) (validity : Raw)
  | certGen (signId : Option PName) (info : Option Raw) (issuer : Comp) (notBefore : Nat) (notAfter : Option Nat)
      (period : Nat → Nat → Raw) (version : Nat) (req : Crt)
  | certDump (i k : Bool) (n : PName)

/-- `std::invalid_argument` if there is none. -/
def orInvalid {α : Type} : Option α → KM σ K α
  | none => raise .invalid
  | some a => pure a

/-- `extractIdentityFromCertName`, certificate.cpp 186-195; `none`: `std::invalid_argument`. -/
def certIdentity (c : PName) : Option PName := if validCert c then some (c.take (c.length - 4)) else none

/-- `getIdentity(extractIdentityFromKeyName(n))` and `getKey(n)`, as in delete.cpp 94-97, set-default.cpp 81-82,
get-default.cpp 83-85, sign-req.cpp 82-83 and util.cpp 80-82. -/
def keyByName (b : Backend σ) (n : PName) : KM σ K (Nat × Nat) := do
  let i ← orInvalid (identityOf n)
  let h ← pibIdent b (.getIdentity i)
  let k ← pibKey b (.getKey h n)
  pure (h, k)

/-- `getIdentity(extractIdentityFromCertName(n))` and `getKey(extractKeyNameFromCertName(n))`, as in delete.cpp 85-87,
set-default.cpp 86-87 and util.cpp 85-86. -/
def keyByCert (b : Backend σ) (n : PName) : KM σ K (Nat × Nat) := do
  let i ← orInvalid (certIdentity n)
  let h ← pibIdent b (.getIdentity i)
  let m ← orInvalid (keyOf n)
  let k ← pibKey b (.getKey h m)
  pure (h, k)

/-- `ndnsec_delete`, delete.cpp 76-113. The exceptions caught there end the program as those caught in main.cpp do. -/
def delete (b : Backend σ) (k c : Bool) (n : PName) : KM σ K (Nat × Shown) :=
  if k && c then pure (2, .nothing)
  else if c then do
    let p ← keyByCert b n
    let x ← pibCert b (.getCert p.2 n)
    onKeyHandle b p.2 (.removeCert p.2 x.name)
    pure (0, .nothing)
  else if k then do
    let p ← keyByName b n
    deleteKey b p.1 p.2
    pure (0, .nothing)
  else do
    let h ← pibIdent b (.getIdentity n)
    deleteIdentity b h
    pure (0, .nothing)

/-- `ndnsec_set_default`, set-default.cpp 73-96. -/
def setDefault (b : Backend σ) (k c : Bool) (n : PName) : KM σ K (Nat × Shown) :=
  if k && c then pure (2, .nothing)
  else if k then do
    let p ← keyByName b n
    setDefaultKey b p.1 p.2
    pure (0, .nothing)
  else if c then do
    let p ← keyByCert b n
    let x ← pibCert b (.getCert p.2 n)
    onKeyHandle b p.2 (.setDefaultNewCert p.2 x)
    pure (0, .nothing)
  else do
    let h ← pibIdent b (.getIdentity n)
    setDefaultIdentity b h
    pure (0, .nothing)

/-- `key.getName()` printed. -/
def showKey (b : Backend σ) (k : Nat) : KM σ K (Nat × Shown) := do
  let l ← pibNames b (.keyName k)
  pure (0, .name (l.headD []))

/-- `key.getDefaultCertificate().getName()` printed. -/
def showDefCert (b : Backend σ) (k : Nat) : KM σ K (Nat × Shown) := do
  let x ← pibCert b (.getDefaultCert k)
  pure (0, .name x.name)

/-- `ndnsec_get_default`, get-default.cpp 69-128. -/
def getDefault (b : Backend σ) (k c : Bool) (i key : Option PName) : KM σ K (Nat × Shown) :=
  if k && c then pure (2, .nothing)
  else if i.isSome && key.isSome then pure (2, .nothing)
  else match key with
    | some m =>
      if c then do
        let p ← keyByName b m
        showDefCert b p.2
      else pure (2, .nothing)
    | none => match i with
      | some j => do
        let h ← pibIdent b (.getIdentity j)
        let kh ← pibKey b (.getDefaultKey h)
        if k then showKey b kh
        else if c then showDefCert b kh
        else pure (2, .nothing)
      | none => do
        let h ← pibIdent b .getDefaultIdentity
        if k then do
          let kh ← pibKey b (.getDefaultKey h)
          showKey b kh
        else if c then do
          let kh ← pibKey b (.getDefaultKey h)
          showDefCert b kh
        else do
          let l ← pibNames b (.identName h)
          pure (0, .name (l.headD []))

/-- Components that are not allowed in the place of a key or issuer ID: key-gen.cpp 93-95, cert-gen.cpp 127-129. -/
def isReserved (c : Comp) : Bool :=
  (decide (c.type = 1) && decide (c.value.length = 32)) || (decide (c.type = 2) && decide (c.value.length = 32)) || decide (c.type = 32)

/-- The parameters of the key, key-gen.cpp 81-137; `none`: exit code 2. -/
def keyParams (type : Char) (keyidType : Option Char) (keyid : Option Comp) : Option KeyId :=
  let id := match keyid, keyidType with
    | some _, some _ => none
    | some c, none => if c.value.isEmpty || isReserved c then none else some (.user c)
    | none, some 'h' => some .sha256
    | none, some 'r' => some .random
    | none, some _ => none
    | none, none => some .random
  if type = 'r' ∨ type = 'e' then id else none

/-- `ndnsec_key_gen`, key-gen.cpp 81-160. -/
def keyGen (C : Crypto K) (b : Backend σ) (n : PName) (notDefault : Bool) (type : Char) (keyidType : Option Char) (keyid : Option Comp)
    (e : Env K) : KM σ K (Nat × Shown) :=
  match keyParams type keyidType keyid with
  | none => pure (2, .nothing)
  | some id => do
    let p ← orPib
      (do
        let h ← pibIdent b (.getIdentity n)
        let k ← createKey C b e h id
        pure (h, k))
      (do
        let h ← createIdentity C b e n id
        let k ← pibKey b (.getDefaultKey h)
        pure (h, k))
    if notDefault then pure ()
    else do
      setDefaultKey b p.1 p.2
      setDefaultIdentity b p.1
    let x ← pibCert b (.getDefaultCert p.2)
    pure (0, .cert x)

/-- `ndnsec_cert_install`, cert-install.cpp 83-121. -/
def certInstall (b : Backend σ) (identityDefault keyDefault noDefault : Bool) (c : Crt) : KM σ K (Nat × Shown) :=
  if (identityDefault && keyDefault) || (identityDefault && noDefault) || (keyDefault && noDefault) then pure (2, .nothing)
  else do
    let h ← pibIdent b (.getIdentity c.identity)
    let k ← pibKey b (.getKey h c.keyName)
    onKeyHandle b k (.addCert k c)
    if identityDefault then do
      setDefaultKey b h k
      onKeyHandle b k (.setDefaultNewCert k c)
    else if keyDefault then onKeyHandle b k (.setDefaultNewCert k c)
    else if noDefault then pure ()
    else do
      setDefaultIdentity b h
      setDefaultKey b h k
      onKeyHandle b k (.setDefaultNewCert k c)
    pure (0, .nothing)

/-- `ndnsec_import`, import.cpp 76-93. -/
def importBag (C : Crypto K) (b : Backend σ) (c : Crt) (enc pw msg : Bytes) : KM σ K (Nat × Shown) := do
  importSafeBag C b c enc pw msg
  pure (0, .nothing)

/-- `cert-request`, sign-req.cpp 88. -/
def requestComp : Comp := ⟨8, [99, 101, 114, 116, 45, 114, 101, 113, 117, 101, 115, 116]⟩

/-- `ndnsec_sign_req`, sign-req.cpp 73-94; freshness one hour, as in key-chain.hpp 65. -/
def signReq (C : Crypto K) (b : Backend σ) (k : Bool) (n : PName) (version : Nat) (validity : Raw) : KM σ K (Nat × Shown) := do
  let kh ← if k then do
      let p ← keyByName b n
      pure p.2
    else do
      let h ← pibIdent b (.getIdentity n)
      pibKey b (.getDefaultKey h)
  let l ← pibNames b (.keyName kh)
  let d ← makeCert C b kh (SInfo.init.setPibKey (some kh) (some (l.headD []))) ⟨requestComp, version, 3600000, validity⟩
  pure (0, .data d)

/-- The signer, cert-gen.cpp 138-146. -/
def issuerInfo (signId : Option PName) (info : Option Raw) : SInfo K :=
  let p := match signId with
    | some i => SInfo.init.setSigningIdentity i
    | none => SInfo.init
  match info with
  | some r => { p with info := (SObj.addCustom ⟨none, SigInfo.init⟩ r).s }
  | none => p

/-- `ndnsec_cert_gen`, cert-gen.cpp 106-158: the times in seconds, `period` the ValidityPeriod of two of them, `info` the
AdditionalDescription if there is one. -/
def certGen (C : Crypto K) (b : Backend σ) (signId : Option PName) (info : Option Raw) (issuer : Comp) (notBefore : Nat)
    (notAfter : Option Nat) (period : Nat → Nat → Raw) (version : Nat) (req : Crt) : KM σ K (Nat × Shown) :=
  if notAfter.any (fun t => decide (t < notBefore)) then pure (2, .nothing)
  else if isReserved issuer then pure (2, .nothing)
  else do
    let d ← makeCertFor C b req (issuerInfo signId info)
      ⟨issuer, version, 3600000, period notBefore (notAfter.getD (notBefore + 365 * 86400))⟩
    pure (0, .data d)

/-- `getCertificateFromPib`, util.cpp 69-91. -/
def certFromPib (b : Backend σ) (i k : Bool) (n : PName) : KM σ K Crt :=
  if i then do
    let h ← pibIdent b (.getIdentity n)
    let kh ← pibKey b (.getDefaultKey h)
    pibCert b (.getDefaultCert kh)
  else if k then do
    let p ← keyByName b n
    pibCert b (.getDefaultCert p.2)
  else do
    let p ← keyByCert b n
    pibCert b (.getCert p.2 n)

/-- `ndnsec_cert_dump`, cert-dump.cpp 93-115, without `--file`. -/
def certDump (b : Backend σ) (i k : Bool) (n : PName) : KM σ K (Nat × Shown) :=
  if i && k then pure (2, .nothing)
  else do
    let x ← certFromPib b i k n
    pure (0, .cert x)

def command (C : Crypto K) (b : Backend σ) : Cmd K → KM σ K (Nat × Shown)
  | .delete k c n => delete b k c n
  | .setDefault k c n => setDefault b k c n
  | .getDefault k c i key => getDefault b k c i key
  | .keyGen n d t kt kid e => keyGen C b n d t kt kid e
  | .certInstall i k d c => certInstall b i k d c
  | .import_ c enc pw msg => importBag C b c enc pw msg
  | .signReq k n v p => signReq C b k n v p
  | .certGen s inf iss nb na p v req => certGen C b s inf iss nb na p v req
  | .certDump i k n => certDump b i k n

/-- The exceptions caught in `main`, main.cpp 94-99. -/
def exitOf : Except Err (Nat × Shown) → Exit
  | .ok r => .code r.1 r.2
  | .error .ub => .abort
  | .error .drawing => .hangs
  | .error _ => .code 1 .nothing

/-- A new process runs a command on what is stored. -/
def run (C : Crypto K) (b : Backend σ) (e : σ × List (PName × Option K)) (cmd : Cmd K) : Except Err (Nat × Shown) × St σ K :=
  command C b cmd ⟨Front.start b e.1, ⟨e.2, []⟩, []⟩

/-- How the command ends, and what is stored then. With `cut` the process is killed after that many accesses to the PIB or
the TPM, if there are so many. -/
def exec (C : Crypto K) (b : Backend σ) (e : σ × List (PName × Option K)) (cmd : Cmd K) (cut : Option Nat) :
    Option Exit × (σ × List (PName × Option K)) :=
  let r := run C b e cmd
  match cut.bind (fun j => (e :: r.2.trail.reverse)[j]?) with
  | some e' => (none, e')
  | none => (some (exitOf r.1), (r.2.pib.db, r.2.tpm.keys))

end Ndn.Ndnsec
