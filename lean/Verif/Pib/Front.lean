import Verif.Pib.Model
/-
Model of the front end of the PIB: `Pib` (security/pib/pib.cpp), the three containers
(security/pib/{identity,key,certificate}-container.cpp), `IdentityImpl` and `KeyImpl`
(security/pib/impl/{identity,key}-impl.cpp) and the handles `Identity` and `Key` (security/pib/{identity,key}.cpp),
which are weak pointers to them. The write operations are those `KeyChain` calls.

Simplifications:
* A handle is a number, given to each object when it is created; a handle whose object no longer exists is expired.
* The keys of all `IdentityImpl` objects are in one list; `KeyContainer` only holds keys below its identity, and there
  is at most one `IdentityImpl` per identity.
* A failed `BOOST_ASSERT` is the outcome `ub`. The key type and the TPM locator are not modelled.
-/
namespace Ndn.Pib
open Ndn.Name

/-- `KeyImpl` with its `CertificateContainer`, key-impl.hpp 121-130, certificate-container.hpp 148-156. -/
structure KeyObj where
  h : Nat
  name : PName
  bits : Bytes
  certNames : List PName
  certs : List (PName × Crt)
  dcert : Option Crt
  deriving DecidableEq, Repr

/-- `IdentityImpl` with the names in its `KeyContainer`, identity-impl.hpp 99-105. -/
structure IdObj where
  h : Nat
  name : PName
  keyNames : List PName
  dkey : Option Nat
  deriving DecidableEq, Repr

/-- `Pib` with its `IdentityContainer`, pib.hpp 149-153. -/
structure Front (σ : Type) where
  db : σ
  names : List PName
  ids : List IdObj
  keys : List KeyObj
  dident : Option Nat
  next : Nat

/-- What the caller sees: a handle, a list of names, key bits, a certificate, nothing, a `Pib::Error`,
`std::invalid_argument`, `std::domain_error` (expired handle), a failed assertion. -/
inductive Out where
  | ident (h : Nat)
  | key (h : Nat)
  | names (l : List PName)
  | bits (b : Bytes)
  | cert (c : Crt)
  | done
  | refused
  | invalid
  | dead
  | ub
  deriving DecidableEq, Repr

def Res.out {α : Type} (f : α → Out) : Res α → Out
  | .ok a => f a
  | .refused => .refused
  | .invalid => .invalid
  | .ub => .ub

/-- An exception, passed on. -/
def Res.pass {α β : Type} : Res α → Res β
  | .refused => .refused
  | .invalid => .invalid
  | _ => .ub

def sameSet (a b : List PName) : Bool := a.all (fun n => decide (n ∈ b)) && b.all (fun n => decide (n ∈ a))

def insName (n : PName) (l : List PName) : List PName := if n ∈ l then l else n :: l
def delName (n : PName) (l : List PName) : List PName := l.filter (fun m => decide (m ≠ n))

namespace Front
variable {σ : Type} (b : Backend σ)

/-- A `Pib` over a back end, pib.cpp 30-36, identity-container.cpp 41-46. -/
def start (s : σ) : Front σ := ⟨s, b.getIdentities s, [], [], none, 0⟩

def ident? (fr : Front σ) (h : Nat) : Option IdObj := fr.ids.find? (fun o => decide (o.h = h))
def key? (fr : Front σ) (h : Nat) : Option KeyObj := fr.keys.find? (fun o => decide (o.h = h))
def identNamed (fr : Front σ) (n : PName) : Option IdObj := fr.ids.find? (fun o => decide (o.name = n))
def keyNamed (fr : Front σ) (n : PName) : Option KeyObj := fr.keys.find? (fun o => decide (o.name = n))
def updIdent (fr : Front σ) (h : Nat) (f : IdObj → IdObj) : Front σ :=
  { fr with ids := fr.ids.map (fun o => if o.h = h then f o else o) }
def updKey (fr : Front σ) (h : Nat) (f : KeyObj → KeyObj) : Front σ :=
  { fr with keys := fr.keys.map (fun o => if o.h = h then f o else o) }

/-- `IdentityContainer::isConsistent`, identity-container.cpp 112-116. -/
def identsConsistent (fr : Front σ) : Bool := sameSet fr.names (b.getIdentities fr.db)

/-- `KeyContainer::isConsistent`, key-container.cpp 112-116. -/
def keysConsistent (fr : Front σ) (o : IdObj) : Bool :=
  match b.getKeysOfIdentity fr.db o.name with
  | .ok l => sameSet o.keyNames l
  | _ => false

/-- `CertificateContainer::isConsistent`, certificate-container.cpp 105-109. -/
def certsConsistent (fr : Front σ) (o : KeyObj) : Bool :=
  match b.getCertificatesOfKey fr.db o.name with
  | .ok l => sameSet o.certNames l
  | _ => false

/-- Creating an `IdentityImpl`: `IdentityImpl::IdentityImpl`, identity-impl.cpp 30-37, and
`KeyContainer::KeyContainer`, key-container.cpp 41-47. -/
def newIdent (n : PName) (fr : Front σ) : Res Nat × Front σ :=
  match b.getKeysOfIdentity fr.db n with
  | .ok l =>
    if b.hasIdentity fr.db n then
      (.ok fr.next, { fr with ids := ⟨fr.next, n, l, none⟩ :: fr.ids, next := fr.next + 1 })
    else (.ub, fr)
  | r => (r.pass, fr)

/-- `IdentityContainer::get`, identity-container.cpp 87-102. -/
def identGet (n : PName) (fr : Front σ) : Res Nat × Front σ :=
  match fr.identNamed n with
  | some o => (.ok o.h, fr)
  | none => if b.hasIdentity fr.db n then newIdent b n fr else (.refused, fr)

/-- `IdentityContainer::add`, identity-container.cpp 54-70. -/
def identAdd (n : PName) (fr : Front σ) : Res Nat × Front σ :=
  if n ∈ fr.names then identGet b n fr
  else
    let fr := { fr with names := n :: fr.names, db := b.addIdentity fr.db n }
    match fr.identNamed n with
    | some _ => (.ub, fr)
    | none => newIdent b n fr

/-- `Pib::addIdentity`, pib.cpp 67-72. -/
def addIdentity (n : PName) (fr : Front σ) : Out × Front σ :=
  if fr.identsConsistent b then
    let r := identAdd b n fr
    (r.1.out .ident, r.2)
  else (.ub, fr)

/-- Destroying the `IdentityImpl` of an identity, and with it its `KeyImpl` objects. -/
def dropIdent (n : PName) (fr : Front σ) : Front σ :=
  { fr with
    names := delName n fr.names
    ids := fr.ids.filter (fun o => decide (o.name ≠ n))
    keys := fr.keys.filter (fun o => decide (identityOf o.name ≠ some n)) }

/-- `Pib::removeIdentity`, pib.cpp 74-84, and `IdentityContainer::remove`, identity-container.cpp 73-85. -/
def removeIdentity (n : PName) (fr : Front σ) : Out × Front σ :=
  if fr.identsConsistent b then
    let fr := match fr.dident.bind fr.ident? with
      | some o => if o.name = n then { fr with dident := none } else fr
      | none => fr
    let bad := decide (n ∉ fr.names) && (fr.identNamed n).isSome
    if bad then (.ub, fr)
    else
      let fr := if n ∈ fr.names then fr.dropIdent n else fr
      let r := b.removeIdentity fr.db n
      (r.1.out (fun _ => .done), { fr with db := r.2 })
  else (.ub, fr)

/-- `Pib::getIdentity`, pib.cpp 86-91. -/
def getIdentity (n : PName) (fr : Front σ) : Out × Front σ :=
  if fr.identsConsistent b then
    let r := identGet b n fr
    (r.1.out .ident, r.2)
  else (.ub, fr)

/-- The names given by iterating `Pib::getIdentities`, pib.cpp 93-98. -/
def identities (fr : Front σ) : Out × Front σ :=
  if fr.identsConsistent b then (.names fr.names, fr) else (.ub, fr)

/-- `Pib::setDefaultIdentity`, pib.cpp 100-111. -/
def setDefaultIdentity (n : PName) (fr : Front σ) : Out × Front σ :=
  if fr.identsConsistent b then
    match identAdd b n fr with
    | (.ok h, fr) =>
      let r := b.setDefaultIdentity fr.db n
      (r.1.out (fun _ => .ident h), { fr with dident := some h, db := r.2 })
    | (r, fr) => (r.out .ident, fr)
  else (.ub, fr)

/-- `Pib::getDefaultIdentity`, pib.cpp 113-126. -/
def getDefaultIdentity (fr : Front σ) : Out × Front σ :=
  if fr.identsConsistent b then
    match fr.dident.bind fr.ident? with
    | some o => if b.getDefaultIdentity fr.db = .ok o.name then (.ident o.h, fr) else (.ub, fr)
    | none => match b.getDefaultIdentity fr.db with
      | .ok n => match identGet b n fr with
        | (.ok h, fr) => (.ident h, { fr with dident := some h })
        | (r, fr) => (r.out .ident, fr)
      | r => (r.out (fun _ => .ub), fr)
  else (.ub, fr)

/-- Creating a `KeyImpl` and keeping it in the container: `KeyImpl::KeyImpl`, key-impl.cpp 31-49, and
`CertificateContainer::CertificateContainer`, certificate-container.cpp 40-46. -/
def newKey (k : PName) (bits : Bytes) (fr : Front σ) : Res Nat × Front σ :=
  match b.getCertificatesOfKey fr.db k with
  | .ok l =>
    if b.hasKey fr.db k then
      (.ok fr.next, { fr with
        keys := ⟨fr.next, k, bits, l, [], none⟩ :: fr.keys.filter (fun o => decide (o.name ≠ k))
        next := fr.next + 1 })
    else (.ub, fr)
  | r => (r.pass, fr)

/-- `KeyContainer::add`, key-container.cpp 55-70. -/
def keyAdd (o : IdObj) (bits : Bytes) (k : PName) (fr : Front σ) : Res Nat × Front σ :=
  if identityOf k = some o.name then
    let fr := fr.updIdent o.h (fun o => { o with keyNames := insName k o.keyNames })
    newKey b k bits { fr with db := b.addKey fr.db o.name k bits }
  else (.invalid, fr)

/-- `KeyContainer::get`, key-container.cpp 91-110. -/
def keyGet (o : IdObj) (k : PName) (fr : Front σ) : Res Nat × Front σ :=
  if identityOf k = some o.name then
    match fr.keyNamed k with
    | some ko => (.ok ko.h, fr)
    | none => match b.getKeyBits fr.db k with
      | .ok bits => newKey b k bits fr
      | r => (r.pass, fr)
  else (.invalid, fr)

/-- The name of an identity, identity.cpp 34-38. -/
def identName (h : Nat) (fr : Front σ) : Out × Front σ :=
  match fr.ident? h with
  | none => (.dead, fr)
  | some o => (.names [o.name], fr)

/-- `Identity::addKey`, identity.cpp 40-44 and identity-impl.cpp 39-44. -/
def identAddKey (h : Nat) (bits : Bytes) (k : PName) (fr : Front σ) : Out × Front σ :=
  match fr.ident? h with
  | none => (.dead, fr)
  | some o =>
    if fr.keysConsistent b o then
      let r := keyAdd b o bits k fr
      (r.1.out .key, r.2)
    else (.ub, fr)

/-- `Identity::removeKey`, identity.cpp 46-50 and identity-impl.cpp 46-56; `KeyContainer::remove`,
key-container.cpp 72-89. -/
def identRemoveKey (h : Nat) (k : PName) (fr : Front σ) : Out × Front σ :=
  match fr.ident? h with
  | none => (.dead, fr)
  | some o =>
    if fr.keysConsistent b o then
      let fr := match o.dkey.bind fr.key? with
        | some ko => if ko.name = k then fr.updIdent h (fun o => { o with dkey := none }) else fr
        | none => fr
      if identityOf k = some o.name then
        if k ∉ o.keyNames ∧ (fr.keyNamed k).isSome then (.ub, fr)
        else
          let fr := fr.updIdent h (fun o => { o with keyNames := delName k o.keyNames })
          let fr := { fr with keys := fr.keys.filter (fun o => decide (o.name ≠ k)) }
          let r := b.removeKey fr.db k
          (r.1.out (fun _ => .done), { fr with db := r.2 })
      else (.invalid, fr)
    else (.ub, fr)

/-- `Identity::getKey`, identity.cpp 52-56 and identity-impl.hpp 66-71. -/
def identGetKey (h : Nat) (k : PName) (fr : Front σ) : Out × Front σ :=
  match fr.ident? h with
  | none => (.dead, fr)
  | some o =>
    if fr.keysConsistent b o then
      let r := keyGet b o k fr
      (r.1.out .key, r.2)
    else (.ub, fr)

/-- The names given by iterating `Identity::getKeys`, identity.cpp 58-62 and identity-impl.hpp 73-78. -/
def identKeys (h : Nat) (fr : Front σ) : Out × Front σ :=
  match fr.ident? h with
  | none => (.dead, fr)
  | some o => if fr.keysConsistent b o then (.names o.keyNames, fr) else (.ub, fr)

/-- `IdentityImpl::setDefaultKey(Key)`, identity-impl.cpp 58-69. -/
def setDefaultKeyObj (h kh : Nat) (k : PName) (fr : Front σ) : Out × Front σ :=
  match fr.ident? h with
  | none => (.dead, fr)
  | some o =>
    if fr.keysConsistent b o then
      let fr := fr.updIdent h (fun o => { o with dkey := some kh })
      let r := b.setDefaultKey fr.db o.name k
      (r.1.out (fun _ => .key kh), { fr with db := r.2 })
    else (.ub, fr)

/-- `Identity::setDefaultKey(keyName)`, identity.cpp 64-68 and identity-impl.hpp 80-84. -/
def identSetDefaultKey (h : Nat) (k : PName) (fr : Front σ) : Out × Front σ :=
  match fr.ident? h with
  | none => (.dead, fr)
  | some o => match keyGet b o k fr with
    | (.ok kh, fr) => setDefaultKeyObj b h kh k fr
    | (r, fr) => (r.out .key, fr)

/-- `Identity::setDefaultKey(key, keyName)`, identity.cpp 70-74 and identity-impl.hpp 86-90. -/
def identSetDefaultNewKey (h : Nat) (bits : Bytes) (k : PName) (fr : Front σ) : Out × Front σ :=
  match fr.ident? h with
  | none => (.dead, fr)
  | some o => match keyAdd b o bits k fr with
    | (.ok kh, fr) => setDefaultKeyObj b h kh k fr
    | (r, fr) => (r.out .key, fr)

/-- `Identity::getDefaultKey`, identity.cpp 76-80 and identity-impl.cpp 71-84. -/
def identGetDefaultKey (h : Nat) (fr : Front σ) : Out × Front σ :=
  match fr.ident? h with
  | none => (.dead, fr)
  | some o =>
    if fr.keysConsistent b o then
      match o.dkey.bind fr.key? with
      | some ko => if b.getDefaultKey fr.db o.name = .ok ko.name then (.key ko.h, fr) else (.ub, fr)
      | none => match b.getDefaultKey fr.db o.name with
        | .ok k => match keyGet b o k fr with
          | (.ok kh, fr) => (.key kh, fr.updIdent h (fun o => { o with dkey := some kh }))
          | (r, fr) => (r.out .key, fr)
        | r => (r.out (fun _ => .ub), fr)
    else (.ub, fr)

/-- The name of a key, key.cpp 35-39. -/
def keyName (h : Nat) (fr : Front σ) : Out × Front σ :=
  match fr.key? h with
  | none => (.dead, fr)
  | some o => (.names [o.name], fr)

/-- `Key::getPublicKey`, key.cpp 53-57. -/
def keyBits (h : Nat) (fr : Front σ) : Out × Front σ :=
  match fr.key? h with
  | none => (.dead, fr)
  | some o => (.bits o.bits, fr)

/-- `CertificateContainer::add`, certificate-container.cpp 54-68. -/
def certAdd (o : KeyObj) (c : Crt) (fr : Front σ) : Res Unit × Front σ :=
  if o.name = c.keyName then
    let fr := fr.updKey o.h (fun o => { o with certNames := insName c.name o.certNames, certs := put c.name c o.certs })
    (.ok (), { fr with db := b.addCertificate fr.db c })
  else (.invalid, fr)

/-- `CertificateContainer::get`, certificate-container.cpp 89-103. -/
def certGet (o : KeyObj) (c : PName) (fr : Front σ) : Res Crt × Front σ :=
  if keyOf c = some o.name then
    match get c o.certs with
    | some x => (.ok x, fr)
    | none => match b.getCertificate fr.db c with
      | .ok x => (.ok x, fr.updKey o.h (fun o => { o with certs := put c x o.certs }))
      | r => (r, fr)
  else (.invalid, fr)

/-- `Key::addCertificate`, key.cpp 59-63 and key-impl.cpp 51-62. -/
def keyAddCert (h : Nat) (c : Crt) (fr : Front σ) : Out × Front σ :=
  match fr.key? h with
  | none => (.dead, fr)
  | some o =>
    if fr.certsConsistent b o then
      if o.bits = c.pub then
        let r := certAdd b o c fr
        (r.1.out (fun _ => .done), r.2)
      else (.invalid, fr)
    else (.ub, fr)

/-- `Key::removeCertificate`, key.cpp 65-69 and key-impl.cpp 64-74; `CertificateContainer::remove`,
certificate-container.cpp 70-87. -/
def keyRemoveCert (h : Nat) (c : PName) (fr : Front σ) : Out × Front σ :=
  match fr.key? h with
  | none => (.dead, fr)
  | some o =>
    if fr.certsConsistent b o then
      let fr := match o.dcert with
        | some x => if x.name = c then fr.updKey h (fun o => { o with dcert := none }) else fr
        | none => fr
      if keyOf c = some o.name then
        if c ∉ o.certNames ∧ (get c o.certs).isSome then (.ub, fr)
        else
          let fr := fr.updKey h (fun o => { o with certNames := delName c o.certNames, certs := del c o.certs })
          let r := b.removeCertificate fr.db c
          (r.1.out (fun _ => .done), { fr with db := r.2 })
      else (.invalid, fr)
    else (.ub, fr)

/-- `Key::getCertificate`, key.cpp 71-75 and key-impl.hpp 87-92. -/
def keyGetCert (h : Nat) (c : PName) (fr : Front σ) : Out × Front σ :=
  match fr.key? h with
  | none => (.dead, fr)
  | some o =>
    if fr.certsConsistent b o then
      let r := certGet b o c fr
      (r.1.out .cert, r.2)
    else (.ub, fr)

/-- The names given by iterating `Key::getCertificates`, key.cpp 77-81 and key-impl.hpp 94-99. -/
def keyCerts (h : Nat) (fr : Front σ) : Out × Front σ :=
  match fr.key? h with
  | none => (.dead, fr)
  | some o => if fr.certsConsistent b o then (.names o.certNames, fr) else (.ub, fr)

/-- `KeyImpl::setDefaultCert`, key-impl.cpp 76-86. -/
def setDefaultCertObj (h : Nat) (x : Crt) (out : Out) (fr : Front σ) : Out × Front σ :=
  match fr.key? h with
  | none => (.dead, fr)
  | some o =>
    if fr.certsConsistent b o then
      let fr := fr.updKey h (fun o => { o with dcert := some x })
      let r := b.setDefaultCertificate fr.db o.name x.name
      (r.1.out (fun _ => out), { fr with db := r.2 })
    else (.ub, fr)

/-- `Key::setDefaultCertificate(certName)`, key.cpp 83-87 and key-impl.hpp 101-105. -/
def keySetDefaultCert (h : Nat) (c : PName) (fr : Front σ) : Out × Front σ :=
  match fr.key? h with
  | none => (.dead, fr)
  | some o => match certGet b o c fr with
    | (.ok x, fr) => setDefaultCertObj b h x (.cert x) fr
    | (r, fr) => (r.out .cert, fr)

/-- `Key::setDefaultCertificate(cert)`, key.cpp 89-93 and key-impl.hpp 107-112. -/
def keySetDefaultNewCert (h : Nat) (c : Crt) (fr : Front σ) : Out × Front σ :=
  match fr.key? h with
  | none => (.dead, fr)
  | some o => match certAdd b o c fr with
    | (.ok (), fr) => setDefaultCertObj b h c .done fr
    | (r, fr) => (r.out (fun _ => .done), fr)

/-- `Key::getDefaultCertificate`, key.cpp 95-99 and key-impl.cpp 88-101. -/
def keyGetDefaultCert (h : Nat) (fr : Front σ) : Out × Front σ :=
  match fr.key? h with
  | none => (.dead, fr)
  | some o =>
    if fr.certsConsistent b o then
      match o.dcert with
      | some x => match b.getDefaultCertificate fr.db o.name with
        | .ok y => if x.name = y.name then (.cert x, fr) else (.ub, fr)
        | _ => (.ub, fr)
      | none => match b.getDefaultCertificate fr.db o.name with
        | .ok x => (.cert x, fr.updKey h (fun o => { o with dcert := some x }))
        | r => (r.out .cert, fr)
    else (.ub, fr)

/-- `Pib::reset`, pib.cpp 58-65, and `IdentityContainer::reset`, identity-container.cpp 104-110. -/
def reset (fr : Front σ) : Out × Front σ :=
  let db := b.clear fr.db
  (.done, { fr with db := db, names := b.getIdentities db, ids := [], keys := [], dident := none })

end Front

/-- The calls of the front end; `h` is a handle. -/
inductive FOp where
  | addIdentity (n : PName)
  | removeIdentity (n : PName)
  | getIdentity (n : PName)
  | identities
  | setDefaultIdentity (n : PName)
  | getDefaultIdentity
  | identName (h : Nat)
  | addKey (h : Nat) (bits : Bytes) (k : PName)
  | removeKey (h : Nat) (k : PName)
  | getKey (h : Nat) (k : PName)
  | keys (h : Nat)
  | setDefaultKey (h : Nat) (k : PName)
  | setDefaultNewKey (h : Nat) (bits : Bytes) (k : PName)
  | getDefaultKey (h : Nat)
  | keyName (h : Nat)
  | keyBits (h : Nat)
  | addCert (h : Nat) (c : Crt)
  | removeCert (h : Nat) (c : PName)
  | getCert (h : Nat) (c : PName)
  | certs (h : Nat)
  | setDefaultCert (h : Nat) (c : PName)
  | setDefaultNewCert (h : Nat) (c : Crt)
  | getDefaultCert (h : Nat)
  | reset
  deriving DecidableEq, Repr

/-- One call. -/
def fstep {σ : Type} (b : Backend σ) (fr : Front σ) : FOp → Out × Front σ
  | .addIdentity n => fr.addIdentity b n
  | .removeIdentity n => fr.removeIdentity b n
  | .getIdentity n => fr.getIdentity b n
  | .identities => fr.identities b
  | .setDefaultIdentity n => fr.setDefaultIdentity b n
  | .getDefaultIdentity => fr.getDefaultIdentity b
  | .identName h => fr.identName h
  | .addKey h bits k => fr.identAddKey b h bits k
  | .removeKey h k => fr.identRemoveKey b h k
  | .getKey h k => fr.identGetKey b h k
  | .keys h => fr.identKeys b h
  | .setDefaultKey h k => fr.identSetDefaultKey b h k
  | .setDefaultNewKey h bits k => fr.identSetDefaultNewKey b h bits k
  | .getDefaultKey h => fr.identGetDefaultKey b h
  | .keyName h => fr.keyName h
  | .keyBits h => fr.keyBits h
  | .addCert h c => fr.keyAddCert b h c
  | .removeCert h c => fr.keyRemoveCert b h c
  | .getCert h c => fr.keyGetCert b h c
  | .certs h => fr.keyCerts b h
  | .setDefaultCert h c => fr.keySetDefaultCert b h c
  | .setDefaultNewCert h c => fr.keySetDefaultNewCert b h c
  | .getDefaultCert h => fr.keyGetDefaultCert b h
  | .reset => fr.reset b

/-- Several calls. -/
def frun {σ : Type} (b : Backend σ) : List FOp → Front σ → List Out × Front σ
  | [], fr => ([], fr)
  | op :: ops, fr =>
    let r := fstep b fr op
    let q := frun b ops r.2
    (r.1 :: q.1, q.2)

end Ndn.Pib
