import Verif.Name.Model
/-
Model of the two PIB back ends: `PibMemory` (security/pib/impl/pib-memory.cpp) and `PibSqlite3`
(security/pib/impl/pib-sqlite3.cpp) with the tables, foreign keys and triggers of its schema.

Simplifications:
* A certificate is its name, its public key and everything else, as octets.
* `std::map` and `std::set` are association lists and lists without an order; only membership is observed.
* SQLite: each statement either succeeds or is the no-op the schema makes it; storage errors and concurrent users of
  the file are not modelled. Row ids are `max + 1`. SQLite leaves the effect of an UPDATE undefined when a BEFORE
  UPDATE trigger changes the row being updated, which the triggers of this schema do; the model takes what SQLite does
  in fact, which is to carry out the update.
* The TPM locator is not modelled.
-/
namespace Ndn.Pib
open Ndn.Name

abbrev PName := List Comp

/-- How a call ends: with a value, with a `Pib::Error`, with `std::invalid_argument`, or with a failed assertion
(undefined behaviour where assertions are disabled). -/
inductive Res (α : Type) where
  | ok (a : α)
  | refused
  | invalid
  | ub
  deriving DecidableEq, Repr

/-- A certificate. -/
structure Crt where
  name : PName
  pub : Bytes
  rest : Bytes
  deriving DecidableEq, Repr

/-- `Certificate::KEY_COMPONENT`, certificate.hpp 158: `KEY`. -/
def keyComp : Comp := ⟨8, [75, 69, 89]⟩

/-- `isValidKeyName`, key.cpp 132-137. -/
def validKey (k : PName) : Bool := decide (2 ≤ k.length) && k[k.length - 2]? == some keyComp

/-- `extractIdentityFromKeyName`, key.cpp 139-148; `none`: `std::invalid_argument`. -/
def identityOf (k : PName) : Option PName := if validKey k then some (k.take (k.length - 2)) else none

/-- `Certificate::isValidName`, certificate.cpp 111-117. -/
def validCert (c : PName) : Bool := decide (4 ≤ c.length) && c[c.length - 4]? == some keyComp

/-- `extractKeyNameFromCertName`, certificate.cpp 197-206; `none`: `std::invalid_argument`. -/
def keyOf (c : PName) : Option PName := if validCert c then some (c.take (c.length - 2)) else none

/-- `Certificate::getKeyName`, certificate.cpp 71-75. -/
def Crt.keyName (c : Crt) : PName := c.name.take (c.name.length - 2)

/-- `Certificate::getIdentity`, certificate.cpp 65-69. -/
def Crt.identity (c : Crt) : PName := c.name.take (c.name.length - 4)

/-! Maps. -/

def get {β : Type} (k : PName) : List (PName × β) → Option β
  | [] => none
  | p :: m => if p.1 = k then some p.2 else get k m

def del {β : Type} (k : PName) (m : List (PName × β)) : List (PName × β) := m.filter (fun p => decide (p.1 ≠ k))

def put {β : Type} (k : PName) (v : β) (m : List (PName × β)) : List (PName × β) := (k, v) :: del k m

/-- A loop that calls `f` for each name until one call throws. -/
def each {σ : Type} (f : σ → PName → Res Unit × σ) : List PName → σ → Res Unit × σ
  | [], s => (.ok (), s)
  | n :: ns, s => match f s n with
    | (.ok (), s') => each f ns s'
    | r => r

/-! ## The back end in memory -/

/-- `PibMemory`, pib-memory.hpp 125-140. -/
structure Mem where
  defIdent : Option PName
  idents : List PName
  defKeys : List (PName × PName)
  keys : List (PName × Bytes)
  defCerts : List (PName × PName)
  certs : List (PName × Crt)

def Mem.init : Mem := ⟨none, [], [], [], [], []⟩

namespace Mem

/-- `hasIdentity`, pib-memory.cpp 47-51. -/
def hasIdentity (s : Mem) (n : PName) : Bool := decide (n ∈ s.idents)

/-- `addIdentity`, 53-61. -/
def addIdentity (s : Mem) (n : PName) : Mem :=
  { s with
    idents := if n ∈ s.idents then s.idents else n :: s.idents
    defIdent := match s.defIdent with
      | none => some n
      | some d => some d }

/-- `clearIdentities`, 77-86. -/
def clear (_ : Mem) : Mem := Mem.init

/-- `setDefaultIdentity`, 94-102. -/
def setDefaultIdentity (s : Mem) (n : PName) : Res Unit × Mem :=
  if s.hasIdentity n then (.ok (), { s with defIdent := some n }) else (.refused, s)

/-- `getDefaultIdentity`, 104-112. -/
def getDefaultIdentity (s : Mem) : Res PName :=
  match s.defIdent with
  | some d => .ok d
  | none => .refused

/-- `hasKey`, 114-118. -/
def hasKey (s : Mem) (k : PName) : Bool := (get k s.keys).isSome

/-- `addKey`, 120-131. -/
def addKey (s : Mem) (i k : PName) (bits : Bytes) : Mem :=
  let s := s.addIdentity i
  { s with
    keys := put k bits s.keys
    defKeys := if (get i s.defKeys).isSome then s.defKeys else put i k s.defKeys }

/-- `getCertificatesOfKey`, 231-239. -/
def getCertificatesOfKey (s : Mem) (k : PName) : Res (List PName) :=
  if s.certs.all (fun p => validCert p.1) then
    .ok ((s.certs.filter (fun p => decide (keyOf p.1 = some k))).map Prod.fst)
  else .invalid

/-- `removeCertificate`, 209-217. -/
def removeCertificate (s : Mem) (c : PName) : Res Unit × Mem :=
  let s := { s with certs := del c s.certs }
  match keyOf c with
  | none => (.invalid, s)
  | some k =>
    if get k s.defCerts = some c then (.ok (), { s with defCerts := del k s.defCerts }) else (.ok (), s)

/-- `removeKey`, 133-144. -/
def removeKey (s : Mem) (k : PName) : Res Unit × Mem :=
  match identityOf k with
  | none => (.invalid, s)
  | some i =>
    let s := { s with keys := del k s.keys, defKeys := del i s.defKeys }
    match s.getCertificatesOfKey k with
    | .ok cs => each removeCertificate cs s
    | _ => (.invalid, s)

/-- `getKeyBits`, 146-156. -/
def getKeyBits (s : Mem) (k : PName) : Res Bytes :=
  match get k s.keys with
  | some b => .ok b
  | none => .refused

/-- `getKeysOfIdentity`, 158-166. -/
def getKeysOfIdentity (s : Mem) (i : PName) : Res (List PName) :=
  if s.keys.all (fun p => validKey p.1) then
    .ok ((s.keys.filter (fun p => decide (identityOf p.1 = some i))).map Prod.fst)
  else .invalid

/-- `removeIdentity`, 63-75. -/
def removeIdentity (s : Mem) (n : PName) : Res Unit × Mem :=
  let s := { s with
    idents := s.idents.filter (fun m => decide (m ≠ n))
    defIdent := if s.defIdent = some n then none else s.defIdent }
  match s.getKeysOfIdentity n with
  | .ok ks => each removeKey ks s
  | _ => (.invalid, s)

/-- `setDefaultKeyOfIdentity`, 168-176. -/
def setDefaultKey (s : Mem) (i k : PName) : Res Unit × Mem :=
  if s.hasKey k then (.ok (), { s with defKeys := put i k s.defKeys }) else (.refused, s)

/-- `getDefaultKeyOfIdentity`, 178-187. -/
def getDefaultKey (s : Mem) (i : PName) : Res PName :=
  match get i s.defKeys with
  | some k => .ok k
  | none => .refused

/-- `hasCertificate`, 189-193. -/
def hasCertificate (s : Mem) (c : PName) : Bool := (get c s.certs).isSome

/-- `addCertificate`, 195-207. -/
def addCertificate (s : Mem) (c : Crt) : Mem :=
  let s := s.addKey c.identity c.keyName c.pub
  { s with
    certs := put c.name c s.certs
    defCerts := if (get c.keyName s.defCerts).isSome then s.defCerts else put c.keyName c.name s.defCerts }

/-- `getCertificate`, 219-229. -/
def getCertificate (s : Mem) (c : PName) : Res Crt :=
  match get c s.certs with
  | some x => .ok x
  | none => .refused

/-- `setDefaultCertificateOfKey`, 241-249. -/
def setDefaultCertificate (s : Mem) (k c : PName) : Res Unit × Mem :=
  if s.hasCertificate c then (.ok (), { s with defCerts := put k c s.defCerts }) else (.refused, s)

/-- `getDefaultCertificateOfKey`, 251-262. -/
def getDefaultCertificate (s : Mem) (k : PName) : Res Crt :=
  match get k s.defCerts with
  | none => .refused
  | some c => match get c s.certs with
    | some x => .ok x
    | none => .ub

end Mem

/-! ## The back end in an SQLite database -/

/-- A row of `identities`, pib-sqlite3.cpp 39-44. -/
structure IdRow where
  id : Nat
  name : PName
  dflt : Bool
  deriving DecidableEq, Repr

/-- A row of `keys`, 81-92. -/
structure KeyRow where
  id : Nat
  identity : Nat
  name : PName
  bits : Bytes
  dflt : Bool
  deriving DecidableEq, Repr

/-- A row of `certificates`, 134-145. -/
structure CertRow where
  id : Nat
  key : Nat
  name : PName
  crt : Crt
  dflt : Bool
  deriving DecidableEq, Repr

/-- The database. -/
structure Sql where
  ids : List IdRow
  keys : List KeyRow
  certs : List CertRow

def Sql.init : Sql := ⟨[], [], []⟩

/-- The id of a new row: one more than the largest. -/
def newId (l : List Nat) : Nat := l.foldl max 0 + 1

namespace Sql

/-- `SELECT id FROM identities WHERE identity=?` -/
def idRow (s : Sql) (n : PName) : Option IdRow := s.ids.find? (fun r => decide (r.name = n))

/-- `SELECT id FROM keys WHERE key_name=?` -/
def keyRow (s : Sql) (k : PName) : Option KeyRow := s.keys.find? (fun r => decide (r.name = k))

/-- `SELECT ... FROM certificates WHERE certificate_name=?` -/
def certRow (s : Sql) (c : PName) : Option CertRow := s.certs.find? (fun r => decide (r.name = c))

/-- `UPDATE identities SET is_default=1 WHERE identity=?` with `identity_default_update_trigger`, 72-79: if the row is
not the default yet, no row is, and then the row is. -/
def markIdent (n : PName) (rows : List IdRow) : List IdRow :=
  match rows.find? (fun r => decide (r.name = n)) with
  | none => rows
  | some r => if r.dflt then rows else rows.map (fun q => { q with dflt := decide (q.name = n) })

/-- `UPDATE keys SET is_default=1 WHERE key_name=?` with `key_default_update_trigger`, 123-132. -/
def markKey (k : PName) (rows : List KeyRow) : List KeyRow :=
  match rows.find? (fun r => decide (r.name = k)) with
  | none => rows
  | some r =>
    if r.dflt then rows
    else rows.map (fun q => if q.identity = r.identity then { q with dflt := decide (q.name = k) } else q)

/-- `UPDATE certificates SET is_default=1 WHERE certificate_name=?` with `cert_default_update_trigger`, 176-185. -/
def markCert (c : PName) (rows : List CertRow) : List CertRow :=
  match rows.find? (fun r => decide (r.name = c)) with
  | none => rows
  | some r =>
    if r.dflt then rows
    else rows.map (fun q => if q.key = r.key then { q with dflt := decide (q.name = c) } else q)

/-- `INSERT INTO identities (identity) values (?)` with `identity_default_after_insert_trigger`, 58-70. -/
def insertIdent (n : PName) (rows : List IdRow) : List IdRow :=
  let rows := rows ++ [⟨newId (rows.map (·.id)), n, false⟩]
  if rows.any (·.dflt) then rows else markIdent n rows

/-- `INSERT INTO keys ...` with `key_default_after_insert_trigger`, 108-121. -/
def insertKey (i : Nat) (k : PName) (bits : Bytes) (rows : List KeyRow) : List KeyRow :=
  let rows := rows ++ [⟨newId (rows.map (·.id)), i, k, bits, false⟩]
  if rows.any (fun r => r.dflt && decide (r.identity = i)) then rows else markKey k rows

/-- `INSERT INTO certificates ...` with `cert_default_after_insert_trigger`, 161-174. -/
def insertCert (k : Nat) (c : Crt) (rows : List CertRow) : List CertRow :=
  let rows := rows ++ [⟨newId (rows.map (·.id)), k, c.name, c, false⟩]
  if rows.any (fun r => r.dflt && decide (r.key = k)) then rows else markCert c.name rows

/-- `hasIdentity`, 273-279 -/
def hasIdentity (s : Sql) (n : PName) : Bool := (s.idRow n).isSome

/-- `hasDefaultIdentity`, 345-350 -/
def hasDefaultIdentity (s : Sql) : Bool := s.ids.any (·.dflt)

/-- `setDefaultIdentity`, 322-332 -/
def setDefaultIdentity (s : Sql) (n : PName) : Res Unit × Sql :=
  if s.hasIdentity n then (.ok (), { s with ids := markIdent n s.ids }) else (.refused, s)

/-- `addIdentity`, 281-293 -/
def addIdentity (s : Sql) (n : PName) : Sql :=
  let s := if s.hasIdentity n then s else { s with ids := insertIdent n s.ids }
  if s.hasDefaultIdentity then s else (s.setDefaultIdentity n).2

/-- Deleting certificates whose key is gone: `ON DELETE CASCADE`, 141-144. -/
def cascadeCerts (gone : List Nat) (rows : List CertRow) : List CertRow :=
  rows.filter (fun r => decide (r.key ∉ gone))

/-- Deleting the keys for which `p` holds, with their certificates: `ON DELETE CASCADE`, 88-91 and 141-144. -/
def deleteKeys (p : KeyRow → Bool) (s : Sql) : Sql :=
  { s with
    keys := s.keys.filter (fun r => !p r)
    certs := cascadeCerts ((s.keys.filter p).map (·.id)) s.certs }

/-- Deleting the identities for which `p` holds, with their keys. -/
def deleteIdents (p : IdRow → Bool) (s : Sql) : Sql :=
  deleteKeys (fun r => decide (r.identity ∈ (s.ids.filter p).map (·.id))) { s with ids := s.ids.filter (fun r => !p r) }

/-- `removeIdentity`, 295-301 -/
def removeIdentity (s : Sql) (n : PName) : Res Unit × Sql := (.ok (), s.deleteIdents (fun r => decide (r.name = n)))

/-- `clearIdentities`, 303-308 -/
def clear (s : Sql) : Sql := s.deleteIdents (fun _ => true)

/-- `getDefaultIdentity`, 334-343 -/
def getDefaultIdentity (s : Sql) : Res PName :=
  match s.ids.find? (·.dflt) with
  | some r => .ok r.name
  | none => .refused

/-- `hasKey`, 352-358 -/
def hasKey (s : Sql) (k : PName) : Bool := (s.keyRow k).isSome

/-- `FROM keys JOIN identities ON keys.identity_id=identities.id WHERE identities.identity=?` -/
def keysJoin (s : Sql) (i : PName) : List KeyRow :=
  s.keys.filter (fun r => s.ids.any (fun q => decide (q.id = r.identity) && decide (q.name = i)))

/-- `getDefaultKeyOfIdentity`, 436-449 -/
def getDefaultKey (s : Sql) (i : PName) : Res PName :=
  match (s.keysJoin i).find? (·.dflt) with
  | some r => .ok r.name
  | none => .refused

/-- `setDefaultKeyOfIdentity`, 424-434 -/
def setDefaultKey (s : Sql) (_ k : PName) : Res Unit × Sql :=
  if s.hasKey k then (.ok (), { s with keys := markKey k s.keys }) else (.refused, s)

/-- `hasDefaultKeyOfIdentity`, 451-460 -/
def hasDefaultKey (s : Sql) (i : PName) : Bool := (s.keysJoin i).any (·.dflt)

/-- `addKey`, 360-386 Without a row for the identity the INSERT violates `NOT NULL`. -/
def addKey (s : Sql) (i k : PName) (bits : Bytes) : Sql :=
  let s := s.addIdentity i
  let s := if s.hasKey k then
      { s with keys := s.keys.map (fun r => if r.name = k then { r with bits := bits } else r) }
    else match s.idRow i with
      | some q => { s with keys := insertKey q.id k bits s.keys }
      | none => s
  if s.hasDefaultKey i then s else (s.setDefaultKey i k).2

/-- `removeKey`, 388-394 -/
def removeKey (s : Sql) (k : PName) : Res Unit × Sql := (.ok (), s.deleteKeys (fun r => decide (r.name = k)))

/-- `getKeyBits`, 396-406 -/
def getKeyBits (s : Sql) (k : PName) : Res Bytes :=
  match s.keyRow k with
  | some r => .ok r.bits
  | none => .refused

/-- `getKeysOfIdentity`, 408-422 -/
def getKeysOfIdentity (s : Sql) (i : PName) : Res (List PName) := .ok ((s.keysJoin i).map (·.name))

/-- `hasCertificate`, 462-468 -/
def hasCertificate (s : Sql) (c : PName) : Bool := (s.certRow c).isSome

/-- `FROM certificates JOIN keys ON certificates.key_id=keys.id WHERE keys.key_name=?` -/
def certsJoin (s : Sql) (k : PName) : List CertRow :=
  s.certs.filter (fun r => s.keys.any (fun q => decide (q.id = r.key) && decide (q.name = k)))

/-- `hasDefaultCertificateOfKey`, 564-574 -/
def hasDefaultCertificate (s : Sql) (k : PName) : Bool := (s.certsJoin k).any (·.dflt)

/-- `setDefaultCertificateOfKey`, 536-547 -/
def setDefaultCertificate (s : Sql) (_ c : PName) : Res Unit × Sql :=
  if s.hasCertificate c then (.ok (), { s with certs := markCert c s.certs }) else (.refused, s)

/-- `addCertificate`, 470-497 -/
def addCertificate (s : Sql) (c : Crt) : Sql :=
  let s := s.addKey c.identity c.keyName c.pub
  let s := if s.hasCertificate c.name then
      { s with certs := s.certs.map (fun r => if r.name = c.name then { r with crt := c } else r) }
    else match s.keyRow c.keyName with
      | some q => { s with certs := insertCert q.id c s.certs }
      | none => s
  if s.hasDefaultCertificate c.keyName then s else (s.setDefaultCertificate c.keyName c.name).2

/-- `removeCertificate`, 499-505 -/
def removeCertificate (s : Sql) (c : PName) : Res Unit × Sql :=
  (.ok (), { s with certs := s.certs.filter (fun r => !decide (r.name = c)) })

/-- `getCertificate`, 507-518 -/
def getCertificate (s : Sql) (c : PName) : Res Crt :=
  match s.certRow c with
  | some r => .ok r.crt
  | none => .refused

/-- `getCertificatesOfKey`, 520-534 -/
def getCertificatesOfKey (s : Sql) (k : PName) : Res (List PName) := .ok ((s.certsJoin k).map (·.name))

/-- `getDefaultCertificateOfKey`, 549-562 -/
def getDefaultCertificate (s : Sql) (k : PName) : Res Crt :=
  match (s.certsJoin k).find? (·.dflt) with
  | some r => .ok r.crt
  | none => .refused

end Sql

/-! ## The common interface -/

/-- `PibImpl`, pib-impl.hpp 55-273. -/
structure Backend (σ : Type) where
  init : σ
  hasIdentity : σ → PName → Bool
  getIdentities : σ → List PName
  addIdentity : σ → PName → σ
  removeIdentity : σ → PName → Res Unit × σ
  clear : σ → σ
  setDefaultIdentity : σ → PName → Res Unit × σ
  getDefaultIdentity : σ → Res PName
  hasKey : σ → PName → Bool
  addKey : σ → PName → PName → Bytes → σ
  removeKey : σ → PName → Res Unit × σ
  getKeyBits : σ → PName → Res Bytes
  getKeysOfIdentity : σ → PName → Res (List PName)
  setDefaultKey : σ → PName → PName → Res Unit × σ
  getDefaultKey : σ → PName → Res PName
  hasCertificate : σ → PName → Bool
  addCertificate : σ → Crt → σ
  removeCertificate : σ → PName → Res Unit × σ
  getCertificate : σ → PName → Res Crt
  getCertificatesOfKey : σ → PName → Res (List PName)
  setDefaultCertificate : σ → PName → PName → Res Unit × σ
  getDefaultCertificate : σ → PName → Res Crt

/-- `pib-memory`. -/
def memory : Backend Mem :=
  { init := Mem.init
    hasIdentity := Mem.hasIdentity
    getIdentities := fun s => s.idents
    addIdentity := Mem.addIdentity
    removeIdentity := Mem.removeIdentity
    clear := Mem.clear
    setDefaultIdentity := Mem.setDefaultIdentity
    getDefaultIdentity := Mem.getDefaultIdentity
    hasKey := Mem.hasKey
    addKey := Mem.addKey
    removeKey := Mem.removeKey
    getKeyBits := Mem.getKeyBits
    getKeysOfIdentity := Mem.getKeysOfIdentity
    setDefaultKey := Mem.setDefaultKey
    getDefaultKey := Mem.getDefaultKey
    hasCertificate := Mem.hasCertificate
    addCertificate := Mem.addCertificate
    removeCertificate := Mem.removeCertificate
    getCertificate := Mem.getCertificate
    getCertificatesOfKey := Mem.getCertificatesOfKey
    setDefaultCertificate := Mem.setDefaultCertificate
    getDefaultCertificate := Mem.getDefaultCertificate }

/-- `pib-sqlite3`; `getIdentities`, 310-320. -/
def sqlite : Backend Sql :=
  { init := Sql.init
    hasIdentity := Sql.hasIdentity
    getIdentities := fun s => s.ids.map (·.name)
    addIdentity := Sql.addIdentity
    removeIdentity := Sql.removeIdentity
    clear := Sql.clear
    setDefaultIdentity := Sql.setDefaultIdentity
    getDefaultIdentity := Sql.getDefaultIdentity
    hasKey := Sql.hasKey
    addKey := Sql.addKey
    removeKey := Sql.removeKey
    getKeyBits := Sql.getKeyBits
    getKeysOfIdentity := Sql.getKeysOfIdentity
    setDefaultKey := Sql.setDefaultKey
    getDefaultKey := Sql.getDefaultKey
    hasCertificate := Sql.hasCertificate
    addCertificate := Sql.addCertificate
    removeCertificate := Sql.removeCertificate
    getCertificate := Sql.getCertificate
    getCertificatesOfKey := Sql.getCertificatesOfKey
    setDefaultCertificate := Sql.setDefaultCertificate
    getDefaultCertificate := Sql.getDefaultCertificate }

/-- The calls that change a back end. -/
inductive Op where
  | addIdentity (i : PName)
  | removeIdentity (i : PName)
  | setDefaultIdentity (i : PName)
  | addKey (i k : PName) (bits : Bytes)
  | removeKey (k : PName)
  | setDefaultKey (i k : PName)
  | addCertificate (c : Crt)
  | removeCertificate (c : PName)
  | setDefaultCertificate (k c : PName)
  | clear
  deriving DecidableEq, Repr

/-- One call. -/
def step {σ : Type} (b : Backend σ) (s : σ) : Op → Res Unit × σ
  | .addIdentity i => (.ok (), b.addIdentity s i)
  | .removeIdentity i => b.removeIdentity s i
  | .setDefaultIdentity i => b.setDefaultIdentity s i
  | .addKey i k bits => (.ok (), b.addKey s i k bits)
  | .removeKey k => b.removeKey s k
  | .setDefaultKey i k => b.setDefaultKey s i k
  | .addCertificate c => (.ok (), b.addCertificate s c)
  | .removeCertificate c => b.removeCertificate s c
  | .setDefaultCertificate k c => b.setDefaultCertificate s k c
  | .clear => (.ok (), b.clear s)

/-- Several calls, exceptions being caught by the caller. -/
def run {σ : Type} (b : Backend σ) : List Op → σ → List (Res Unit) × σ
  | [], s => ([], s)
  | op :: ops, s =>
    let r := step b s op
    let q := run b ops r.2
    (r.1 :: q.1, q.2)

end Ndn.Pib
