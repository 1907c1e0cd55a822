/-
Model of the key store in files, `BackEndFile` (security/tpm/impl/back-end-file.cpp), of what `BackEnd` adds to it
(security/tpm/back-end.cpp), and of `Tpm` objects (security/tpm/tpm.cpp) sharing one directory.

Private keys, their encodings and the names of files are parameters. Only regular files in the directory of the store are modelled,
owned by the user the program runs as; directories are always searchable and files readable by their owner.
-/
namespace Ndn.KeyFile

abbrev Bytes := List UInt8

/-- Private keys of type `K` and names of keys of type `N`: `enc` is `savePkcs1Base64`, `dec` `loadPkcs1Base64` (`none`: exception),
`enc8` and `dec8` `savePkcs8` and `loadPkcs8` with a password; `path` the file name made of the digest of the name
(back-end-file.cpp 68-80); `shaName i k` the name of key `k` of identity `i` made of the digest of the public key (back-end.cpp
119-126). -/
structure Lib (K N I : Type) where
  enc : K → Bytes
  dec : Bytes → Option K
  enc8 : Bytes → K → Bytes
  dec8 : Bytes → Bytes → Option K
  path : N → Bytes
  shaName : I → K → N

/-- The octets of a file, whether its owner may write to it, and whether others may read it. -/
structure File where
  content : Bytes
  ownerWrite : Bool
  othersRead : Bool
  deriving DecidableEq, Repr

/-- The directory. -/
abbrev Dir := Bytes → Option File

def Dir.put (d : Dir) (p : Bytes) (f : Option File) : Dir := fun q => if q = p then f else d q

/-- The circumstances of a call: whether the program has the rights of the superuser, how many octets the disk still takes, whether
new files are readable by others (the umask), and whether files can be made and removed in the directory. -/
structure Env where
  root : Bool
  space : Nat
  newReadable : Bool
  dirOk : Bool
  deriving DecidableEq, Repr

/-- Exceptions: `BackEnd::Error`, another `std::runtime_error`, and a loop that has not found a free name yet. -/
inductive Err
  | backend
  | runtime
  | drawing
  deriving DecidableEq, Repr

section
variable {K N I : Type} (L : Lib K N I)

/-- `loadKey`, back-end-file.cpp 206-213. -/
def loadKey (d : Dir) (n : N) : Option K := (d (L.path n)).bind fun f => L.dec f.content

/-- `doHasKey`, 100-113. -/
def hasKey (d : Dir) (n : N) : Bool := (loadKey L d n).isSome

/-- `std::ofstream os(fileName)`: the file is made or emptied; `none`: the stream is in a failed state, which nobody looks at
(`StreamSink::doWrite`, stream-sink.cpp 33-42, asks for `bad()` only, which is not set by this). -/
def openFile (e : Env) (d : Dir) (p : Bytes) : Option Dir :=
  match d p with
  | some f => if e.root || f.ownerWrite then some (d.put p (some { f with content := [] })) else none
  | none => if e.dirOk then some (d.put p (some ⟨[], true, e.newReadable⟩)) else none

/-- The file after its first `j` octets have been written. -/
def written (d : Dir) (p : Bytes) (b : Bytes) (j : Nat) : Dir :=
  match d p with
  | some f => d.put p (some { f with content := b.take j })
  | none => d

/-- `fs::permissions(fileName, owner_read)`; `none`: exception. -/
def restrict (d : Dir) (p : Bytes) : Option Dir :=
  match d p with
  | some f => some (d.put p (some { f with ownerWrite := false, othersRead := false }))
  | none => none

/-- `saveKey`, 215-222: all the states of the directory, the last one first, and whether it returns. Octets that do not fit on the
disk (an encoded key is shorter than the buffer of the stream) are lost when the stream is flushed (stream-sink.cpp 44-48) and nobody is told. -/
def saveKey (e : Env) (d : Dir) (n : N) (k : K) : List Dir × Bool :=
  let p := L.path n
  let b := L.enc k
  let (trail, last) := match openFile e d p with
    | none => ([d], d)
    | some d1 =>
      let w := min e.space b.length
      (((List.range (w + 1)).map (written d1 p b)).reverse ++ [d1, d], written d1 p b w)
  match restrict last p with
  | none => (trail, false)
  | some d2 => (d2 :: trail, true)

/-- How the name of a new key is chosen: given by the caller, from the digest of the public key, or at random (the numbers drawn). -/
inductive KeyId (N I : Type)
  | user (n : N)
  | sha (i : I)
  | random (ns : List N)

/-- The calls of the back end. -/
inductive Op (K N I : Type)
  | create (id : KeyId N I) (gen : K)
  | importKey (n : N) (k : K)
  | importPkcs8 (n : N) (b pw : Bytes)
  | exportKey (n : N) (pw : Bytes)
  | delete (n : N)
  | has (n : N)
  | handle (n : N)

/-- Results. -/
inductive Out (K N : Type)
  | name (n : N)
  | unit
  | octets (b : Bytes)
  | bool (b : Bool)
  | handle (k : Option K)
  | throws (e : Err)
  deriving DecidableEq, Repr

/-- `constructAsymmetricKeyName`, back-end.cpp 111-139. -/
def chooseName (d : Dir) (gen : K) : KeyId N I → Option N
  | .user n => some n
  | .sha i => some (L.shaName i gen)
  | .random ns => ns.find? fun n => !hasKey L d n

/-- The test of a name given by the caller, back-end.cpp 57-73. -/
def taken (d : Dir) : KeyId N I → Bool
  | .user n => hasKey L d n
  | _ => false

/-- `createKey`, back-end.cpp 50-76, and `doCreateKey`, back-end-file.cpp 124-149: `gen` is the key generated. All states of the
directory, the last one first, and the result. -/
def create (e : Env) (d : Dir) (id : KeyId N I) (gen : K) : List Dir × Out K N :=
  if taken L d id then ([d], .throws .backend)
  else match chooseName L d gen id with
    | none => ([d], .throws .drawing)
    | some n =>
      let r := saveKey L e d n gen
      (r.1, if r.2 then .name n else .throws .backend)

/-- `importKey`, back-end.cpp 102-109, and `doImportKey`, back-end-file.cpp 195-204: only errors of the key are caught. -/
def importKey (e : Env) (d : Dir) (n : N) (k : K) : List Dir × Out K N :=
  if hasKey L d n then ([d], .throws .backend)
  else
    let r := saveKey L e d n k
    (r.1, if r.2 then .unit else .throws .runtime)

/-- `importKey`, back-end.cpp 93-100, and `doImportKey`, back-end-file.cpp 182-193. -/
def importPkcs8 (e : Env) (d : Dir) (n : N) (b pw : Bytes) : List Dir × Out K N :=
  if hasKey L d n then ([d], .throws .backend)
  else match L.dec8 pw b with
    | none => ([d], .throws .backend)
    | some k =>
      let r := saveKey L e d n k
      (r.1, if r.2 then .unit else .throws .runtime)

/-- `exportKey`, back-end.cpp 84-91, and `doExportKey`, back-end-file.cpp 166-180. -/
def exportKey (d : Dir) (n : N) (pw : Bytes) : Out K N :=
  match loadKey L d n with
  | none => .throws .backend
  | some k => .octets (L.enc8 pw k)

/-- `doDeleteKey`, back-end-file.cpp 151-164. -/
def delete (e : Env) (d : Dir) (n : N) : List Dir × Out K N :=
  match d (L.path n) with
  | none => ([d], .unit)
  | some _ => if e.dirOk then ([d.put (L.path n) none, d], .unit) else ([d], .throws .backend)

/-- A call: all states of the directory, the last one first, and the result. `doGetKeyHandle`, back-end-file.cpp 115-122. -/
def call (e : Env) (d : Dir) : Op K N I → List Dir × Out K N
  | .create id gen => create L e d id gen
  | .importKey n k => importKey L e d n k
  | .importPkcs8 n b pw => importPkcs8 L e d n b pw
  | .exportKey n pw => ([d], exportKey L d n pw)
  | .delete n => delete L e d n
  | .has n => ([d], .bool (hasKey L d n))
  | .handle n => ([d], .handle (loadKey L d n))

/-- The state after a call. -/
def after (d : Dir) (r : List Dir × Out K N) : Dir := r.1.headD d

/-- Calls one after another, each in its circumstances: the final state and the results. -/
def run (d : Dir) : List (Env × Op K N I) → Dir × List (Out K N)
  | [] => (d, [])
  | (e, o) :: l =>
    let r := call L e d o
    let s := run (after d r) l
    (s.1, r.2 :: s.2)

/-! ### `Tpm` objects -/

/-- A directory, and for each `Tpm` object (by number) the handles it keeps: `Tpm::m_keys`. -/
structure Tpms (K N : Type) where
  dir : Dir
  kept : Nat → N → Option K

variable [DecidableEq N]

/-- Calls of a `Tpm`: `use` stands for `sign`, `verify`, `decrypt` and `getPublicKey`, which all begin with `findKey`. -/
inductive TOp (K N I : Type)
  | create (id : KeyId N I) (gen : K)
  | importKey (n : N) (k : K)
  | delete (n : N)
  | use (n : N)

def keep (f : Nat → N → Option K) (t : Nat) (n : N) (k : Option K) : Nat → N → Option K :=
  fun t' n' => if t' = t ∧ n' = n then k else f t' n'

/-- `Tpm::createKey`, `importPrivateKey`, `deleteKey` and `findKey`, tpm.cpp 44-60, 106-125: the result of `use` is the key used. -/
def tcall (S : Tpms K N) (e : Env) (t : Nat) : TOp K N I → Tpms K N × Out K N
  | .create id gen =>
    let r := create L e S.dir id gen
    let d := after S.dir r
    match r.2 with
    | .name n => (⟨d, keep S.kept t n (some gen)⟩, r.2)
    | _ => (⟨d, S.kept⟩, r.2)
  | .importKey n k =>
    let r := importKey L e S.dir n k
    (⟨after S.dir r, S.kept⟩, r.2)
  | .delete n =>
    let r := delete (K := K) L e S.dir n
    (⟨after S.dir r, keep S.kept t n none⟩, r.2)
  | .use n =>
    match S.kept t n with
    | some k => (S, .handle (some k))
    | none =>
      match loadKey L S.dir n with
      | none => (S, .handle none)
      | some k => (⟨S.dir, keep S.kept t n (some k)⟩, .handle (some k))

def trun (S : Tpms K N) : List (Nat × Env × TOp K N I) → Tpms K N
  | [] => S
  | (t, e, o) :: l => trun (tcall L S e t o).1 l

end

end Ndn.KeyFile
