/-
Model of how a KeyChain finds and links its PIB and TPM: locators, defaults and the constructors (security/key-chain.cpp 109-195,
464-548; security/pib/pib.cpp 40-65).

Of a PIB only the keys recorded in it and the TPM locator are modelled, of a TPM only which private keys it holds. Opening a back end does
not fail. Names of keys are of type `N`.
-/
namespace Ndn.Locator

abbrev Text := List Char

/-- `KeyChain::Locator`, key-chain.cpp 111-137. -/
structure Loc where
  scheme : Text
  location : Text
  deriving DecidableEq, Repr

/-- `Locator::canonical`, 120-124. -/
def canonical (l : Loc) : Text := l.scheme ++ ':' :: l.location

/-- The schemes registered on Linux, key-chain.cpp 52-68. -/
def pibSqlite : Text := ['p', 'i', 'b', '-', 's', 'q', 'l', 'i', 't', 'e', '3']
def pibMemory : Text := ['p', 'i', 'b', '-', 'm', 'e', 'm', 'o', 'r', 'y']
def tpmFile : Text := ['t', 'p', 'm', '-', 'f', 'i', 'l', 'e']
def tpmMemory : Text := ['t', 'p', 'm', '-', 'm', 'e', 'm', 'o', 'r', 'y']

/-- `parseLocatorUri`, 465-474. -/
def parseUri (u : Text) : Text × Text :=
  match u.dropWhile (· ≠ ':') with
  | [] => (u, [])
  | _ :: rest => (u.takeWhile (· ≠ ':'), rest)

/-- `parseAndCheckPibLocator` and `parseAndCheckTpmLocator`, 476-506; `none`: `KeyChain::Error`. -/
def parseAndCheck (dflt : Text) (known : List Text) (u : Text) : Option Loc :=
  let (s, l) := parseUri u
  let s := if s = [] then dflt else s
  if s ∈ known then some ⟨s, l⟩ else none

def parsePib : Text → Option Loc := parseAndCheck pibSqlite [pibSqlite, pibMemory]
def parseTpm : Text → Option Loc := parseAndCheck tpmFile [tpmFile, tpmMemory]

/-- The environment variables NDN_CLIENT_PIB and NDN_CLIENT_TPM, and the entries "pib" and "tpm" of the configuration file (`none`: reading
it throws). -/
structure Host where
  envPib : Option Text
  envTpm : Option Text
  config : Option (Option Text × Option Text)
  deriving DecidableEq, Repr

/-- `getDefaultPibLocator`, 508-527; `none`: an exception. -/
def defaultPib (h : Host) (cached : Option Loc) : Option Loc :=
  match cached with
  | some l => some l
  | none =>
    match h.envPib with
    | some u => parsePib u
    | none =>
      match h.config with
      | none => none
      | some c => parsePib (c.1.getD pibSqlite)

/-- `getDefaultTpmLocator`, 529-548. -/
def defaultTpm (h : Host) (cached : Option Loc) : Option Loc :=
  match cached with
  | some l => some l
  | none =>
    match h.envTpm with
    | some u => parseTpm u
    | none =>
      match h.config with
      | none => none
      | some c => parseTpm (c.2.getD tpmFile)

section
variable {N : Type}

/-- A PIB: the TPM locator stored in it, and the keys. -/
structure PibSt (N : Type) where
  locator : Text
  keys : List N
  deriving DecidableEq, Repr

/-- `Pib::reset`, pib.cpp 58-65: the states, the last one first. -/
def resetTrail (st : PibSt N) : List (PibSt N) := [⟨[], []⟩, ⟨[], st.keys⟩]

/-- `Pib::setTpmLocator`, pib.cpp 46-56: the states after the first, the last one first. -/
def setTpmLocator (st : PibSt N) (t : Text) : List (PibSt N) :=
  if t = st.locator then [] else ⟨t, []⟩ :: resetTrail st

/-- What came of it: the locator of the TPM, an exception, or `LocatorMismatchError`. -/
inductive Linked
  | tpm (t : Loc)
  | error
  | mismatch
  deriving DecidableEq, Repr

/-- The constructor from the old TPM locator on, key-chain.cpp 161-194: `isDefault` if the PIB is the default one, `dt` the default TPM
locator. All states of the PIB, the last one first. -/
def link (isDefault : Bool) (dt : Option Loc) (st : PibSt N) (t : Loc) (allowReset : Bool) : List (PibSt N) × Linked :=
  let finish (trail : List (PibSt N)) (t : Loc) : List (PibSt N) × Linked :=
    (setTpmLocator (trail.headD st) (canonical t) ++ trail, .tpm t)
  if isDefault then
    if st.locator = [] then finish [st] t
    else match dt with
      | none => ([st], .error)
      | some d => if st.locator ≠ canonical d then finish (resetTrail st ++ [st]) d else finish [st] t
  else
    if st.locator ≠ [] ∧ st.locator ≠ canonical t then
      if allowReset then finish (resetTrail st ++ [st]) t else ([st], .mismatch)
    else finish [st] t

/-- Files: which database and which directory a location leads to (pib-sqlite3.cpp 190-206, back-end-file.cpp 47-66). -/
structure Sys where
  dbPath : Text → Text
  dirPath : Text → Text

/-- The databases and directories, and the static members with the default locators. -/
structure World (N : Type) where
  db : Text → PibSt N
  dir : Text → List N
  defPib : Option Loc
  defTpm : Option Loc

/-- The PIB of a KeyChain: a database or its own. -/
inductive PibRef (N : Type)
  | db (path : Text)
  | mem (st : PibSt N)

/-- The TPM of a KeyChain: a directory or its own. -/
inductive TpmRef (N : Type)
  | dir (path : Text)
  | mem (keys : List N)

/-- A KeyChain. -/
structure KC (N : Type) where
  pib : PibRef N
  tpm : TpmRef N
  tpmLoc : Loc

/-- How a KeyChain is made. -/
inductive How
  | dflt
  | given (p t : Text) (allowReset : Bool)

/-- The arguments of the constructor, key-chain.cpp 142-152, evaluated from left to right; the defaults are remembered. -/
def arguments (h : Host) (w : World N) : How → World N × Option (Loc × Loc × Bool)
  | .dflt =>
    match defaultPib h w.defPib with
    | none => (w, none)
    | some p =>
      let w1 := { w with defPib := some p }
      match defaultTpm h w.defTpm with
      | none => (w1, none)
      | some t => ({ w1 with defTpm := some t }, some (p, t, true))
  | .given p t a =>
    match parsePib p, parseTpm t with
    | some p, some t => (w, some (p, t, a))
    | _, _ => (w, none)

/-- The PIB back end for a locator. -/
def pibOf (S : Sys) (p : Loc) : PibRef N := if p.scheme = pibMemory then .mem ⟨[], []⟩ else .db (S.dbPath p.location)

def tpmOf (S : Sys) (t : Loc) : TpmRef N := if t.scheme = tpmMemory then .mem [] else .dir (S.dirPath t.location)

def pibState (w : World N) : PibRef N → PibSt N
  | .db q => w.db q
  | .mem st => st

def tpmKeys (w : World N) : TpmRef N → List N
  | .dir q => w.dir q
  | .mem ks => ks

/-- The world, and the PIB of the KeyChain, after a change of the PIB. -/
def putPib (w : World N) (r : PibRef N) (st : PibSt N) : World N × PibRef N :=
  match r with
  | .db q => ({ w with db := fun q' => if q' = q then st else w.db q' }, .db q)
  | .mem _ => (w, .mem st)

def putTpm (w : World N) (r : TpmRef N) (ks : List N) : World N × TpmRef N :=
  match r with
  | .dir q => ({ w with dir := fun q' => if q' = q then ks else w.dir q' }, .dir q)
  | .mem _ => (w, .mem ks)

/-- What came of making a KeyChain. -/
inductive Made (N : Type)
  | ok (k : KC N)
  | error
  | mismatch

/-- The KeyChain made, if any, key-chain.cpp 184-194. -/
def result (S : Sys) (r : PibRef N) : Linked → Made N
  | .error => .error
  | .mismatch => .mismatch
  | .tpm t => .ok ⟨r, tpmOf S t, t⟩

/-- The constructors of KeyChain, key-chain.cpp 142-195: all states, the last one first, and the result. `getDefaultTpmLocator` is called
only if the PIB is the default one and has a TPM locator. -/
def make (S : Sys) (h : Host) (w : World N) (how : How) : List (World N) × Made N :=
  match arguments h w how with
  | (w, none) => ([w], .error)
  | (w, some (p, t, a)) =>
    match defaultPib h w.defPib with
    | none => ([w], .error)
    | some dp =>
      let w := { w with defPib := some dp }
      let r := pibOf S p
      let st := pibState w r
      let dt := defaultTpm h w.defTpm
      let w := if p = dp ∧ st.locator ≠ [] ∧ dt ≠ none then { w with defTpm := dt } else w
      let x := link (decide (p = dp)) dt st t a
      (x.1.map fun st => (putPib w r st).1, result S (putPib w r (x.1.headD st)).2 x.2)

/-! ### KeyChains coming and going -/

structure Mach (N : Type) where
  w : World N
  kc : Nat → Option (KC N)

inductive Op (N : Type)
  | make (h : Host) (i : Nat) (how : How)
  | crash (h : Host) (how : How) (j : Nat)
  | drop (i : Nat)
  | add (i : Nat) (n : N)
  | remove (i : Nat) (n : N)

def setKc (f : Nat → Option (KC N)) (i : Nat) (k : Option (KC N)) : Nat → Option (KC N) := fun j => if j = i then k else f j

variable [DecidableEq N]

/-- One step. `make`: a KeyChain is made; `crash`: the program is stopped in the `j`th state of making one, and another program begins;
`drop`: a KeyChain is destroyed; `add`: `createKey` with a name that the TPM does not hold yet (248-262; otherwise it throws); `remove`:
`deleteKey` of a key of the PIB (270-281). -/
def step (S : Sys) (m : Mach N) : Op N → Mach N
  | .make h i how =>
    let r := make S h m.w how
    let w := r.1.headD m.w
    match r.2 with
    | .ok k => ⟨w, setKc m.kc i (some k)⟩
    | _ => ⟨w, m.kc⟩
  | .crash h how j =>
    let w := ((make S h m.w how).1[j]?).getD m.w
    ⟨{ w with defPib := none, defTpm := none }, fun _ => none⟩
  | .drop i => ⟨m.w, setKc m.kc i none⟩
  | .add i n =>
    match m.kc i with
    | none => m
    | some k =>
      if n ∈ tpmKeys m.w k.tpm then m
      else
        let (w1, tpm) := putTpm m.w k.tpm (n :: tpmKeys m.w k.tpm)
        let st := pibState w1 k.pib
        let (w2, pib) := putPib w1 k.pib { st with keys := n :: st.keys }
        ⟨w2, setKc m.kc i (some { k with pib := pib, tpm := tpm })⟩
  | .remove i n =>
    match m.kc i with
    | none => m
    | some k =>
      let st := pibState m.w k.pib
      if n ∈ st.keys then
        let (w1, pib) := putPib m.w k.pib { st with keys := st.keys.filter (· ≠ n) }
        let (w2, tpm) := putTpm w1 k.tpm ((tpmKeys w1 k.tpm).filter (· ≠ n))
        ⟨w2, setKc m.kc i (some { k with pib := pib, tpm := tpm })⟩
      else m

def run (S : Sys) (m : Mach N) (l : List (Op N)) : Mach N := l.foldl (step S) m

/-- Nothing yet. -/
def fresh : Mach N := ⟨⟨fun _ => ⟨[], []⟩, fun _ => [], none, none⟩, fun _ => none⟩

end

end Ndn.Locator
