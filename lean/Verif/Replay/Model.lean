/-
Models of the replay protection of signed Interests: `ValidationPolicySignedInterest`
(security/validation-policy-signed-interest.cpp), `ValidationPolicyCommandInterest`
(security/validation-policy-command-interest.cpp) and `InterestSigner`
(security/interest-signer.cpp).

Validation is asynchronous: the policy checks an Interest when it arrives, the inner policy and the
signature verification decide later, and only then is the record updated.  The step machine below has
these moments as operations; any number of Interests may be in flight.  The success callback of the
user runs before the record is updated: `InterestValidationState` connects it to `afterSuccess` first
(validation-state.cpp 126-135), the policies connect theirs later; it may validate other Interests, and
it may throw.

Simplifications, for the whole file: key names are elements of an arbitrary type `K`; what
`getSignatureInfo` and `getKeyLocatorName` (validation-policy.cpp 61-111) extract is given; the
system clock is not before 1970 and the steady clock never goes back; sums of the clock and the
options of the policies do not overflow.
-/
namespace Ndn.Replay

/-! ### The two policies as machines -/

/-- Verdict of the checks of a policy: pass on to the inner policy, fail the validation, or signed
overflow. -/
inductive Verdict where
  | pass | reject | undef
  deriving DecidableEq

/-- What a policy does with its records `R` for Interests `X`: the check on arrival, given the system
clock and the steady clock; the handler connected to `afterSuccess` (`none`: nothing was connected). -/
structure Policy (X R : Type) where
  check : Nat → Nat → R → X → Verdict × R
  insert : Nat → R → X → Option R

/-- An Interest in flight; `now` and `t` are the clocks at its check; accepted when its success
callback has run. -/
structure Pend (X : Type) where
  id : Nat
  itm : X
  now : Nat
  t : Nat
  accepted : Bool

inductive Obs (X : Type) where
  /-- passed the checks of this policy, at these times of the system clock and the steady clock -/
  | checked (id : Nat) (x : X) (now t : Nat)
  /-- the validation failed in this policy -/
  | rejected (x : X)
  /-- the success callback of the user runs, for an Interest checked at the given times -/
  | accepted (id : Nat) (x : X) (now t : Nat)
  /-- the record is made or updated, at a time of the steady clock -/
  | recorded (id : Nat) (x : X) (t : Nat)
  /-- signed overflow -/
  | undefined
  deriving DecidableEq

structure St (X R : Type) where
  now : Nat
  steady : Nat
  recs : R
  pend : List (Pend X)
  next : Nat
  log : List (Obs X)

inductive Op (X : Type) where
  /-- `Validator::validate` is called on an Interest -/
  | arrive (x : X)
  /-- the inner policy and the verification accept the Interest: the user's callback runs -/
  | accept (id : Nat)
  /-- the rest of `afterSuccess` runs -/
  | record (id : Nat)
  /-- the inner policy or the verification refuses the Interest -/
  | fail (id : Nat)
  /-- the user's callback throws -/
  | throw (id : Nat)
  /-- the system clock is set -/
  | setClock (now : Nat)
  /-- time passes -/
  | advance (dt : Nat)

section
variable {X R : Type}

def findPend (l : List (Pend X)) (id : Nat) (acc : Bool) : Option (Pend X) :=
  l.find? (fun p => p.id == id && p.accepted == acc)

def dropPend (l : List (Pend X)) (id : Nat) : List (Pend X) := l.filter (fun p => p.id != id)

def markPend (l : List (Pend X)) (id : Nat) : List (Pend X) :=
  l.map (fun q => if q.id == id then { q with accepted := true } else q)

/-- One operation: `Validator::validate` (validator.cpp 59-79) up to the end of the policy's own check;
`verifyOriginalPacket` and `bypassValidation` (validation-state.cpp 145-166), which emit
`afterSuccess`, as the two operations `accept` and `record`; `fail` (168-175). -/
def step (P : Policy X R) (s : St X R) : Op X → St X R
  | .arrive x =>
    match P.check s.now s.steady s.recs x with
    | (.pass, recs) =>
      { s with recs := recs, next := s.next + 1, pend := s.pend ++ [⟨s.next, x, s.now, s.steady, false⟩],
               log := s.log ++ [.checked s.next x s.now s.steady] }
    | (.reject, recs) => { s with recs := recs, log := s.log ++ [.rejected x] }
    | (.undef, recs) => { s with recs := recs, log := s.log ++ [.undefined] }
  | .accept id =>
    match findPend s.pend id false with
    | none => s
    | some p => { s with pend := markPend s.pend id, log := s.log ++ [.accepted id p.itm p.now p.t] }
  | .record id =>
    match findPend s.pend id true with
    | none => s
    | some p =>
      match P.insert s.steady s.recs p.itm with
      | some recs =>
        { s with recs := recs, pend := dropPend s.pend id,
                 log := s.log ++ [.recorded id p.itm s.steady] }
      | none => { s with pend := dropPend s.pend id }
  | .fail id => { s with pend := dropPend s.pend id }
  | .throw id => { s with pend := dropPend s.pend id }
  | .setClock n => { s with now := n }
  | .advance dt => { s with now := s.now + dt, steady := s.steady + dt }

/-- A new policy object. -/
def init (empty : R) (now steady : Nat) : St X R := ⟨now, steady, empty, [], 0, []⟩

/-- A history. -/
def run (P : Policy X R) (s : St X R) (ops : List (Op X)) : St X R := ops.foldl (step P) s

end

/-! ### Signed Interests -/

/-- The values of `int64_t`. -/
def int64 (x : Int) : Bool := decide (-2 ^ 63 ≤ x) && decide (x < 2 ^ 63)

/-- `time::fromUnixTimestamp(time::milliseconds(n))` for an `uint64_t`, signature-info.cpp 246-253 and
validation-policy-command-interest.cpp 107: the conversion to `int64_t` is modular, that to
nanoseconds overflows (`none`) unless the product is representable. -/
def fromMs (n : Nat) : Option Int :=
  let v : Int := if n < 2 ^ 63 then n else (n : Int) - 2 ^ 64
  if int64 (v * 1000000) then some (v * 1000000) else none

/-- What the policy reads from an Interest: whether it is in the v0.3 format, the name in the
KeyLocator (`none`: the extraction fails the validation), SignatureTime, SignatureSeqNum,
SignatureNonce. -/
structure Itm (K : Type) where
  v03 : Bool
  key : Option K
  time : Option Nat
  seq : Option Nat
  nonce : Option (List UInt8)
  deriving DecidableEq

/-- `LastInterestRecord`, validation-policy-signed-interest.hpp 178-196. -/
structure Rec (K : Type) where
  key : K
  ts : Option Int
  seq : Option Nat
  nonces : List (List UInt8)
  last : Nat
  deriving DecidableEq

/-- `Options`, validation-policy-signed-interest.hpp 46-138; durations in nanoseconds, the grace period
already not negative (validation-policy-signed-interest.cpp 36). -/
structure Opts where
  valTs : Bool := true
  grace : Nat := 120000000000
  valSeq : Bool := false
  valNonce : Bool := true
  maxNonce : Int := 1000
  maxRec : Int := 1000

section
variable {K : Type} [DecidableEq K]

/-- `m_byKeyName.find`, validation-policy-signed-interest.cpp 82. -/
def findRec (recs : List (Rec K)) (k : K) : Option (Rec K) := recs.find? (fun r => r.key == k)

/-- Timestamp part of `checkIncomingInterest`, validation-policy-signed-interest.cpp 84-103. -/
def checkTs (o : Opts) (now : Nat) (old : Option (Rec K)) (ts : Option Int) : Verdict :=
  if o.valTs then
    match ts with
    | none => .reject
    | some t =>
      if !int64 ((now : Int) - t) then .undef
      else if ((now : Int) - t).natAbs > o.grace then .reject
      else match old.bind Rec.ts with
        | none => .pass
        | some r => if t ≤ r then .reject else .pass
  else .pass

/-- Sequence number part, 105-117. -/
def checkSeq (o : Opts) (old : Option (Rec K)) (seq : Option Nat) : Verdict :=
  if o.valSeq then
    match seq with
    | none => .reject
    | some n =>
      match old.bind Rec.seq with
      | none => .pass
      | some r => if n ≤ r then .reject else .pass
  else .pass

/-- Nonce part, 119-130. -/
def checkNonce (o : Opts) (old : Option (Rec K)) (nonce : Option (List UInt8)) : Verdict :=
  if o.valNonce then
    match nonce with
    | none => .reject
    | some n =>
      match old with
      | none => .pass
      | some r => if r.nonces.contains n then .reject else .pass
  else .pass

/-- The conversion of the time, done whether or not timestamps are checked, 78. -/
def timeOf (x : Option Nat) : Option (Option Int) :=
  match x with
  | none => some none
  | some n => (fromMs n).map some

/-- `checkPolicy` and `checkIncomingInterest`, 49-141. -/
def check (o : Opts) (now : Nat) (recs : List (Rec K)) (x : Itm K) : Verdict :=
  if !x.v03 then .pass
  else match x.key, timeOf x.time with
    | none, _ => .reject
    | some _, none => .undef
    | some k, some ts =>
      let old := findRec recs k
      match checkTs o now old ts with
      | .pass =>
        match checkSeq o old x.seq with
        | .pass => checkNonce o old x.nonce
        | v => v
      | v => v

/-- `modify` of the record of a key with a new time, in the order of `m_byLastRefreshed`: an ordered
non-unique index leaves the element in place if the next one is not smaller, else relinks it after all
elements that are not greater. -/
def refresh (f : Rec K → Rec K) (now : Nat) (k : K) : List (Rec K) → List (Rec K)
  | [] => []
  | r :: rs =>
    if r.key = k then
      match rs with
      | [] => [{ f r with last := now }]
      | q :: _ => if q.last ≥ now then { f r with last := now } :: rs else rs ++ [{ f r with last := now }]
    else r :: refresh f now k rs

/-- The nonce list of a record after a new nonce, 162-176: `push_back` does nothing if the nonce is
there. -/
def pushNonce (o : Opts) (nonce : Option (List UInt8)) (l : List (List UInt8)) : List (List UInt8) :=
  match nonce with
  | none => l
  | some n =>
    if o.valNonce && o.maxNonce != 0 then
      let l := if l.contains n then l else l ++ [n]
      if o.maxNonce ≥ 0 && decide ((l.length : Int) > o.maxNonce) then l.drop 1 else l
    else l

/-- The changes to the record of a known key, 152-176. -/
def updRec (o : Opts) (ts : Option Int) (x : Itm K) (r : Rec K) : Rec K :=
  { r with ts := if ts.isSome then ts else r.ts
           seq := if x.seq.isSome then x.seq else r.seq
           nonces := pushNonce o x.nonce r.nonces }

/-- Making or updating the record of a key, 149-176; a new record is the last one in
`m_byLastRefreshed`, as the steady clock never goes back. -/
def upsert (o : Opts) (steady : Nat) (k : K) (ts : Option Int) (x : Itm K) (recs : List (Rec K)) :
    List (Rec K) :=
  match findRec recs k with
  | some _ => refresh (updRec o ts x) steady k recs
  | none => recs ++ [⟨k, ts, x.seq, pushNonce o x.nonce [], steady⟩]

/-- The limit on the number of records, 178-183. -/
def limit (o : Opts) (recs : List (Rec K)) : List (Rec K) :=
  if o.maxRec ≥ 0 && decide ((recs.length : Int) > o.maxRec) then recs.drop 1 else recs

/-- The handler of `afterSuccess`, 132-139, and `insertRecord`, 143-184. -/
def insertRecord (o : Opts) (steady : Nat) (recs : List (Rec K)) (x : Itm K) : Option (List (Rec K)) :=
  if x.v03 && o.maxRec != 0 then
    match x.key, timeOf x.time with
    | some k, some ts => some (limit o (upsert o steady k ts x recs))
    | _, _ => none
  else none

/-- `ValidationPolicySignedInterest`. -/
def signed (o : Opts) : Policy (Itm K) (List (Rec K)) :=
  ⟨fun now _ recs x => (check o now recs x, recs), insertRecord o⟩

/-! ### Command Interests -/

/-- What `parseCommandInterest` (validation-policy-command-interest.cpp 64-115) extracts: the
timestamp, from SignatureTime or the name component, and the name in the KeyLocator; `none` when it
fails the validation. -/
structure Cmd (K : Type) where
  key : Option K
  time : Option Nat
  deriving DecidableEq

/-- `LastTimestampRecord`, validation-policy-command-interest.hpp 131-136. -/
structure CRec (K : Type) where
  key : K
  ts : Int
  last : Nat
  deriving DecidableEq

/-- `Options`, validation-policy-command-interest.hpp 41-92; durations in nanoseconds, the grace period
already not negative. -/
structure COpts where
  grace : Nat := 120000000000
  maxRec : Int := 1000
  lifetime : Int := 3600000000000

/-- `cleanup`, validation-policy-command-interest.cpp 114-124; the records are in the order of
`m_queue`. -/
def cleanup (o : COpts) (steady : Nat) : List (CRec K) → List (CRec K)
  | [] => []
  | r :: rs =>
    if (r.last : Int) ≤ (steady : Int) - o.lifetime ∨ (o.maxRec ≥ 0 ∧ ((rs.length + 1 : Nat) : Int) > o.maxRec)
    then cleanup o steady rs
    else r :: rs

/-- `checkPolicy`, `checkTimestamp`, 49-62 and 129-156; the time is converted before the KeyLocator is
looked at. -/
def cmdCheck (o : COpts) (now steady : Nat) (recs : List (CRec K)) (x : Cmd K) : Verdict × List (CRec K) :=
  match x.time with
  | none => (.reject, recs)
  | some n =>
    match fromMs n, x.key with
    | none, _ => (.undef, recs)
    | some _, none => (.reject, recs)
    | some t, some k =>
      let recs := cleanup o steady recs
      if t < (now : Int) - o.grace ∨ t > (now : Int) + o.grace then (.reject, recs)
      else match recs.find? (fun r => r.key == k) with
        | none => (.pass, recs)
        | some r => if t ≤ r.ts then (.reject, recs) else (.pass, recs)

/-- `insertNewRecord`, 158-173: a record of the same key is erased, the new one goes to the end. -/
def cmdInsert (steady : Nat) (recs : List (CRec K)) (x : Cmd K) : Option (List (CRec K)) :=
  match x.key, x.time.bind fromMs with
  | some k, some t => some (recs.filter (fun r => r.key != k) ++ [⟨k, t, steady⟩])
  | _, _ => none

/-- `ValidationPolicyCommandInterest`. -/
def command (o : COpts) : Policy (Cmd K) (List (CRec K)) := ⟨cmdCheck o, cmdInsert⟩

end

/-! ### Signing -/

/-- State of an `InterestSigner`: `m_lastUsedTimestamp` (nanoseconds since 1970) and
`m_lastUsedSeqNum`, interest-signer.hpp 87-88. -/
structure Signer where
  ts : Int := 0
  seq : Nat := 2 ^ 64 - 1

/-- `getFreshTimestamp`, interest-signer.cpp 66-79, given the system clock in nanoseconds since 1970;
`duration_cast` truncates toward zero. -/
def freshTimestamp (s : Signer) (now : Int) : Int × Signer :=
  if Int.tdiv (now - s.ts) 1000000 > 0 then (now, { s with ts := now })
  else (s.ts + 1000000, { s with ts := s.ts + 1000000 })

/-- `++m_lastUsedSeqNum` on a `uint64_t`, interest-signer.cpp 46. -/
def nextSeqNum (s : Signer) : Nat × Signer :=
  let n := (s.seq + 1) % 2 ^ 64
  (n, { s with seq := n })

/-- What is signed: `makeSignedInterest` with flags (interest-signer.cpp 27-50), `makeCommandInterest`
(52-64). -/
inductive Sign where
  | signed (wantNonce wantTime wantSeqNum : Bool)
  | command

/-- What a signed Interest carries: SignatureTime, or the timestamp component of a command Interest;
SignatureSeqNum.  `toUnixTimestamp` (util/time.cpp, and signature-info.cpp 255-266) truncates to
milliseconds. -/
structure Signed where
  timeMs : Option Int
  seq : Option Nat
  deriving DecidableEq, Repr

/-- One signing at a time of the system clock; `none`: `std::invalid_argument`. -/
def sign (s : Signer) (now : Int) : Sign → Option Signed × Signer
  | .signed wn wt ws =>
    if !wn && !wt && !ws then (none, s)
    else
      let (t, s) : Option Int × Signer :=
        if wt then let r := freshTimestamp s now; (some (Int.tdiv r.1 1000000), r.2) else (none, s)
      let (n, s) : Option Nat × Signer :=
        if ws then let r := nextSeqNum s; (some r.1, r.2) else (none, s)
      (some ⟨t, n⟩, s)
  | .command =>
    let r := freshTimestamp s now
    (some ⟨some (Int.tdiv r.1 1000000), none⟩, r.2)

/-- A history of signings, each at a reading of the clock; the Interests made, in order. -/
def signAll (s : Signer) : List (Int × Sign) → List Signed
  | [] => []
  | (now, q) :: rest =>
    match sign s now q with
    | (none, s) => signAll s rest
    | (some x, s) => x :: signAll s rest

end Ndn.Replay
