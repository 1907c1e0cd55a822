import Verif.Tlv.Model
/-
Model of ndn-cxx/util/segment-fetcher.{hpp,cpp}.

Simplifications:
* A Data packet is given by its name without the last component (`obj`, any injective numbering of
  names), the segment number of the last component if it is one, the FinalBlockId and the content.
* The congestion window and the retransmission timeout are floating-point computations: the integer
  part of the window is given by each event (any number; at least 1, as `initCwnd ≥ 1` and
  `ssthresh ≥ 2` guarantee); a timer may fire at any moment while it is scheduled.
* Assertions are not evaluated (release build); dereferencing an invalid iterator and writing beyond a
  buffer set `ub`.
* Segment numbers requested do not wrap around at 2^64.
* Handlers of `afterSegmentReceived`, `afterSegmentValidated`, `afterSegmentNacked` and
  `afterSegmentTimedOut` may call `stop()`; other calls from handlers are not modelled.
-/
namespace Ndn.Fetch

structure Data where
  obj : Nat
  seg : Option Nat
  final : Option (Option Nat)
  content : Bytes
  deriving DecidableEq, Repr

/-- The Interest of the discovery phase, or for one segment of an object. -/
inductive Kind where
  | base
  | exact (obj seg : Nat)
  deriving DecidableEq, Repr

/-- `PendingSegment`, segment-fetcher.hpp 319-326. `node` identifies the map node (for iterators),
`iid` the pending Interest held, `kind` its name, `timer`: its timeout event is scheduled. -/
structure Pend where
  seg : Nat
  node : Nat
  iid : Nat
  kind : Kind
  timer : Bool
  deriving DecidableEq, Repr

/-- An Interest in the face. -/
structure Live where
  iid : Nat
  kind : Kind
  deriving DecidableEq, Repr

/-- A running validation, with the iterator it captured. -/
structure Val where
  vid : Nat
  node : Nat
  data : Data
  deriving DecidableEq, Repr

/-- Signals emitted. -/
inductive Obs where
  | received (d : Data)
  | validated (d : Data)
  | nacked
  | timedOut
  | inOrder (c : Bytes)
  | complete (c : Bytes)
  | inOrderComplete
  | error (code : Nat)
  deriving DecidableEq, Repr

/-- `baseSeg`: the base Interest's name ends with this segment number. `late`: an Interest may still be
answered after its handle was cancelled (the removal is posted to the io_context, face.cpp 345-398). -/
structure Cfg where
  inOrder : Bool
  fcw : Nat
  baseSeg : Option Nat
  maxTimeout : Nat
  late : Bool
  deriving DecidableEq, Repr

structure St where
  cfg : Cfg
  stopped : Bool
  inFlight : Int
  /-- `m_nSegments`, as an unsigned 64-bit number. -/
  nSeg : Nat
  nReceived : Nat
  next : Nat
  nextInOrder : Nat
  retx : List Nat
  versioned : Nat
  buffer : List (Nat × Bytes)
  pending : List Pend
  received : List Nat
  live : List Live
  validating : List Val
  nextId : Nat
  now : Nat
  lastRecv : Nat
  log : List Obs
  ub : Bool
  deriving DecidableEq, Repr

/-- Conversion to `int64_t`. -/
def toI64 (n : Nat) : Int := if n < 2 ^ 63 then n else (n : Int) - 2 ^ 64

def lookup (k : Nat) (b : List (Nat × Bytes)) : Option Bytes := (b.find? (fun x => x.1 = k)).map Prod.snd

def hasKey (k : Nat) (b : List (Nat × Bytes)) : Bool := b.any (fun x => x.1 = k)

/-- Cancelling pending Interest handles. -/
def cancel (s : St) (iids : List Nat) : St :=
  if s.cfg.late then s else { s with live := s.live.filter (fun l => l.iid ∉ iids) }

/-- `stop`, segment-fetcher.cpp 87-96. -/
def stop (s : St) : St :=
  if s.stopped then s else { cancel s (s.pending.map Pend.iid) with stopped := true, pending := [] }

/-- `signalError`, segment-fetcher.cpp 465-470. -/
def error (s : St) (code : Nat) : St := stop { s with log := s.log ++ [.error code] }

/-- `sendInterest` and `updateRetransmittedSegment`, segment-fetcher.cpp 179-209, 472-483. -/
def send (s : St) (seg : Nat) (kind : Kind) (isRetx : Bool) : St :=
  let iid := s.nextId
  let s : St := { s with inFlight := s.inFlight + 1, live := s.live ++ [⟨iid, kind⟩], nextId := s.nextId + 1 }
  if isRetx then
    match s.pending.find? (fun p => p.seg = seg) with
    | none => { s with ub := true }
    | some p =>
      { cancel s [p.iid] with
        pending := s.pending.map (fun q => if q.seg = seg then { q with iid := iid, kind := kind, timer := true } else q) }
  else if s.pending.any (fun p => p.seg = seg) then cancel s [iid]
  else { s with pending := s.pending ++ [⟨seg, iid, iid, kind, true⟩] }

/-- `m_pendingSegments.begin()`. -/
def first (l : List Pend) : Option Pend := l.find? (fun p => l.all (fun q => p.seg ≤ q.seg))

/-- The loop of `fetchSegmentsInWindow` on the retransmission queue, segment-fetcher.cpp 144-155:
segments to request, window left, queue left. -/
def takeRetx (pending : List Pend) : Int → List Nat → List Nat × Int × List Nat
  | a, [] => ([], a, [])
  | a, k :: q =>
    if a ≤ 0 then ([], a, k :: q)
    else if pending.any (fun p => p.seg = k) then
      let r := takeRetx pending (a - 1) q
      (k :: r.1, r.2)
    else takeRetx pending a q

/-- Segments already in the buffer are skipped, segment-fetcher.cpp 157-161. -/
def skip (buffer : List (Nat × Bytes)) (nSeg : Nat) : Nat → Nat → Nat
  | 0, n => n
  | fuel + 1, n => if (nSeg = 0 ∨ n < nSeg) ∧ hasKey n buffer then skip buffer nSeg fuel (n + 1) else n

/-- The loop of `fetchSegmentsInWindow` on new segments, segment-fetcher.cpp 156-168: segments to
request, next segment number. -/
def takeNew (buffer : List (Nat × Bytes)) (nSeg : Nat) : Nat → Nat → List Nat × Nat
  | 0, n => ([], n)
  | a + 1, n =>
    let m := skip buffer nSeg buffer.length n
    if nSeg = 0 ∨ m < nSeg then
      let r := takeNew buffer nSeg a (m + 1)
      (m :: r.1, r.2)
    else ([], m)

/-- Segments of the object not received (only looked for if enough packets were received),
`checkAllSegmentsReceived`, segment-fetcher.cpp 500-517. -/
def enough (s : St) : Bool := s.nSeg ≠ 0 ∧ (s.nReceived : Int) ≥ toI64 s.nSeg

def missing (s : St) : List Nat := (List.range s.nSeg).filter (fun i => i ∉ s.received)

/-- `finalizeFetch`, segment-fetcher.cpp 412-430. -/
def finalize (s : St) : St :=
  if s.cfg.inOrder then stop { s with log := s.log ++ [.inOrderComplete] }
  else stop { s with log := s.log ++ [.complete ((List.range (toI64 s.nSeg).toNat).map fun i => (lookup i s.buffer).getD []).flatten] }

/-- `availableWindowSize`, segment-fetcher.cpp 132-139. -/
def avail (s : St) (w : Nat) : Int :=
  (if s.cfg.inOrder then min (max w 1 : Int) ((s.cfg.fcw : Int) - s.buffer.length) else (max w 1 : Int)) - s.inFlight

/-- `fetchSegmentsInWindow`, segment-fetcher.cpp 124-177. -/
def fetchWindow (s : St) (w : Nat) : St :=
  if enough s && (missing s).isEmpty then finalize s
  else
    let s : St := if enough s then { s with retx := s.retx ++ missing s } else s
    let r := takeRetx s.pending (avail s w) s.retx
    let n := takeNew s.buffer s.nSeg r.2.1.toNat s.next
    let s : St := { s with retx := r.2.2, next := n.2 }
    let s : St := r.1.foldl (fun s k => send s k (.exact s.versioned k) true) s
    n.1.foldl (fun s k => send s k (.exact s.versioned k) false) s

/-- Copying the content to the buffer (`try_emplace` keeps a buffer that exists),
segment-fetcher.cpp 278-282. -/
def copyTo (s : St) (k : Nat) (c : Bytes) : St :=
  match lookup k s.buffer with
  | none => { s with buffer := s.buffer ++ [(k, c)] }
  | some old =>
    { s with
      buffer := s.buffer.map (fun x => if x.1 = k then (k, c ++ old.drop c.length) else x)
      ub := s.ub || decide (c.length > old.length) }

/-- `cancelExcessInFlightSegments`, segment-fetcher.cpp 485-498. -/
def cancelExcess (s : St) : St :=
  let excess := s.pending.filter (fun p => p.seg ≥ s.nSeg)
  { cancel s (excess.map Pend.iid) with
    pending := s.pending.filter (fun p => p.seg < s.nSeg), inFlight := s.inFlight - excess.length }

/-- Delivery in order, segment-fetcher.cpp 298-303. -/
def deliver : Nat → St → St
  | 0, s => s
  | fuel + 1, s =>
    match lookup s.nextInOrder s.buffer with
    | none => s
    | some c =>
      deliver fuel { s with
        log := s.log ++ [.inOrder c]
        buffer := s.buffer.filter (fun x => x.1 ≠ s.nextInOrder)
        nextInOrder := s.nextInOrder + 1 }

/-- The FinalBlockId is taken over, segment-fetcher.cpp 286-296. -/
def takeFinal (s : St) (d : Data) : St :=
  match d.final with
  | some (some f) =>
    if (f + 1) % 2 ^ 64 ≠ s.nSeg then cancelExcess { s with nSeg := (f + 1) % 2 ^ 64 } else s
  | _ => s

/-- Delivery in order if this is the segment awaited, segment-fetcher.cpp 298-303. -/
def deliverFrom (s : St) (cur : Nat) : St :=
  if s.cfg.inOrder && s.nextInOrder = cur then deliver s.buffer.length s else s

/-- The versioned name is learnt from the first segment, segment-fetcher.cpp 305-311. -/
def learn (s : St) (d : Data) (cur : Nat) : St :=
  if s.received.length = 1 then { s with versioned := d.obj, next := if cur = 0 then s.next + 1 else s.next } else s

/-- The part of `afterValidationSuccess` after the signal, segment-fetcher.cpp 286-324. -/
def afterStored (s : St) (d : Data) (cur w : Nat) : St :=
  if d.final = some none then error s 5
  else fetchWindow (learn (deliverFrom (takeFinal s d) cur) d cur) w

/-- A signal whose handler may call `stop()`. -/
def signal (s : St) (o : Obs) (handlerStops : Bool) : St :=
  if handlerStops then stop { s with log := s.log ++ [o] } else { s with log := s.log ++ [o] }

/-- `afterValidationSuccess` up to the signal (the iterator is `p`), segment-fetcher.cpp 258-284. -/
def store (s : St) (p : Pend) (c : Bytes) (cur : Nat) : St :=
  copyTo { cancel s [p.iid] with
    lastRecv := s.now
    nReceived := s.nReceived + 1
    received := if cur ∈ s.received then s.received else s.received ++ [cur]
    pending := s.pending.filter (fun q => q.node ≠ p.node) } cur c

/-- `afterValidationSuccess`, segment-fetcher.cpp 250-325. The iterator is dereferenced (line 270) and
erased (276): undefined if the map node is gone. -/
def success (s : St) (v : Val) (w : Nat) (handlerStops : Bool) : St :=
  if s.stopped then s
  else
    match s.pending.find? (fun p => p.node = v.node) with
    | none => { s with ub := true }
    | some p =>
      afterStored (signal (store s p v.data.content (v.data.seg.getD 0)) (.validated v.data) handlerStops)
        v.data (v.data.seg.getD 0) w

/-- The validator's answer; `afterValidationFailure`, segment-fetcher.cpp 327-336. -/
def result (s : St) (vid : Nat) (ok : Bool) (w : Nat) (handlerStops : Bool) : St :=
  match s.validating.find? (fun v => v.vid = vid) with
  | none => s
  | some v =>
    let s : St := { s with validating := s.validating.filter (fun x => x.vid ≠ vid) }
    if ok then success s v w handlerStops
    else if s.stopped then s else error s 3

/-- A Data packet matches an Interest. -/
def answers (d : Data) : Kind → Bool
  | .base => true
  | .exact o k => d.obj = o && d.seg = some k

/-- `timeoutEvent.cancel()`. -/
def unschedule (s : St) (node : Nat) : St :=
  { s with pending := s.pending.map (fun q => if q.node = node then { q with timer := false } else q) }

/-- The pending segment a Data packet is for, segment-fetcher.cpp 227-234. -/
def dataTarget (s : St) (k : Nat) : Option Pend :=
  if s.received = [] then first s.pending else s.pending.find? (fun p => p.seg = k)

/-- `afterSegmentReceivedCb` once the pending segment is found, segment-fetcher.cpp 240-247;
`verdict`: the validator answers at once. -/
def validate (s : St) (p : Pend) (d : Data) (verdict : Option Bool) (w : Nat)
    (stopsReceived stopsValidated : Bool) : St :=
  let s : St := signal (unschedule s p.node) (.received d) stopsReceived
  let vid := s.nextId
  let s : St := { s with validating := s.validating ++ [⟨vid, p.node, d⟩], nextId := s.nextId + 1 }
  match verdict with
  | none => s
  | some ok => result s vid ok w stopsValidated

/-- `afterSegmentReceivedCb`, segment-fetcher.cpp 211-248. -/
def onData (s : St) (iid : Nat) (d : Data) (verdict : Option Bool) (w : Nat)
    (stopsReceived stopsValidated : Bool) : St :=
  match s.live.find? (fun l => l.iid = iid) with
  | none => s
  | some l =>
    if answers d l.kind then
      let s : St := { s with live := s.live.filter (fun x => x.iid ≠ iid) }
      if s.stopped then s
      else
        let s : St := { s with inFlight := s.inFlight - 1 }
        match d.seg with
        | none => error s 2
        | some k =>
          match dataTarget s k with
          | none => s
          | some p => validate s p d verdict w stopsReceived stopsValidated
    else s

/-- The segment number at the end of an Interest name. -/
def nameSeg (s : St) : Kind → Option Nat
  | .base => s.cfg.baseSeg
  | .exact _ k => some k

/-- The pending segment of an Interest lost, segment-fetcher.cpp 385-394. -/
def lossTarget (s : St) (kind : Kind) : Option Pend :=
  match nameSeg s kind with
  | some k => s.pending.find? (fun p => p.seg = k)
  | none => first s.pending

/-- `afterNackOrTimeout`, segment-fetcher.cpp 375-410. The iterator is dereferenced without a check. -/
def afterLoss (s : St) (kind : Kind) (w : Nat) : St :=
  if s.now ≥ s.lastRecv + s.cfg.maxTimeout then error s 1
  else
    match lossTarget s kind with
    | none => { s with ub := true }
    | some p =>
      let s : St := unschedule s p.node
      if s.received = [] then send s 0 .base true
      else fetchWindow { s with retx := s.retx ++ [p.seg] } w

/-- `afterNackReceivedCb`, segment-fetcher.cpp 338-359; `again`: reason DUPLICATE or CONGESTION. -/
def onNack (s : St) (iid : Nat) (again : Bool) (w : Nat) (handlerStops : Bool) : St :=
  match s.live.find? (fun l => l.iid = iid) with
  | none => s
  | some l =>
    let s : St := { s with live := s.live.filter (fun x => x.iid ≠ iid) }
    if s.stopped then s
    else
      let s : St := signal s .nacked handlerStops
      let s : St := { s with inFlight := s.inFlight - 1 }
      if again then afterLoss s l.kind w else error s 4

/-- `afterTimeoutCb`, segment-fetcher.cpp 361-373. -/
def onTimeout (s : St) (node : Nat) (w : Nat) (handlerStops : Bool) : St :=
  match s.pending.find? (fun p => p.node = node && p.timer) with
  | none => s
  | some p =>
    let s : St := unschedule s p.node
    if s.stopped then s
    else
      let s : St := signal s .timedOut handlerStops
      let s : St := { s with inFlight := s.inFlight - 1 }
      afterLoss s p.kind w

/-- The constructor and `start`, segment-fetcher.cpp 60-85. -/
def start (cfg : Cfg) : St :=
  send ⟨cfg, false, 0, 0, 0, 0, 0, [], 0, [], [], [], [], [], 0, 0, 0, [], false⟩ 0 .base false

inductive Ev where
  | data (iid : Nat) (d : Data) (verdict : Option Bool) (w : Nat) (stopsReceived stopsValidated : Bool)
  | result (vid : Nat) (ok : Bool) (w : Nat) (stops : Bool)
  | nack (iid : Nat) (again : Bool) (w : Nat) (stops : Bool)
  | timeout (node : Nat) (w : Nat) (stops : Bool)
  | lost (iid : Nat)
  | stop
  | advance (dt : Nat)

def step (s : St) : Ev → St
  | .data i d v w a b => onData s i d v w a b
  | .result v ok w a => result s v ok w a
  | .nack i g w a => onNack s i g w a
  | .timeout n w a => onTimeout s n w a
  -- the face drops an Interest at the end of its lifetime (no callback)
  | .lost i => { s with live := s.live.filter (fun x => x.iid ≠ i) }
  | .stop => Fetch.stop s
  | .advance dt => { s with now := s.now + dt }

def run (s : St) (evs : List Ev) : St := evs.foldl step s

end Ndn.Fetch
