import Verif.Block.Model

/-! The stream transports (TCP and Unix): ndn-cxx/transport/detail/stream-transport-impl.hpp,
stream-transport-with-resolver-impl.hpp, tcp-transport.cpp, unix-transport.cpp.

One connection of one transport object, from the call of `connect` on a closed transport. The
socket, the resolver and the timer are Boost.Asio objects: each operation started on them is first
`pending`; the environment completes it at any time (events `resolved`, `connected`, `timerFires`,
`written`, `writeFails`, `readable`, `readFails`), after which its completion handler waits to be
run (events `hResolve`, `hConnect`, `hTimer`, `hWrite`, `hRecv`, in any order). `cancel()` and
`close()` make the operations that are still pending complete with `operation_aborted`; they do not
change the result of an operation that has completed and whose handler is waiting. A read or write
started on a closed socket completes with `bad_descriptor`; `async_connect` on a closed socket
opens it. These are Boost.Asio's documented rules and are assumptions of this model.

Not modelled: `connect` on a transport that is not CLOSED (Face never does it), a second
connection of the same object, a receive callback that calls the transport (Face posts all such
calls), the texts of the exceptions. -/

namespace Ndn.Transport
open Block

/-- `Transport::State`, transport/transport.hpp 47-52. -/
inductive TState where
  | closed | connecting | running | paused
  deriving DecidableEq, Repr

/-- State of an asynchronous operation: not completed, or completed with success,
`operation_aborted` or another error and waiting for its handler to run. -/
inductive Res where
  | pending | ok | aborted | failed
  deriving DecidableEq, Repr

/-- `socket.cancel()` / `timer.cancel()` on one operation. -/
def Res.cancel : Res → Res
  | .pending => .aborted
  | r => r

/-- An `async_write` in progress, stream-transport-impl.hpp 159: the octets not yet written. -/
structure WriteOp where
  left : Bytes
  res : Res
  deriving DecidableEq, Repr

/-- An `async_receive` in progress, stream-transport-impl.hpp 187-188: the place in the receive
buffer the octets go to and (once completed) how many there were. -/
structure RecvOp where
  off : Nat
  res : Res
  n : Nat
  deriving DecidableEq, Repr

/-- What can be observed from outside: octets the socket accepted, octets the socket handed to a
receive operation, an element given to the receive callback, a `Transport::Error` thrown by a
handler, and undefined behaviour (an assertion of the code violated). -/
inductive Out where
  | wire (bs : Bytes)
  | got (bs : Bytes)
  | deliver (e : Raw)
  | threw
  | ub
  deriving DecidableEq, Repr

/-- `MAX_NDN_PACKET_SIZE`, encoding/tlv.hpp 41: size of `m_rxBuffer`. -/
def maxPacket : Nat := 8800

/-- The transport (`m_state`, and whether `m_impl` is set), the implementation object
(stream-transport-impl.hpp 230-236) and the operations in progress. `dead` after undefined
behaviour. -/
structure St where
  state : TState
  impl : Bool
  sockOpen : Bool
  resolve : Option Res
  connect : Option Res
  timer : Option Res
  queue : List Bytes
  write : Option WriteOp
  recvs : List RecvOp
  rx : Bytes
  rxSize : Nat
  dead : Bool
  deriving DecidableEq, Repr

/-- The state after `connect` on a closed transport: UnixTransport (unix-transport.cpp 74-85 and
stream-transport-impl.hpp 57-83) or TcpTransport with a resolver
(stream-transport-with-resolver-impl.hpp 42-69). -/
def init (tcp : Bool) : St :=
  { state := .connecting, impl := true, sockOpen := !tcp,
    resolve := if tcp then some .pending else none,
    connect := if tcp then none else some .pending,
    timer := some .pending, queue := [], write := none, recvs := [],
    rx := List.replicate maxPacket 0, rxSize := 0, dead := false }

/-- `m_socket.cancel()`: every pending operation of the socket is aborted. -/
def cancelSocket (s : St) : St :=
  { s with connect := s.connect.map Res.cancel,
           write := s.write.map fun w => { w with res := w.res.cancel },
           recvs := s.recvs.map fun r => { r with res := r.res.cancel } }

/-- `StreamTransportImpl::close`, stream-transport-impl.hpp 85-96. -/
def closeImpl (s : St) : St :=
  { cancelSocket s with state := .closed, timer := s.timer.map Res.cancel, sockOpen := false,
                        queue := [] }

/-- `TcpTransport::close` / `UnixTransport::close`, unix-transport.cpp 94-101: asserts `m_impl`,
closes it and drops it. -/
def close (s : St) : St × List Out :=
  if s.impl then ({ closeImpl s with impl := false }, [])
  else ({ s with dead := true }, [.ub])

/-- `m_transport.close(); NDN_THROW(...)`. -/
def closeThrow (s : St) : St × List Out :=
  if s.impl then ((close s).1, [.threw]) else close s

/-- `asyncWrite`, stream-transport-impl.hpp 155-182 (starting it). -/
def asyncWrite (s : St) : St × List Out :=
  match s.queue with
  | [] => ({ s with dead := true }, [.ub])
  | b :: _ => ({ s with write := some ⟨b, if s.sockOpen then .pending else .failed⟩ }, [])

/-- `asyncReceive`, stream-transport-impl.hpp 184-190 (starting it). -/
def asyncReceive (s : St) : St :=
  { s with recvs := s.recvs ++ [⟨s.rxSize, if s.sockOpen then .pending else .failed, 0⟩] }

/-- `StreamTransportImpl::resume`, stream-transport-impl.hpp 107-115. -/
def resumeImpl (s : St) : St :=
  if s.state = .paused then asyncReceive { s with state := .running, rxSize := 0 } else s

/-- `pause`, unix-transport.cpp 103-110 and stream-transport-impl.hpp 98-105. -/
def pause (s : St) : St :=
  if s.impl then
    if s.state = .running then { cancelSocket s with state := .paused } else s
  else s

/-- `resume`, unix-transport.cpp 112-118: asserts `m_impl`. -/
def resume (s : St) : St × List Out :=
  if s.impl then (resumeImpl s, []) else ({ s with dead := true }, [.ub])

/-- `send`, unix-transport.cpp 87-92 and stream-transport-impl.hpp 117-129. -/
def send (s : St) (b : Bytes) : St × List Out :=
  if s.impl then
    if s.state ≠ .closed ∧ s.state ≠ .connecting ∧ (s.queue ++ [b]).length = 1 then
      asyncWrite { s with queue := s.queue ++ [b] }
    else ({ s with queue := s.queue ++ [b] }, [])
  else ({ s with dead := true }, [.ub])

/-- `connectHandler`, stream-transport-impl.hpp 132-153. -/
def connectHandler (s : St) (r : Res) : St × List Out :=
  let s := { s with timer := s.timer.map Res.cancel }
  match r with
  | .pending => (s, [])
  | .aborted => (s, [])
  | .failed => closeThrow s
  | .ok =>
    let s := { s with state := .paused }
    if s.queue.isEmpty then (s, []) else asyncWrite (resumeImpl s)

/-- The completion handler of `async_write`, stream-transport-impl.hpp 161-181. -/
def writeHandler (s : St) (r : Res) : St × List Out :=
  match r with
  | .pending => (s, [])
  | .aborted => (s, [])
  | .failed => closeThrow s
  | .ok =>
    if s.state = .closed then (s, [])
    else
      match s.queue with
      | [] => ({ s with dead := true }, [.ub])
      | _ :: q =>
        if q.isEmpty then ({ s with queue := q }, []) else asyncWrite { s with queue := q }

/-- The loop that cuts the unparsed octets into elements, stream-transport-impl.hpp 202-209. The
fuel is the number of octets (every element has at least two). -/
def extract : Nat → Bytes → List Raw × Bytes
  | 0, bs => ([], bs)
  | fuel + 1, bs =>
    if bs.isEmpty then ([], bs)
    else
      match fromBuffer bs with
      | none => ([], bs)
      | some (e, rest) => (e :: (extract fuel rest).1, (extract fuel rest).2)

/-- Overwriting a part of the receive buffer. -/
def overwrite (buf : Bytes) (off : Nat) (bs : Bytes) : Bytes :=
  buf.take off ++ bs ++ buf.drop (off + bs.length)

/-- The completion handler of `async_receive`, stream-transport-impl.hpp 190-226. A receive buffer
size beyond the buffer makes `first()` undefined. -/
def recvHandler (s : St) (r : Res) (n : Nat) : St × List Out :=
  match r with
  | .pending => (s, [])
  | .aborted => (s, [])
  | .failed => closeThrow s
  | .ok =>
    let size := s.rxSize + n
    if size > maxPacket then ({ s with dead := true }, [.ub])
    else
      let avail := s.rx.take size
      let (es, rest) := extract avail.length avail
      let outs := es.map Out.deliver
      if rest.isEmpty then (asyncReceive { s with rxSize := 0 }, outs)
      else if rest.length ≠ avail.length then
        (asyncReceive { s with rx := overwrite s.rx 0 rest, rxSize := rest.length }, outs)
      else if rest.length = maxPacket then
        let (s', o) := closeThrow { s with rxSize := size }
        (s', outs ++ o)
      else (asyncReceive { s with rxSize := size }, outs)

/-- The completion handler of the connect timer, stream-transport-impl.hpp 70-78. -/
def timerHandler (s : St) (r : Res) : St × List Out :=
  match r with
  | .ok => closeThrow s
  | .failed => (s, [])
  | .pending => (s, [])
  | .aborted => (s, [])

/-- `resolveHandler`, stream-transport-with-resolver-impl.hpp 71-91. -/
def resolveHandler (s : St) (r : Res) : St × List Out :=
  match r with
  | .ok => ({ s with sockOpen := true, connect := some .pending }, [])
  | .failed => closeThrow s
  | .pending => (s, [])
  | .aborted => (s, [])

/-- Calls of the application, completions by the operating system, and runs of waiting handlers. -/
inductive Ev where
  | send (b : Bytes) | pause | resume | close
  | resolved (ok : Bool) | connected (ok : Bool) | timerFires
  | written (n : Nat) | writeFails | readable (bs : Bytes) | readFails
  | hResolve | hConnect | hTimer | hWrite | hRecv (i : Nat)
  deriving DecidableEq, Repr

/-- The first pending receive operation completes: the octets go to its place in the buffer. -/
def fill : List RecvOp → Nat → Option (List RecvOp × Nat)
  | [], _ => none
  | r :: rs, n =>
    if r.res = .pending then some ({ r with res := .ok, n := n } :: rs, r.off)
    else (fill rs n).map fun p => (r :: p.1, p.2)

/-- The first pending receive operation fails. -/
def failRecv : List RecvOp → List RecvOp
  | [] => []
  | r :: rs => if r.res = .pending then { r with res := .failed } :: rs else r :: failRecv rs

/-- What an event does. An event that cannot happen in the state (a completion of an operation that
is not pending, a handler of an operation that has not completed, more octets than the operation's
buffer takes) changes nothing. -/
def act (s : St) (e : Ev) : St × List Out :=
  match e with
  | .send b => send s b
  | .pause => (pause s, [])
  | .resume => resume s
  | .close => close s
  | .resolved k =>
    if s.resolve = some .pending then
      ({ s with resolve := some (if k then .ok else .failed) }, [])
    else (s, [])
  | .connected k =>
    if s.connect = some .pending then
      ({ s with connect := some (if k then .ok else .failed) }, [])
    else (s, [])
  | .timerFires => if s.timer = some .pending then ({ s with timer := some .ok }, []) else (s, [])
  | .written n =>
    match s.write with
    | none => (s, [])
    | some w =>
      if w.res = .pending ∧ n ≤ w.left.length then
        ({ s with write := some ⟨w.left.drop n, if w.left.drop n = [] then .ok else .pending⟩ },
         [.wire (w.left.take n)])
      else (s, [])
  | .writeFails =>
    match s.write with
    | none => (s, [])
    | some w =>
      if w.res = .pending then ({ s with write := some { w with res := .failed } }, []) else (s, [])
  | .readable bs =>
    match fill s.recvs bs.length with
    | none => (s, [])
    | some (rs, off) =>
      if bs ≠ [] ∧ off + bs.length ≤ maxPacket then
        ({ s with recvs := rs, rx := overwrite s.rx off bs }, [.got bs])
      else (s, [])
  | .readFails => ({ s with recvs := failRecv s.recvs }, [])
  | .hResolve =>
    match s.resolve with
    | none => (s, [])
    | some r => if r = .pending then (s, []) else resolveHandler { s with resolve := none } r
  | .hConnect =>
    match s.connect with
    | none => (s, [])
    | some r => if r = .pending then (s, []) else connectHandler { s with connect := none } r
  | .hTimer =>
    match s.timer with
    | none => (s, [])
    | some r => if r = .pending then (s, []) else timerHandler { s with timer := none } r
  | .hWrite =>
    match s.write with
    | none => (s, [])
    | some w => if w.res = .pending then (s, []) else writeHandler { s with write := none } w.res
  | .hRecv i =>
    match s.recvs[i]? with
    | none => (s, [])
    | some r =>
      if r.res = .pending then (s, [])
      else recvHandler { s with recvs := s.recvs.eraseIdx i } r.res r.n

/-- One step; nothing is said about what follows undefined behaviour. -/
def step (s : St) (e : Ev) : St × List Out :=
  if s.dead then (s, []) else act s e

/-- A history: the state and the observations so far. -/
def run (s : St) : List Ev → St × List Out
  | [] => (s, [])
  | e :: es =>
    let (s', o) := step s e
    let (s'', o') := run s' es
    (s'', o ++ o')

end Ndn.Transport
