import Verif.Transport.Model
import Verif.Block.Spec

/-! What the stream transports owe their user, in terms of calls and observations. -/

namespace Ndn.Transport.Spec
open Block Block.Spec

/-- The octets that came out of the socket, in order. -/
def reads (log : List Out) : Bytes :=
  (log.map fun o => match o with | .got b => b | _ => []).flatten

/-- The octets that went into the socket, in order. -/
def wires (log : List Out) : Bytes :=
  (log.map fun o => match o with | .wire b => b | _ => []).flatten

/-- The elements handed to the receive callback, in order. -/
def deliveries (log : List Out) : List Raw :=
  log.filterMap fun o => match o with | .deliver e => some e | _ => none

/-- The packets passed to `send`, in order. -/
def sends (evs : List Ev) : List Bytes :=
  evs.filterMap fun e => match e with | .send b => some b | _ => none

/-- `Frames bs es rest`: the octets `bs` are the TLV elements `es` one after the other, followed
by `rest`, which does not begin with a complete TLV element. -/
def Frames (bs : Bytes) (es : List Raw) (rest : Bytes) : Prop :=
  bs = (es.map Raw.wire).flatten ++ rest ∧ (∀ e ∈ es, TlvForm e.wire e.type e.value) ∧
    ∀ w t v r, rest = w ++ r → ¬ TlvForm w t v

/-- Events that are not calls of the application. -/
def Env : Ev → Prop
  | .send _ => False
  | .pause => False
  | .resume => False
  | .close => False
  | _ => True

/-- Events of a network that works: no error and no time-out. -/
def Healthy : Ev → Prop
  | .resolved ok => ok = true
  | .connected ok => ok = true
  | .timerFires => False
  | .writeFails => False
  | .readFails => False
  | _ => True

/-- No completed operation is waiting for its handler and no name is being resolved. -/
def Quiet (s : St) : Prop :=
  s.resolve = none ∧ (∀ r, s.connect = some r → r = .pending ∨ r = .aborted) ∧
    (∀ r, s.timer = some r → r = .pending ∨ r = .aborted) ∧
    (∀ w, s.write = some w → w.res = .pending ∨ w.res = .aborted) ∧
    ∀ r ∈ s.recvs, r.res = .pending ∨ r.res = .aborted

/-- `pause` is only called when everything passed to `send` so far has gone into the socket. -/
def PauseIdle (tcp : Bool) (evs : List Ev) : Prop :=
  ∀ a b, evs = a ++ .pause :: b → wires (run (init tcp) a).2 = (sends a).flatten

end Ndn.Transport.Spec
