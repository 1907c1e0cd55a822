/-
Model of ndn-cxx/util/signal/{signal.hpp,connection.cpp}.

A signal is a state machine; a handler is any finite sequence of steps between its call and its
return or exception. Slots are identified by their order of creation (list iterators in the code).
Simplifications: the Signal is not destroyed during the history; handler arguments are not modelled
(every handler of an emission gets the same arguments).
-/
namespace Ndn.Signal

/-- `Slot`, signal.hpp 109-126. `single`: the handler was wrapped by `connectSingleShot`.
`alive`: the `disconnect` function is not null, i.e. Connections to this slot are connected. -/
structure Slot where
  id : Nat
  single : Bool
  alive : Bool
  deriving DecidableEq, Repr

/-- Control: outside emission; in the handler of slot `cur`, the emission ending after slot `last`,
`marked` if `m_currentSlot` was set to `end()`; or undefined behaviour has happened (a failed
assertion: emission from a handler, signal.hpp 207, disconnection of another handler, 182). -/
inductive Mode where
  | idle
  | handler (cur last : Nat) (marked : Bool)
  | undefined
  deriving DecidableEq, Repr

inductive Obs where
  | connected (id : Nat) (single : Bool)
  | disconnected (id : Nat)
  | emit
  | called (id : Nat)
  | returned (id : Nat)
  | threw (id : Nat)
  | done
  deriving DecidableEq, Repr

structure St where
  nextId : Nat
  slots : List Slot
  mode : Mode
  log : List Obs
  deriving DecidableEq, Repr

def St.init : St := ⟨0, [], .idle, []⟩

/-- `Connection::isConnected`, connection.hpp 56-60. -/
def isConnected (s : St) (id : Nat) : Bool := s.slots.any (fun x => x.id = id && x.alive)

/-- `isEmpty`, signal.hpp 196-201. -/
def isEmpty (s : St) : Bool :=
  match s.mode with
  | .idle => s.slots.isEmpty
  | _ => false

/-- `connect`, `connectSingleShot`, signal.hpp 150-174. -/
def connect (s : St) (single : Bool) : St :=
  { s with nextId := s.nextId + 1, slots := s.slots ++ [⟨s.nextId, single, true⟩],
           log := s.log ++ [.connected s.nextId single] }

/-- `it->disconnect.reset()`, signal.hpp 189. -/
def kill (id : Nat) (l : List Slot) : List Slot :=
  l.map (fun x => if x.id = id then { x with alive := false } else x)

/-- `m_slots.erase(it)`. -/
def erase (id : Nat) (l : List Slot) : List Slot := l.filter (fun x => x.id ≠ id)

/-- `Connection::disconnect`, connection.cpp 31-38, and `Signal::disconnect`, signal.hpp 176-194. -/
def disconnect (s : St) (id : Nat) : St :=
  if !isConnected s id then s
  else match s.mode with
    | .idle => { s with slots := erase id s.slots, log := s.log ++ [.disconnected id] }
    | .handler cur last _ =>
      if id = cur then
        { s with slots := kill id s.slots, mode := .handler cur last true, log := s.log ++ [.disconnected id] }
      else { s with mode := .undefined }
    | .undefined => s

/-- The slot after `id`. -/
def after (id : Nat) : List Slot → Option Nat
  | [] => none
  | x :: xs => if x.id = id then xs.head?.map Slot.id else after id xs

/-- Start of `operator()`, signal.hpp 203-223, up to the first handler. -/
def emit (s : St) : St :=
  match s.mode with
  | .idle =>
    match s.slots.head?, s.slots.getLast? with
    | some f, some l => { s with mode := .handler f.id l.id false, log := s.log ++ [.emit, .called f.id] }
    | _, _ => { s with log := s.log ++ [.emit, .done] }
  | .handler _ _ _ => { s with mode := .undefined }
  | .undefined => s

/-- A handler returns: for a single-shot slot the wrapper disconnects it (signal.hpp 168-171); then the
rest of the loop body and the next call (219-229). -/
def ret (s : St) : St :=
  match s.mode with
  | .handler cur last m =>
    let single := s.slots.any (fun x => x.id = cur && x.single)
    let marked := m || (single && isConnected s cur)
    let nxt := after cur s.slots
    let slots := if marked then erase cur s.slots else s.slots
    if cur = last then
      { s with slots := slots, mode := .idle, log := s.log ++ [.returned cur, .done] }
    else match nxt with
      | some n => { s with slots := slots, mode := .handler n last false, log := s.log ++ [.returned cur, .called n] }
      | none => { s with mode := .undefined }
  | _ => s

/-- A handler throws: only the scope guard runs, signal.hpp 213. -/
def throw (s : St) : St :=
  match s.mode with
  | .handler cur _ _ => { s with mode := .idle, log := s.log ++ [.threw cur] }
  | _ => s

inductive Op where
  | connect (single : Bool)
  | disconnect (id : Nat)
  | emit
  | ret
  | throw
  deriving DecidableEq, Repr

def step (s : St) : Op → St
  | .connect sg => match s.mode with
    | .undefined => s
    | _ => connect s sg
  | .disconnect id => disconnect s id
  | .emit => emit s
  | .ret => ret s
  | .throw => throw s

def run (s : St) (ops : List Op) : St := ops.foldl step s

end Ndn.Signal
