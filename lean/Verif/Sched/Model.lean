/-
Model of ndn-cxx/util/scheduler.{hpp,cpp}.

The scheduler is a state machine. Everything the environment can do is a step: the application calls
`schedule`, `EventId::cancel`, `cancelAllEvents` (from outside or from inside a callback), time
passes, the timer expires, the io_context runs a completion handler, a callback returns or throws.
A callback is thus any finite sequence of steps between `next` and `ret`/`throw`.

Simplifications: time is an unbounded integer number of nanoseconds (no overflow of `now + after`);
a callback does not run the io_context recursively; destroying a callback object has no side effect;
the Scheduler outlives its EventIds.
-/
namespace Ndn.Sched

/-- `EventInfo`, scheduler.cpp 31-43: identity (order of creation) and expiry. -/
structure Ev where
  id : Nat
  expiry : Int
  deriving DecidableEq, Repr

/-- Where control is: outside `executeEvent`; between two callbacks of `executeEvent`, with its `now`;
inside the callback of an event. -/
inductive Mode where
  | idle
  | loop (start : Int)
  | callback (start : Int) (id : Nat)
  deriving DecidableEq, Repr

/-- What is observable from outside. -/
inductive Obs where
  | scheduled (id : Nat) (expiry : Int)
  | cancelled (id : Nat)
  | cancelledAll
  | ran (id : Nat) (at_ : Int)
  deriving DecidableEq, Repr

/-- The scheduler, the clock and the timer. `timer`: expiry of the outstanding `async_wait`, if any.
`ready`: number of completion handlers queued in the io_context with success; a wait that is no
longer outstanding but not successful (cancelled) completes with an error and has no effect
(scheduler.cpp 129-131), so it is not represented. -/
structure St where
  now : Int
  nextId : Nat
  queue : List Ev
  mode : Mode
  timer : Option Int
  ready : Nat
  log : List Obs
  deriving Repr

def St.init (t : Int) : St := ⟨t, 0, [], .idle, none, 0, []⟩

/-- `m_queue.insert`: `std::multiset` ordered by expiry (scheduler.cpp 63-68); an element is inserted
after the elements with an equal key. -/
def insertQ (e : Ev) : List Ev → List Ev
  | [] => [e]
  | x :: xs => if e.expiry < x.expiry then e :: x :: xs else x :: insertQ e xs

/-- `scheduleNext`, scheduler.cpp 117-124. `expires_at` cancels the outstanding wait. -/
def scheduleNext (s : St) : St :=
  match s.queue with
  | [] => s
  | e :: _ => { s with timer := some e.expiry }

/-- `m_isEventExecuting`. -/
def St.executing (s : St) : Bool :=
  match s.mode with
  | .idle => false
  | _ => true

/-- `schedule`, scheduler.cpp 77-91. -/
def schedule (s : St) (after : Int) : St :=
  let e : Ev := ⟨s.nextId, s.now + after⟩
  let q := insertQ e s.queue
  let s' := { s with nextId := s.nextId + 1, queue := q, log := s.log ++ [.scheduled e.id e.expiry] }
  if !s.executing && q.head? = some e then scheduleNext s' else s'

/-- `EventId::operator bool`, scheduler.cpp 51-55: the event is alive only in the queue (the queue
owns the only long-lived reference; a running event is marked expired). -/
def valid (s : St) (id : Nat) : Bool := s.queue.any (fun e => e.id = id)

/-- `cancelImpl`, scheduler.cpp 93-108. -/
def cancel (s : St) (id : Nat) : St :=
  let s := { s with log := s.log ++ [.cancelled id] }
  if !valid s id then s
  else
    let s1 := if (s.queue.head?.map Ev.id) = some id then { s with timer := none } else s
    let s2 := { s1 with queue := s1.queue.filter (fun e => e.id ≠ id) }
    if !s2.executing then scheduleNext s2 else s2

/-- `cancelAllEvents`, scheduler.cpp 110-115. -/
def cancelAll (s : St) : St :=
  { s with queue := [], timer := none, log := s.log ++ [.cancelledAll] }

/-- The steps. -/
inductive Op where
  | schedule (after : Int)
  | cancel (id : Nat)
  | cancelAll
  | tick (d : Nat)
  | expire
  | run
  | next
  | ret
  | throw
  deriving DecidableEq, Repr

/-- One step; a step that is not possible in a state leaves it unchanged. `expire`: the timer reaches
its expiry. `run`: `executeEvent` is entered (scheduler.cpp 133-140). `next`: one round of its loop
(141-151), or its exit through the scope guard (133-136). `ret`: the callback returns; `throw`: it
throws, `executeEvent` is left through the guard. -/
def step (s : St) : Op → St
  | .schedule after =>
    match s.mode with
    | .loop _ => s
    | _ => schedule s after
  | .cancel id =>
    match s.mode with
    | .loop _ => s
    | _ => cancel s id
  | .cancelAll =>
    match s.mode with
    | .loop _ => s
    | _ => cancelAll s
  | .tick d => { s with now := s.now + d }
  | .expire =>
    match s.timer with
    | some t => if t ≤ s.now then { s with timer := none, ready := s.ready + 1 } else s
    | none => s
  | .run =>
    match s.mode with
    | .idle => if s.ready > 0 then { s with ready := s.ready - 1, mode := .loop s.now } else s
    | _ => s
  | .next =>
    match s.mode with
    | .loop start =>
      match s.queue with
      | [] => scheduleNext { s with mode := .idle }
      | e :: q =>
        if e.expiry > start then scheduleNext { s with mode := .idle }
        else { s with queue := q, mode := .callback start e.id, log := s.log ++ [.ran e.id s.now] }
    | _ => s
  | .ret =>
    match s.mode with
    | .callback start _ => { s with mode := .loop start }
    | _ => s
  | .throw =>
    match s.mode with
    | .callback _ _ => scheduleNext { s with mode := .idle }
    | _ => s

/-- A history. -/
def run (s : St) (ops : List Op) : St := ops.foldl step s

end Ndn.Sched
