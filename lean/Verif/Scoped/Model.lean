/-
Model of the handles that act when they go out of scope: `CancelHandle` and `ScopedCancelHandle` (detail/cancel-handle.hpp and .cpp), and
`Connection` and `ScopedConnection` (util/signal/connection.hpp and .cpp, util/signal/scoped-connection.hpp and .cpp).

Objects are numbered. The function that cancels an operation does not use the handles (those of the library post to the io_context or
change the scheduler only); an operation stands for its function.
-/
namespace Ndn.Scoped

variable {V : Type}

/-- Objects and what they contain. -/
abbrev Objs (V : Type) := List (Nat × Option V)

def find : Objs V → Nat → Option (Option V)
  | [], _ => none
  | (i, v) :: r, j => if i = j then some v else find r j

def put : Objs V → Nat → Option V → Objs V
  | [], _, _ => []
  | (i, v) :: r, j, x => if i = j then (i, x) :: r else (i, v) :: put r j x

def remove : Objs V → Nat → Objs V
  | [], _ => []
  | (i, v) :: r, j => if i = j then r else (i, v) :: remove r j

/-! ### ScopedCancelHandle -/

/-- The objects of type `ScopedCancelHandle`, the plain handles that were released, the operations whose functions were called, the
operations begun. -/
structure St (T : Type) where
  objs : Objs T
  plain : List T
  called : List T
  begun : List T
  deriving DecidableEq, Repr

variable {T : Type}

/-- What a program does. -/
inductive Op (T : Type)
  | begin (i : Nat) (t : T)
  | empty (i : Nat)
  | moveNew (i j : Nat)
  | assign (i j : Nat)
  | cancel (i : Nat)
  | release (i : Nat)
  | cancelPlain (n : Nat)
  | copyPlain (n : Nat)
  | destroy (i : Nat)

/-- `CancelHandle::cancel`, cancel-handle.cpp 26-33, of the handle in object `i`: the function is called if there is one, and forgotten. -/
def cancelIn (s : St T) (i : Nat) : St T :=
  match find s.objs i with
  | some (some t) => { s with called := s.called ++ [t], objs := put s.objs i none }
  | _ => s

/-- `ScopedCancelHandle::release`, hpp 123-129. -/
def release (s : St T) (i : Nat) : Option T × St T :=
  match find s.objs i with
  | some v => (v, { s with objs := put s.objs i none })
  | none => (none, s)

/-- One step; what a program cannot do (use an object that does not exist, make one that does) is left without effect. -/
def step (s : St T) : Op T → St T
  /- an operation is begun and its handle put in a new object, hpp 72-77 -/
  | .begin i t => if find s.objs i = none then { s with objs := (i, some t) :: s.objs, begun := s.begun ++ [t] } else s
  /- hpp 70 -/
  | .empty i => if find s.objs i = none then { s with objs := (i, none) :: s.objs } else s
  /- the move constructor, hpp 83-88 -/
  | .moveNew i j =>
    if find s.objs i = none then
      let r := release s j
      { r.2 with objs := (i, r.1) :: r.2.objs }
    else s
  /- move assignment, hpp 95-103 -/
  | .assign i j =>
    if find s.objs i = none then s
    else
      let s := cancelIn s i
      let r := release s j
      { r.2 with objs := put r.2.objs i r.1 }
  /- `cancel`, hpp 112-118 -/
  | .cancel i =>
    let r := release s i
    match r.1 with
    | some t => { r.2 with called := r.2.called ++ [t] }
    | none => r.2
  | .release i =>
    let r := release s i
    match r.1 with
    | some t => { r.2 with plain := r.2.plain ++ [t] }
    | none => r.2
  /- `CancelHandle::cancel` of a plain handle -/
  | .cancelPlain n =>
    match s.plain[n]? with
    | some t => { s with plain := s.plain.eraseIdx n, called := s.called ++ [t] }
    | none => s
  /- plain handles can be copied -/
  | .copyPlain n =>
    match s.plain[n]? with
    | some t => { s with plain := s.plain ++ [t] }
    | none => s
  /- the destructor, hpp 105-110 -/
  | .destroy i =>
    let s := cancelIn s i
    { s with objs := remove s.objs i }

def init : St T := ⟨[], [], [], []⟩

def run (s : St T) (l : List (Op T)) : St T := l.foldl step s

/-! ### ScopedConnection -/

/-- The connections a signal has, how many were made, the objects of type `ScopedConnection`, the connections released, and those ever put
in an object. A connection
made later has a greater number. -/
structure CSt where
  live : List Nat
  next : Nat
  objs : Objs Nat
  released : List Nat
  given : List Nat
  deriving DecidableEq, Repr

inductive COp
  | connect
  | make (i : Nat) (c : Nat)
  | empty (i : Nat)
  | moveNew (i j : Nat)
  | assign (i : Nat) (c : Nat)
  | assignMove (i j : Nat)
  | disconnect (i : Nat)
  | disconnectPlain (c : Nat)
  | release (i : Nat)
  | destroy (i : Nat)

/-- `Connection::disconnect`, connection.cpp 31-38. -/
def disc (s : CSt) (c : Option Nat) : CSt :=
  match c with
  | some c => { s with live := s.live.filter (· ≠ c) }
  | none => s

/-- `Connection::isConnected`, connection.hpp 55-59. -/
def connected (s : CSt) (c : Option Nat) : Bool := match c with | some c => s.live.contains c | none => false

/-- `operator==` of connections, connection.hpp 79-86; of two that are not both disconnected, those are equal that are the same. -/
def same (s : CSt) (a b : Option Nat) : Bool := (!connected s a && !connected s b) || decide (a = b)

/-- `m_connection` of an object; nothing if there is no such object. -/
def conn (s : CSt) (i : Nat) : Option Nat := (find s.objs i).getD none

def cstep (s : CSt) : COp → CSt
  /- a handler is connected to the signal -/
  | .connect => { s with live := s.live ++ [s.next], next := s.next + 1 }
  /- scoped-connection.cpp 26-29, of a connection that was made -/
  | .make i c => if find s.objs i = none ∧ c < s.next then { s with objs := (i, some c) :: s.objs, given := c :: s.given } else s
  | .empty i => if find s.objs i = none then { s with objs := (i, none) :: s.objs } else s
  /- the move constructor, scoped-connection.hpp 91-92: the other object has no connection any more -/
  | .moveNew i j => if find s.objs i = none then { s with objs := (i, conn s j) :: put s.objs j none } else s
  /- `operator=(Connection)`, scoped-connection.cpp 31-39 -/
  | .assign i c =>
    if find s.objs i = none ∨ s.next ≤ c then s
    else if same s (conn s i) (some c) then s
    else { disc s (conn s i) with objs := put s.objs i (some c), given := c :: s.given }
  /- `operator=(ScopedConnection&&)`, scoped-connection.hpp 94-95: the member is moved -/
  | .assignMove i j =>
    if find s.objs i = none then s
    else { s with objs := if i = j then put s.objs i none else put (put s.objs i (conn s j)) j none }
  /- scoped-connection.cpp 46-50 -/
  | .disconnect i => disc s (conn s i)
  | .disconnectPlain c => disc s (some c)
  /- scoped-connection.cpp 58-62 -/
  | .release i => { s with objs := put s.objs i none, released := (conn s i).toList ++ s.released }
  /- scoped-connection.cpp 41-44 -/
  | .destroy i => { disc s (conn s i) with objs := remove s.objs i }

def cinit : CSt := ⟨[], 0, [], [], []⟩

def crun (s : CSt) (l : List COp) : CSt := l.foldl cstep s

end Ndn.Scoped
