/-
Model of NetworkMonitorStub, ndn-cxx/net/network-monitor-stub.cpp, and of TagHost,
ndn-cxx/detail/tag-host.hpp.
-/
namespace Ndn.Stub

abbrev Bytes := List UInt8

/-! ### NetworkMonitorStub -/

/-- Calls on the monitor. `addInterface` is called with an object, here its number, that has this name at
the time of the call (the name is the key in the map; renaming the object later does not change it).
`emitEnumerationCompleted` has no effect on the interfaces and is left out. -/
inductive Op where
  | add (name : Bytes) (netif : Nat)
  | remove (name : Bytes)
  deriving DecidableEq, Repr

/-- The signals `onInterfaceAdded` and `onInterfaceRemoved`. The argument is the object; its name when it
was added is given too. -/
inductive Ev where
  | added (name : Bytes) (netif : Nat)
  | removed (name : Bytes) (netif : Nat)
  deriving DecidableEq, Repr

/-- `m_interfaces`, network-monitor-stub.cpp 99 (the order of an unordered_map is not specified; here that
of insertion), and the signals each observer has received so far. -/
structure St where
  ifs : List (Bytes × Nat)
  logs : Nat → List Ev

def St.init : St := ⟨[], fun _ => []⟩

/-- `getNetworkInterface`, network-monitor-stub.cpp 51-55. -/
def St.get (s : St) (name : Bytes) : Option Nat := (s.ifs.find? (fun p => p.1 = name)).map (·.2)

/-- `listNetworkInterfaces`, network-monitor-stub.cpp 57-63. -/
def St.list (s : St) : List Nat := s.ifs.map (·.2)

/-- How a call ends: it returns, throws, or violates the assertion of a signal that it is not emitted
from one of its handlers (signal.hpp 207). -/
inductive Out where
  | ok | threw | aborted
  deriving DecidableEq, Repr

/-- A handler is called. -/
def St.deliver (s : St) (j : Nat) (e : Ev) : St :=
  { s with logs := fun i => if i = j then s.logs j ++ [e] else s.logs i }

/-- The calls a handler makes, up to the first exception. -/
def runAll (run : St → Op → Out × St) : List Op → St → Out × St
  | [], s => (.ok, s)
  | op :: ops, s =>
    match run s op with
    | (.ok, s') => runAll run ops s'
    | r => r

/-- `emitSignal`: the handlers in the order in which they were connected, signal.hpp 205-230 (no handler
is connected or disconnected meanwhile, see C36). `react` gives the calls each observer makes. -/
def emit (run : St → Op → Out × St) (react : Nat → Ev → List Op) (e : Ev) : List Nat → St → Out × St
  | [], s => (.ok, s)
  | j :: js, s =>
    match runAll run (react j e) (s.deliver j e) with
    | (.ok, s') => emit run react e js s'
    | r => r

/-- `addInterface`, network-monitor-stub.cpp 68-77, and `removeInterface`, 79-89, with `k` observers
connected to both signals. `a` and `r`: the signal is being emitted. As each signal can be emitted only
once at a time, calls nest at most three deep; the first number is this depth. -/
def exec (k : Nat) (react : Nat → Ev → List Op) : Nat → Bool → Bool → St → Op → Out × St
  | 0, _, _, s, _ => (.aborted, s)
  | d + 1, a, r, s, .add n i =>
    if (s.get n).isSome then (.threw, s)
    else
      let s' := { s with ifs := s.ifs ++ [(n, i)] }
      if a then (.aborted, s')
      else emit (exec k react d true r) react (.added n i) (List.range k) s'
  | d + 1, a, r, s, .remove n =>
    match s.get n with
    | none => (.ok, s)
    | some i =>
      let s' := { s with ifs := s.ifs.filter (fun p => p.1 ≠ n) }
      if r then (.aborted, s')
      else emit (exec k react d a true) react (.removed n i) (List.range k) s'

/-- A call by the program. -/
def call (k : Nat) (react : Nat → Ev → List Op) : St → Op → Out × St := exec k react 3 false false

/-- Calls by the program, which catches exceptions: how each ended, and the state. -/
def calls (k : Nat) (react : Nat → Ev → List Op) : St → List Op → List Out × St
  | s, [] => ([], s)
  | s, op :: ops => ((call k react s op).1 :: (calls k react (call k react s op).2 ops).1,
      (calls k react (call k react s op).2 ops).2)

/-! ### TagHost -/

/-- `m_tags`, tag-host.hpp 68: a `std::map` from type ids to objects (their numbers), ordered by id. -/
abbrev Host := List (Int × Nat)

/-- `getTag`, tag-host.hpp 71-81. -/
def Host.getTag (h : Host) (t : Int) : Option Nat := (h.find? (fun p => p.1 = t)).map (·.2)

/-- Assignment to `m_tags[t]`. -/
def Host.assign (t : Int) (v : Nat) : Host → Host
  | [] => [(t, v)]
  | p :: h => if t < p.1 then (t, v) :: p :: h else if t = p.1 then (t, v) :: h else p :: Host.assign t v h

/-- `setTag`, tag-host.hpp 83-95; `none` is a null pointer. -/
def Host.setTag (h : Host) (t : Int) (v : Option Nat) : Host :=
  match v with
  | none => h.filter (fun p => p.1 ≠ t)
  | some v => h.assign t v

/-- `removeTag`, tag-host.hpp 97-102. -/
def Host.removeTag (h : Host) (t : Int) : Host := h.setTag t none

/-- Calls on one of several hosts: `copy` is the implicit copy constructor or assignment. -/
inductive TOp where
  | set (host : Nat) (t : Int) (v : Option Nat)
  | remove (host : Nat) (t : Int)
  | copy (src dst : Nat)
  deriving DecidableEq, Repr

/-- Packets and their tags. -/
def tagStep (hs : Nat → Host) : TOp → Nat → Host
  | .set x t v => fun y => if y = x then (hs x).setTag t v else hs y
  | .remove x t => fun y => if y = x then (hs x).removeTag t else hs y
  | .copy x z => fun y => if y = z then hs x else hs y

end Ndn.Stub
