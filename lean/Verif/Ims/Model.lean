import Verif.Interest.Model
/-
Model of ndn-cxx/ims/in-memory-storage*.{hpp,cpp}.

Entries are identified by their address (a number); the pool of free entries is a stack of entries
with the handle of their stale timer. The scheduler is a set of pending events (C35 treats it in
detail): an event may run at any moment from its due time on. Sizes are unbounded numbers, so that
`2 * getCapacity()` does not wrap around (the code's own note on overflow).
-/
namespace Ndn.Ims
open Ndn.Tlv Ndn.Name Ndn.Interest

/-- `operator<` of components: type, length, then octets of the (equally long) values. -/
def compLt (a b : Comp) : Bool :=
  a.type < b.type || (a.type = b.type && (a.value.length < b.value.length ||
    (a.value.length = b.value.length && beNat a.value < beNat b.value)))

/-- `operator<` of names (`std::less<Name>`, in-memory-storage.hpp 55); C11 shows that
`Name::compare` computes this order. -/
def nameLt : List Comp → List Comp → Bool
  | [], [] => false
  | [], _ :: _ => true
  | _ :: _, [] => false
  | a :: x, b :: y => compLt a b || (a = b && nameLt x y)

/-- A Data packet, by its name and implicit digest. -/
structure Pkt where
  name : List Comp
  digest : Bytes
  deriving DecidableEq, Repr

/-- `Data::getFullName`. -/
def Pkt.full (p : Pkt) : List Comp := p.name ++ [⟨1, p.digest⟩]

/-- An entry without Data: its address and `m_markStaleEventId`. -/
structure Slot where
  id : Nat
  handle : Option Nat
  deriving DecidableEq, Repr

/-- An entry in use, in-memory-storage-entry.hpp 98-101. -/
structure Entry where
  slot : Slot
  pkt : Pkt
  fresh : Bool
  deriving DecidableEq, Repr

/-- A pending scheduler event `[this] { m_isFresh = false; }` of the entry `target`. -/
structure Event where
  ev : Nat
  due : Nat
  target : Nat
  deriving DecidableEq, Repr

inductive Policy where
  | fifo | lru | lfu | persistent
  deriving DecidableEq, Repr

/-- What an observer sees. `used`: returned by a find; `usedExact`: returned by a find for an Interest
that carries the full name. -/
inductive Obs where
  | inserted (full : List Comp) (staleAt : Option Nat)
  | used (full : List Comp)
  | usedExact (full : List Comp)
  | evicted (full : List Comp)
  | erased (full : List Comp)
  deriving DecidableEq, Repr

structure St where
  policy : Policy
  limit : Nat
  capacity : Nat
  nPackets : Nat
  /-- `m_cache`, in the order of the index by full name. -/
  cache : List Entry
  free : List Slot
  nextSlot : Nat
  /-- `m_cleanupIndex`: entry and frequency, in the order of its eviction index. -/
  cleanup : List (Nat × Nat)
  /-- `m_scheduler != nullptr`. -/
  hasSched : Bool
  events : List Event
  nextEv : Nat
  now : Nat
  log : List Obs
  /-- undefined behaviour has happened. -/
  ub : Bool
  deriving DecidableEq, Repr

/-- `SIZE_MAX`. -/
def sizeMax : Nat := 2 ^ 64 - 1

def minCapacity : Nat := 16

/-- New pool entries `n, n+1, …`. -/
def newSlots (next n : Nat) : List Slot := (List.range n).map fun i => ⟨next + i, none⟩

/-- Constructors and `init`, in-memory-storage.cpp 43-69. -/
def init (policy : Policy) (limit : Nat) (hasSched : Bool) : St :=
  let capacity := if limit ≠ sizeMax ∧ minCapacity > limit then limit else minCapacity
  ⟨policy, limit, capacity, 0, [], newSlots 0 capacity, capacity, [], hasSched, [], 0, 0, [], false⟩

/-- `release` and `freeEntry`, in-memory-storage-entry.cpp 26-31, in-memory-storage.cpp 267-275. -/
def freeEntry (s : St) (e : Entry) : St :=
  { s with
    events := s.events.filter (fun x => some x.ev ≠ e.slot.handle)
    free := ⟨e.slot.id, none⟩ :: s.free
    nPackets := s.nPackets - 1
    cache := s.cache.filter (fun x => x.slot.id ≠ e.slot.id) }

/-- `eraseImpl`, in-memory-storage.cpp 302-310. -/
def eraseImpl (s : St) (full : List Comp) : St :=
  match s.cache.find? (fun e => e.pkt.full = full) with
  | some e => freeEntry s e
  | none => s

/-- `evictItem` of the policies, in-memory-storage-fifo.cpp 43-54, -lru.cpp 44-55, -lfu.cpp 46-57,
-persistent.hpp 50-54: whether something was evicted. -/
def evictItem (s : St) : Bool × St :=
  match s.policy, s.cleanup with
  | .persistent, _ => (false, s)
  | _, [] => (false, s)
  | _, (id, _) :: rest =>
    match s.cache.find? (fun e => e.slot.id = id) with
    | none => (true, { s with ub := true })
    | some e => (true, { eraseImpl s e.pkt.full with cleanup := rest, log := s.log ++ [.evicted e.pkt.full] })

/-- The eviction loop of `setCapacity`, in-memory-storage.cpp 93-100; `true`: `Error` is thrown
(a policy that fails to evict fails every time, so the allowed failures are not counted). -/
def evictLoop (cap : Nat) : Nat → St → Bool × St
  | 0, s => (decide (s.nPackets > cap), s)
  | fuel + 1, s =>
    if s.nPackets > cap then
      let r := evictItem s
      if r.1 then evictLoop cap fuel r.2 else (true, r.2)
    else (false, s)

/-- `setCapacity`, in-memory-storage.cpp 87-115. -/
def setCapacity (s : St) (c : Nat) : St :=
  let old := s.capacity
  let cap := max c minCapacity
  let r := evictLoop cap s.nPackets { s with capacity := cap }
  let s := r.2
  if r.1 then s
  else if cap ≥ old then
    { s with free := newSlots s.nextSlot (cap - old) ++ s.free, nextSlot := s.nextSlot + (cap - old) }
  else
    { s with free := s.free.drop (old - cap), ub := s.ub || decide (s.free.length < old - cap) }

/-- Insertion in an ordered non-unique index: after the elements with the same key. -/
def insertFreq (x : Nat × Nat) : List (Nat × Nat) → List (Nat × Nat)
  | [] => [x]
  | y :: ys => if x.2 < y.2 then x :: y :: ys else y :: insertFreq x ys

/-- `modify(it, &incrementFrequency)`: the element stays if the order allows, otherwise it is
inserted again; `none`: there is no such element. -/
def bump (id : Nat) : List (Nat × Nat) → Option (List (Nat × Nat))
  | [] => none
  | (i, f) :: rest =>
    if i = id then
      match rest with
      | [] => some [(i, f + 1)]
      | y :: ys => if y.2 < f + 1 then some (insertFreq (i, f + 1) (y :: ys)) else some ((i, f + 1) :: y :: ys)
    else (bump id rest).map ((i, f) :: ·)

/-- `afterInsert`, in-memory-storage-fifo.cpp 36-41, -lru.cpp 36-42, -lfu.cpp 36-44. -/
def afterInsert (s : St) (id : Nat) : St :=
  match s.policy with
  | .fifo | .lru => { s with cleanup := s.cleanup ++ [(id, 0)] }
  | .lfu => { s with cleanup := insertFreq (id, 0) s.cleanup }
  | .persistent => s

/-- `beforeErase`, in-memory-storage-fifo.cpp 56-62 (the same in the other policies). -/
def beforeErase (s : St) (id : Nat) : St := { s with cleanup := s.cleanup.filter (fun x => x.1 ≠ id) }

/-- `afterAccess`, in-memory-storage-lru.cpp 65-70, -lfu.cpp 67-72. -/
def afterAccess (s : St) (id : Nat) : St :=
  match s.policy with
  | .lru => afterInsert (beforeErase s id) id
  | .lfu =>
    match bump id s.cleanup with
    | some l => { s with cleanup := l }
    | none => { s with ub := true }
  | _ => s

/-- Insertion in the index by full name. -/
def insertSorted (e : Entry) : List Entry → List Entry
  | [] => [e]
  | x :: xs => if nameLt e.pkt.full x.pkt.full then e :: x :: xs else x :: insertSorted e xs

/-- `isFull`, in-memory-storage.hpp 268-272. -/
def isFull (s : St) : Bool := s.nPackets ≥ s.capacity

/-- The part of `insert` that makes room, in-memory-storage.cpp 124-136. -/
def makeRoom (s : St) : St :=
  let doesReachLimit := s.limit = s.capacity
  let s := if isFull s ∧ ¬ doesReachLimit then setCapacity s (min (2 * s.capacity) s.limit) else s
  if isFull s ∧ doesReachLimit then (evictItem s).2 else s

/-- The part of `insert` that stores the packet, in-memory-storage.cpp 138-151. -/
def store (s : St) (p : Pkt) (window : Int) : St :=
  match s.free with
  | [] => { s with ub := true }
  | slot :: rest =>
    let timed : Bool := s.hasSched && decide (window ≥ 0)
    let due := s.now + window.toNat
    let s := { s with free := rest, nPackets := s.nPackets + 1 }
    let s :=
      if timed then
        { s with events := s.events.filter (fun x => some x.ev ≠ slot.handle) ++ [⟨s.nextEv, due, slot.id⟩]
                 nextEv := s.nextEv + 1
                 cache := insertSorted ⟨⟨slot.id, some s.nextEv⟩, p, true⟩ s.cache }
      else { s with cache := insertSorted ⟨slot, p, true⟩ s.cache }
    let s := afterInsert s slot.id
    { s with log := s.log ++ [.inserted p.full (if timed then some due else none)] }

/-- `insert`, in-memory-storage.cpp 117-152. -/
def insert (s : St) (p : Pkt) (window : Int) : St :=
  if s.cache.any (fun e => e.pkt.full = p.full) then s
  else store (makeRoom s) p window

/-- `lower_bound` in the index by full name. -/
def lowerBound (s : St) (n : List Comp) : List Entry := s.cache.dropWhile (fun e => nameLt e.pkt.full n)

/-- `find(const Name&)`, in-memory-storage.cpp 154-171. -/
def findName (s : St) (n : List Comp) : St × Option Pkt :=
  match lowerBound s n with
  | [] => (s, none)
  | e :: _ =>
    if n.isPrefixOf e.pkt.full then
      let s := afterAccess s e.slot.id
      ({ s with log := s.log ++ [.used e.pkt.full] }, some e.pkt)
    else (s, none)

def matchesEntry (f : IFields) (e : Entry) : Bool := matchesData f e.pkt.name (some e.pkt.full) = some true

/-- The loop of `selectChild`, in-memory-storage.cpp 240-262, with `findNextFresh` (207-216). -/
def scan (f : IFields) : List Entry → Option Entry
  | [] => none
  | e :: t =>
    if f.mustBeFresh && !e.fresh then scan f t
    else if f.name.isPrefixOf e.pkt.full then
      if matchesEntry f e then some e else scan f t
    else none

/-- `selectChild` from a starting point, in-memory-storage.cpp 218-265. -/
def selectChild (f : IFields) (l : List Entry) : Option Entry :=
  match (if f.mustBeFresh then l.dropWhile (fun e => !e.fresh) else l) with
  | [] => none
  | e :: t => if matchesEntry f e then some e else scan f t

/-- One step back from the lower bound, unless it is the beginning, in-memory-storage.cpp 192-195. -/
def startFrom (before lb : List Entry) : List Entry :=
  match before.getLast? with
  | some p => p :: lb
  | none => lb

/-- `find(const Interest&)`, in-memory-storage.cpp 173-205. -/
def findInterest (s : St) (f : IFields) : St × Option Pkt :=
  match s.cache.find? (fun e => e.pkt.full = f.name) with
  | some e => ({ s with log := s.log ++ [.usedExact e.pkt.full] }, some e.pkt)
  | none =>
    match lowerBound s f.name with
    | [] => (s, none)
    | lb =>
      match selectChild f (startFrom (s.cache.takeWhile (fun e => nameLt e.pkt.full f.name)) lb) with
      | none => (s, none)
      | some e =>
        let s := afterAccess s e.slot.id
        ({ s with log := s.log ++ [.used e.pkt.full] }, some e.pkt)

/-- One round of the loop of `erase`: `beforeErase` and `freeEntry`. -/
def eraseEntry (s : St) (e : Entry) : St :=
  let s := freeEntry (beforeErase s e.slot.id) e
  { s with log := s.log ++ [.erased e.pkt.full] }

/-- The end of `erase`, in-memory-storage.cpp 298-299. -/
def shrink (s : St) : St := if s.free.length > 2 * s.nPackets then setCapacity s (s.capacity / 2) else s

/-- `erase`, in-memory-storage.cpp 277-300. -/
def erase (s : St) (n : List Comp) (isPrefix : Bool) : St :=
  if isPrefix then
    shrink (((lowerBound s n).takeWhile (fun e => n.isPrefixOf e.pkt.name)).foldl eraseEntry s)
  else
    match s.cache.find? (fun e => e.pkt.full = n) with
    | none => s
    | some e => shrink (eraseEntry s e)

/-- An event runs: the entry is marked stale (in-memory-storage-entry.cpp 33-37). An event that is not
due cannot run. -/
def fire (s : St) (ev : Nat) : St :=
  match s.events.find? (fun x => x.ev = ev) with
  | none => s
  | some x =>
    if x.due ≤ s.now then
      { s with events := s.events.filter (fun y => y.ev ≠ ev)
               cache := s.cache.map (fun e => if e.slot.id = x.target then { e with fresh := false } else e) }
    else s

/-- Iteration, `begin` (in-memory-storage.cpp 312-317) to `end`: the packets visited; `none`: `begin`
dereferences the end iterator. -/
def iterate (s : St) : Option (List Pkt) :=
  if s.cache = [] then none else some (s.cache.map Entry.pkt)

inductive Op where
  | insert (p : Pkt) (window : Int)
  | findName (n : List Comp)
  | findInterest (f : IFields)
  | erase (n : List Comp) (isPrefix : Bool)
  | advance (dt : Nat)
  | fire (ev : Nat)

def step (s : St) : Op → St
  | .insert p w => insert s p w
  | .findName n => (findName s n).1
  | .findInterest f => (findInterest s f).1
  | .erase n b => erase s n b
  | .advance dt => { s with now := s.now + dt }
  | .fire ev => fire s ev

def run (s : St) (ops : List Op) : St := ops.foldl step s

end Ndn.Ims
