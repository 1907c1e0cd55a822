import Verif.Mgmt.Command
import Verif.Mgmt.Dataset
/-
Model of `mgmt::Dispatcher`, ndn-cxx/mgmt/dispatcher.{hpp,cpp}: a step machine. Events are calls made by the application,
Interests coming from the face, and calls of the continuations; each event gives a list of observations.

Simplified: signing, the freshness period and the cache policy of the Data are left out, and so is prefix registration.
`m_storage` is the list of all packets ever inserted, and an Interest event says which of them the look-up finds, if any
(C42-C45 are about that look-up). A dataset handler's calls are part of the event that starts it, because its context dies
when the handler returns. Commands whose parameters are in ApplicationParameters (`rib/announce`) are left out. An
old-style validator that refuses leaves the parameters as they were.
-/
namespace Ndn.Mgmt
open Tlv Block Name Packet

/-- `mgmt::ControlResponse`, control-response.hpp 82-86. -/
structure Resp where
  code : Nat
  text : Bytes
  body : Option Raw := none
  deriving DecidableEq, Repr

/-- What is in a packet: an encoded response, or bytes. -/
inductive Content where
  | resp (r : Resp)
  | bytes (b : Bytes)
  deriving DecidableEq, Repr

/-- A Data packet: name, content, whether the content type is Nack, FinalBlockId. -/
structure OutData where
  name : List Comp
  content : Content
  nack : Bool := false
  final : Option Comp := none
  deriving DecidableEq, Repr

/-- The handlers in `m_handlers`: a new-style command (dispatcher.hpp 265-291), an old-style one with its validator, which
may change the parameters (`none`: returns false or throws; dispatcher.hpp 213-237), a dataset (dispatcher.cpp 225-242) and a
notification stream (299-312). -/
inductive Handler where
  | command (c : Command)
  | oldCommand (validate : Params → Option Params)
  | dataset
  | stream

/-- What the `accept` and `reject` continuations hold, dispatcher.cpp 179-185 and 257-262. `params` is the shared object. -/
structure Req where
  top : List Comp
  rel : List Comp
  handler : Handler
  name : List Comp
  params : Option Params

/-- The members, dispatcher.hpp 498-515; `TopPrefixEntry::interestFilters` is the list of handlers captured by the filters.
`reqs` and `runs` are the continuations handed out. -/
structure Disp where
  tops : List (List Comp × List (List Comp × Handler)) := []
  handlers : List (List Comp × Handler) := []
  streams : List (List Comp × Nat) := []
  reqs : List Req := []
  runs : List (List Comp) := []
  stored : List OutData := []

inductive Ev where
  | addTop (p : List Comp)
  | removeTop (p : List Comp)
  | addHandler (rel : List Comp) (h : Handler)
  | interest (name : List Comp) (hit : Option Nat)
  | accept (i : Nat) (calls : List CtxOp) (version : Nat)
  | reject (i : Nat) (status403 : Bool)
  | done (j : Nat) (resp : Resp)
  | post (rel : List Comp) (content : Bytes)

inductive Out where
  | outOfRange
  | domainError
  | threw
  | ub
  | authorize (top name : List Comp) (params : Option Params)
  | handle (top name : List Comp) (params : Params)
  | serve (top name : List Comp)
  | put (d : OutData)
  | store (d : OutData)

/-- `x.isPrefixOf(y) || y.isPrefixOf(x)`, dispatcher.cpp 57-59 and 97-99. -/
def overlaps (x y : List Comp) : Bool := decide (x <+: y) || decide (y <+: x)

/-- `Dispatcher::addTopPrefix`, dispatcher.cpp 53-83. -/
def Disp.addTop (d : Disp) (p : List Comp) : List Out × Disp :=
  if d.tops.any (fun x => overlaps x.1 p) then ([.outOfRange], d)
  else ([], { d with tops := d.tops ++ [(p, d.handlers)] })

/-- `Dispatcher::removeTopPrefix`, dispatcher.cpp 85-89: the filters die with the entry. -/
def Disp.removeTop (d : Disp) (p : List Comp) : List Out × Disp :=
  ([], { d with tops := d.tops.filter (fun x => x.1 ≠ p) })

/-- `m_streams[name] = n`. -/
def setStream (m : List (List Comp × Nat)) (name : List Comp) (n : Nat) : List (List Comp × Nat) :=
  (name, n) :: m.filter (fun x => x.1 ≠ name)

/-- `m_streams[name]`. -/
def getStream (m : List (List Comp × Nat)) (name : List Comp) : Nat :=
  match m.find? (fun x => x.1 = name) with
  | some x => x.2
  | none => 0

/-- `Dispatcher::checkPrefix` (dispatcher.cpp 91-104) and the functions that call it: `addControlCommand` (dispatcher.hpp
213-291), `addStatusDataset` and `addNotificationStream` (dispatcher.cpp 225-242, 299-312). -/
def Disp.addHandler (d : Disp) (rel : List Comp) (h : Handler) : List Out × Disp :=
  if d.tops ≠ [] then ([.domainError], d)
  else if d.handlers.any (fun x => overlaps x.1 rel) then ([.outOfRange], d)
  else
    let d := { d with handlers := d.handlers ++ [(rel, h)] }
    match h with
    | .stream => ([], { d with streams := setStream d.streams rel 0 })
    | _ => ([], d)

/-- Call the authorization function; a new pair of continuations. -/
def Disp.authorize (d : Disp) (r : Req) : List Out × Disp :=
  ([.authorize r.top r.name r.params], { d with reqs := d.reqs ++ [r] })

/-- The last component is a version or segment number, dispatcher.cpp 250-252. -/
def endsInVersionOrSegment (s : Settings) (name : List Comp) : Bool :=
  match name.getLast? with
  | none => false
  | some l => Conv.version.is s l || Conv.segment.is s l

/-- A handler is called by its filter: `processCommand` with the two parsers (dispatcher.cpp 162-186, dispatcher.hpp 223-227
and 272-274), `queryStorage` and `processStatusDatasetInterest` (dispatcher.cpp 114-128, 244-264), and that of a stream
(dispatcher.cpp 306-308). `Name::get` does not check its argument (name.hpp 192-198). -/
def Disp.deliver (s : Settings) (d : Disp) (top rel : List Comp) (h : Handler) (name : List Comp) (hit : Option Nat) :
    List Out × Disp :=
  match h with
  | .command _ =>
    match parseRequest name top.length with
    | none => ([], d)
    | some p => d.authorize ⟨top, rel, h, name, some p⟩
  | .oldCommand _ =>
    match name[top.length + rel.length]? with
    | none => ([.ub], d)
    | some c =>
      match (blockFromValue c.value).bind Params.decode with
      | none => ([], d)
      | some p => d.authorize ⟨top, rel, h, name, some p⟩
  | .dataset =>
    match hit.bind (d.stored[·]?) with
    | some x => ([.put x], d)
    | none =>
      if endsInVersionOrSegment s name then ([], d)
      else d.authorize ⟨top, rel, h, name, none⟩
  | .stream =>
    match hit.bind (d.stored[·]?) with
    | some x => ([.put x], d)
    | none => ([], d)

/-- The face hands an Interest to every filter whose name is a prefix of its name (face-impl.hpp `dispatchInterest`); the
filters are set in `addTopPrefix`, dispatcher.cpp 75-82. -/
def Disp.filtersFor (d : Disp) (name : List Comp) : List (List Comp × List Comp × Handler) :=
  d.tops.flatMap fun t => (t.2.filter fun x => decide (t.1 ++ x.1 <+: name)).map fun x => (t.1, x.1, x.2)

def Disp.deliverAll (s : Settings) (name : List Comp) (hit : Option Nat) :
    List (List Comp × List Comp × Handler) → Disp → List Out × Disp
  | [], d => ([], d)
  | (t, rel, h) :: fs, d =>
    let r := d.deliver s t rel h name hit
    let q := Disp.deliverAll s name hit fs r.2
    (r.1 ++ q.1, q.2)

/-- `Dispatcher::sendControlResponse`, dispatcher.cpp 213-223. -/
def response (name : List Comp) (r : Resp) (isNack : Bool := false) : Out :=
  .put { name := name, content := .resp r, nack := isNack }

/-- dispatcher.cpp 209. -/
def resp400 : Resp := ⟨400, strBytes "failed in validating parameters", none⟩

/-- dispatcher.cpp 110. -/
def resp403 : Resp := ⟨403, strBytes "authorization rejected", none⟩

/-- `Dispatcher::sendStatusDatasetSegment` (dispatcher.cpp 281-297) and the sender of Nacks (274-276). The response given to
`reject` is only its code. -/
def sendOne (s : Settings) (interest : List Comp) : Sent → List Out
  | .nack code => [response interest ⟨code, [], none⟩ true]
  | .data name content final =>
    match name.getLast? with
    | none => [.ub]
    | some l =>
      match Conv.segment.to s l with
      | none => [.threw]
      | some n =>
        let x : OutData := { name := name, content := .bytes content, final := if final then some l else none }
        if n = 0 then [.store x, .put x] else [.store x]

def storesOf : List Out → List OutData
  | [] => []
  | .store x :: os => x :: storesOf os
  | _ :: os => storesOf os

/-- The `accept` continuation: `processAuthorizedCommand` (dispatcher.cpp 188-211, dispatcher.hpp 275-282) and
`processAuthorizedStatusDatasetInterest` (dispatcher.cpp 266-279). -/
def Disp.accept (s : Settings) (d : Disp) (i : Nat) (calls : List CtxOp) (version : Nat) : List Out × Disp :=
  match d.reqs[i]? with
  | none => ([], d)
  | some r =>
    match r.handler, r.params with
    | .command c, some p =>
      if c.validateRequest p = .accept then
        let q := c.applyDefaults p
        ([.handle r.top r.name q], { d with reqs := d.reqs.set i { r with params := some q }, runs := d.runs ++ [r.name] })
      else ([response r.name resp400], d)
    | .oldCommand v, some p =>
      match v p with
      | some q =>
        ([.handle r.top r.name q], { d with reqs := d.reqs.set i { r with params := some q }, runs := d.runs ++ [r.name] })
      | none => ([response r.name resp400], d)
    | .dataset, _ =>
      match Ctx.make s r.name version with
      | none => ([.threw], d)
      | some c =>
        let os := (Ctx.run s calls c).2.out.flatMap (sendOne s r.name)
        (.serve r.top r.name :: os, { d with stored := d.stored ++ storesOf os })
    | _, _ => ([], d)

/-- The `reject` continuation: `afterAuthorizationRejected`, dispatcher.cpp 106-112. -/
def Disp.reject (d : Disp) (i : Nat) (status403 : Bool) : List Out × Disp :=
  match d.reqs[i]? with
  | none => ([], d)
  | some r => if status403 then ([response r.name resp403], d) else ([], d)

/-- The continuation given to a command handler, dispatcher.cpp 204-206. -/
def Disp.done (d : Disp) (j : Nat) (r : Resp) : List Out × Disp :=
  match d.runs[j]? with
  | none => ([], d)
  | some name => ([response name r], d)

/-- `Dispatcher::postNotification`, dispatcher.cpp 314-329, called through the function that `addNotificationStream`
returned. The counter is a `uint64_t`. -/
def Disp.post (s : Settings) (d : Disp) (rel : List Comp) (content : Bytes) : List Out × Disp :=
  match d.tops with
  | [t] =>
    let stream := t.1 ++ rel
    let n := getStream d.streams stream
    let x : OutData := { name := stream ++ (Conv.sequence.from s n).toList, content := .bytes content }
    ([.store x, .put x],
      { d with streams := setStream d.streams stream ((n + 1) % 2 ^ 64), stored := d.stored ++ [x] })
  | _ => ([], d)

def Disp.step (s : Settings) (d : Disp) : Ev → List Out × Disp
  | .addTop p => d.addTop p
  | .removeTop p => d.removeTop p
  | .addHandler rel h => d.addHandler rel h
  | .interest name hit => Disp.deliverAll s name hit (d.filtersFor name) d
  | .accept i calls v => d.accept s i calls v
  | .reject i b => d.reject i b
  | .done j r => d.done j r
  | .post rel b => d.post s rel b

/-- A run: the outputs of each event, and the last state. -/
def Disp.run (s : Settings) : List Ev → Disp → List (List Out) × Disp
  | [], d => ([], d)
  | e :: es, d =>
    let r := d.step s e
    let q := Disp.run s es r.2
    (r.1 :: q.1, q.2)

end Ndn.Mgmt
