import Verif.Nfd.Datasets
/-
Model of `nfd::Controller`, ndn-cxx/mgmt/nfd/controller.{hpp,cpp}: a step machine. Events are the calls of the application
and what the face, the validator and the segment fetchers report; each event gives a list of observations.

The environment is taken as proved elsewhere: an Interest ends in at most one of Data, Nack and timeout (C47), a
validation has one outcome (C52), a fetcher reports one completion or one error (C39) and nothing after `stop` (C39_stop),
so an event for something that has ended does nothing. Signing, which appends to the Interest's name (C58), and
the texts of the responses the library makes are left out.
-/
namespace Ndn.Nfd
open Tlv Block Name Packet Mgmt

/-- controller.hpp 175-187. -/
def errorLBound : Nat := 400
def errorServer : Nat := 500
def errorTimeout : Nat := 10060
def errorNack : Nat := 10800
def errorValidation : Nat := 10021

/-- What is given to `onFailure` of a command: a response the server sent, or one the library makes, with this code. -/
inductive Failure where
  | server (r : Response)
  | library (code : Nat)
  deriving DecidableEq

/-- What is observed. -/
inductive COut where
  /-- `start` throws. -/
  | refused
  /-- An Interest for the command with this name is expressed. -/
  | asked (i : Nat) (name : List Comp)
  | success (i : Nat) (p : Params)
  | failure (i : Nat) (f : Failure)
  /-- A fetcher is started on this prefix. -/
  | fetching (j : Nat) (name : List Comp)
  | result (j : Nat) (r : Result)
  | failed (j : Nat) (code : Nat)
  /-- An exception leaves the callback into the event loop. -/
  | escaped
  | ub
  deriving DecidableEq

/-- Where a command is. -/
inductive Phase where
  | waiting
  | validating (content : Bytes)
  | over
  deriving DecidableEq

structure Cmd where
  command : Command
  onSuccess : Bool
  onFailure : Bool
  phase : Phase

structure Job where
  dataset : Dataset
  onSuccess : Bool
  onFailure : Bool
  /-- The fetcher has not reported its end and was not stopped. -/
  running : Bool

/-- The members; `fetchers` is `m_fetchers`. -/
structure Ctl where
  alive : Bool := true
  cmds : List Cmd := []
  jobs : List Job := []
  fetchers : List Nat := []

inductive CEv where
  /-- `start<Command>(parameters, onSuccess, onFailure, options)`. -/
  | start (c : Command) (pfx : List Comp) (p : Params) (onSuccess onFailure : Bool)
  | data (i : Nat) (content : Bytes)
  | nack (i : Nat)
  | timeout (i : Nat)
  | valid (i : Nat)
  | invalid (i : Nat)
  /-- `fetch<Dataset>(param, onSuccess, onFailure, options)`. -/
  | fetch (d : Dataset) (pfx : List Comp) (onSuccess onFailure : Bool)
  /-- The fetcher is complete. `destroys`: the application's callback destroys the Controller. -/
  | complete (j : Nat) (payload : Bytes) (destroys : Bool)
  | error (j : Nat) (code : Nat) (destroys : Bool)
  /-- `~Controller`. -/
  | destroy

def failure (c : Cmd) (i : Nat) (f : Failure) : List COut := if c.onFailure then [.failure i f] else []

/-- `Controller::processValidatedCommandResponse`, controller.cpp 88-131. The content of a packet without one is empty;
the body of a response without one is an element of an invalid type. -/
def processResponse (c : Cmd) (i : Nat) (content : Bytes) : List COut :=
  match blockFromValue content with
  | none => failure c i (.library errorServer)
  | some b =>
    match Response.codec.wireDecode ⟨none, {}⟩ b with
    | (.ok, o) =>
      if o.v.code ≥ errorLBound then failure c i (.server o.v)
      else match o.v.body.bind Params.decode with
        | none => failure c i (.library errorServer)
        | some p =>
          match c.command.validateResponse p with
          | .accept => if c.onSuccess then [.success i p] else []
          | .reject => failure c i (.library errorServer)
          | .ub => [.ub]
    | (.threw, _) => failure c i (.library errorServer)
    | (.ub, _) => [.ub]

def setPhase (s : Ctl) (i : Nat) (c : Cmd) (p : Phase) : Ctl := { s with cmds := s.cmds.set i { c with phase := p } }

/-- `Controller::processDatasetFetchError`, controller.cpp 155-181: the codes of `SegmentFetcher::ErrorCode`; others fall
through the `switch`. -/
def fetchError (code : Nat) : Option Nat :=
  match code with
  | 1 => some errorTimeout
  | 2 => some errorServer
  | 3 => some errorValidation
  | 4 => some errorNack
  | 5 => some errorServer
  | _ => none

/-- `~Controller`, controller.cpp 38-43: the fetchers are stopped; pending Interests stay. -/
def Ctl.destroyed (s : Ctl) : Ctl :=
  { s with alive := false, jobs := s.jobs.mapIdx fun j x => if j ∈ s.fetchers then { x with running := false } else x }

/-- After the application's handler: the handler that erases the fetcher, controller.cpp 149-151, which uses the
Controller. -/
def Ctl.eraseFetcher (s : Ctl) (j : Nat) : List COut × Ctl :=
  if s.alive then ([], { s with fetchers := s.fetchers.filter (· ≠ j) }) else ([.ub], s)

def Ctl.step (s : Ctl) : CEv → List COut × Ctl
  | .start c pfx p onS onF =>
    -- controller.hpp 86-101, controller.cpp 45-57
    if !s.alive then ([], s)
    else match c.createRequest pfx p with
      | none => ([.refused], s)
      | some name => ([.asked s.cmds.length name], { s with cmds := s.cmds ++ [⟨c, onS, onF, .waiting⟩] })
  | .data i content =>
    -- controller.cpp 57-59 and 71-78: the lambda holds `this`
    match s.cmds[i]? with
    | some c => if c.phase = .waiting then
        if s.alive then ([], setPhase s i c (.validating content)) else ([.ub], setPhase s i c .over)
      else ([], s)
    | none => ([], s)
  | .nack i =>
    -- controller.cpp 60-64
    match s.cmds[i]? with
    | some c => if c.phase = .waiting then (failure c i (.library errorNack), setPhase s i c .over) else ([], s)
    | none => ([], s)
  | .timeout i =>
    -- controller.cpp 65-68
    match s.cmds[i]? with
    | some c => if c.phase = .waiting then (failure c i (.library errorTimeout), setPhase s i c .over) else ([], s)
    | none => ([], s)
  | .valid i =>
    -- controller.cpp 78-80
    match s.cmds[i]? with
    | some c => match c.phase with
      | .validating content => (processResponse c i content, setPhase s i c .over)
      | _ => ([], s)
    | none => ([], s)
  | .invalid i =>
    -- controller.cpp 81-85
    match s.cmds[i]? with
    | some c => match c.phase with
      | .validating _ => (failure c i (.library errorValidation), setPhase s i c .over)
      | _ => ([], s)
    | none => ([], s)
  | .fetch d pfx onS onF =>
    -- controller.hpp 195-216, controller.cpp 133-151
    if !s.alive then ([], s)
    else ([.fetching s.jobs.length (d.name pfx)],
      { s with jobs := s.jobs ++ [⟨d, onS, onF, true⟩], fetchers := s.jobs.length :: s.fetchers })
  | .complete j payload destroys =>
    -- the handler of controller.hpp 203-215, then that of controller.cpp 150
    match s.jobs[j]? with
    | some x =>
      if !x.running then ([], s)
      else
        let s1 := { s with jobs := s.jobs.set j { x with running := false } }
        match x.dataset.parse payload with
        | .ok r =>
          if x.onSuccess then
            let q := (if destroys then s1.destroyed else s1).eraseFetcher j
            (.result j r :: q.1, q.2)
          else s1.eraseFetcher j
        | .tlvError =>
          if x.onFailure then
            let q := (if destroys then s1.destroyed else s1).eraseFetcher j
            (.failed j errorServer :: q.1, q.2)
          else s1.eraseFetcher j
        | .invalidArgument => ([.escaped], s1)
        | .ub => ([.ub], s1)
    | none => ([], s)
  | .error j code destroys =>
    -- the handler of controller.cpp 143-147, then that of 151
    match s.jobs[j]? with
    | some x =>
      if !x.running then ([], s)
      else
        let s1 := { s with jobs := s.jobs.set j { x with running := false } }
        if x.onFailure then
          match fetchError code with
          | some n =>
            let q := (if destroys then s1.destroyed else s1).eraseFetcher j
            (.failed j n :: q.1, q.2)
          | none => s1.eraseFetcher j
        else s1.eraseFetcher j
    | none => ([], s)
  | .destroy => if s.alive then ([], s.destroyed) else ([], s)

def Ctl.run : List CEv → Ctl → List (List COut) × Ctl
  | [], s => ([], s)
  | e :: es, s =>
    let r := s.step e
    let q := Ctl.run es r.2
    (r.1 :: q.1, q.2)

end Ndn.Nfd
