import Verif.Name.Model
/-
Model of `mgmt::StatusDatasetContext`, ndn-cxx/mgmt/status-dataset-context.{hpp,cpp}: a handler appends bytes and the
context cuts them into segments. The two callbacks are a log of what they are called with; they are taken not to throw.
The clock that `appendVersion()` reads is an argument of `setPrefix`.
-/
namespace Ndn.Mgmt
open Name

/-- `MAX_PAYLOAD_LENGTH`, status-dataset-context.cpp 26 (`MAX_NDN_PACKET_SIZE` is 8800, encoding/tlv.hpp 41). -/
def maxPayload : Nat := 8000

/-- `StatusDatasetContext::State`, status-dataset-context.hpp 103-107. -/
inductive CtxState where
  | initial | responded | finalized
  deriving DecidableEq, Repr

/-- A call of one of the two callbacks: `m_dataSender(name, content, isFinalBlock)` or `m_nackSender(resp)`. -/
inductive Sent where
  | data (name : List Comp) (content : Bytes) (final : Bool)
  | nack (code : Nat)
  deriving DecidableEq, Repr

/-- The members, status-dataset-context.hpp 95-108; `out` is what the callbacks were called with. -/
structure Ctx where
  interest : List Comp
  pfx : List Comp := []
  buffer : Bytes := []
  segmentNo : Nat := 0
  state : CtxState := .initial
  out : List Sent := []
  deriving DecidableEq, Repr

/-- How a call ends. -/
inductive CtxRes where
  | ok
  | logicError
  | invalidArgument
  | outOfBounds
  deriving DecidableEq, Repr

/-- `Name(m_prefix).appendSegment(i)`, with the encoding convention in force. -/
def segName (s : Settings) (pfx : List Comp) (i : Nat) : List Comp :=
  pfx ++ (Conv.segment.from s i).toList

/-- `StatusDatasetContext::setPrefix`, status-dataset-context.cpp 38-59; `version` is the component `appendVersion()`
makes from the clock. `at(-1)` throws on an empty name. -/
def Ctx.setPrefix (s : Settings) (c : Ctx) (pfx : List Comp) (version : Nat) : CtxRes × Ctx :=
  if c.state ≠ .initial then (.logicError, c)
  else if ¬ c.interest <+: pfx then (.invalidArgument, c)
  else match pfx.getLast? with
    | none => (.outOfBounds, c)
    | some l =>
      if Conv.segment.is s l then (.invalidArgument, c)
      else if Conv.version.is s l then (.ok, { c with pfx := pfx })
      else (.ok, { c with pfx := pfx ++ (Conv.version.from s version).toList })

/-- The constructor, status-dataset-context.cpp 28-36; `none` is an exception. -/
def Ctx.make (s : Settings) (interest : List Comp) (version : Nat) : Option Ctx :=
  match Ctx.setPrefix s { interest := interest } interest version with
  | (.ok, c) => some c
  | _ => none

/-- The test at the head of the loop of `append`, status-dataset-context.cpp 71-75: a full buffer is sent. `m_segmentNo`
is a `uint64_t`. -/
def Ctx.flush (s : Settings) (c : Ctx) : Ctx :=
  if c.buffer.length = maxPayload then
    { c with out := c.out ++ [.data (segName s c.pfx c.segmentNo) c.buffer false],
             segmentNo := (c.segmentNo + 1) % 2 ^ 64, buffer := [] }
  else c

/-- The loop of `append`, status-dataset-context.cpp 70-80. Each round takes at least one byte, so as many rounds as there
are bytes are enough. -/
def Ctx.appendLoop (s : Settings) : Nat → Ctx → Bytes → Ctx
  | 0, c, _ => c
  | fuel + 1, c, bytes =>
    if bytes = [] then c
    else
      let c := c.flush s
      let n := min bytes.length (maxPayload - c.buffer.length)
      Ctx.appendLoop s fuel { c with buffer := c.buffer ++ bytes.take n } (bytes.drop n)

/-- `StatusDatasetContext::append`, status-dataset-context.cpp 61-81. -/
def Ctx.append (s : Settings) (c : Ctx) (bytes : Bytes) : CtxRes × Ctx :=
  if c.state = .finalized then (.logicError, c)
  else (.ok, Ctx.appendLoop s bytes.length { c with state := .responded } bytes)

/-- `StatusDatasetContext::end`, status-dataset-context.cpp 83-95. -/
def Ctx.finish (s : Settings) (c : Ctx) : CtxRes × Ctx :=
  if c.state = .finalized then (.logicError, c)
  else (.ok, { c with state := .finalized, out := c.out ++ [.data (segName s c.pfx c.segmentNo) c.buffer true] })

/-- `StatusDatasetContext::reject`, status-dataset-context.cpp 97-106. -/
def Ctx.reject (c : Ctx) (code : Nat) : CtxRes × Ctx :=
  if c.state ≠ .initial then (.logicError, c)
  else (.ok, { c with state := .finalized, out := c.out ++ [.nack code] })

/-- What a handler may call. -/
inductive CtxOp where
  | setPrefix (pfx : List Comp) (version : Nat)
  | append (bytes : Bytes)
  | finish
  | reject (code : Nat)

def Ctx.step (s : Settings) (c : Ctx) : CtxOp → CtxRes × Ctx
  | .setPrefix p v => c.setPrefix s p v
  | .append b => c.append s b
  | .finish => c.finish s
  | .reject code => c.reject code

/-- A handler's calls; exceptions are caught by it. -/
def Ctx.run (s : Settings) : List CtxOp → Ctx → List CtxRes × Ctx
  | [], c => ([], c)
  | op :: ops, c =>
    let r := c.step s op
    let t := Ctx.run s ops r.2
    (r.1 :: t.1, t.2)

end Ndn.Mgmt
