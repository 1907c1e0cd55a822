import Verif.Nfd.Codec
/-
The structures of ndn-cxx/mgmt/nfd and `mgmt::ControlResponse`. Numbers of 64 bits and enumerations are `Nat`, durations
and points in time are signed 64-bit counts, `std::string` is a byte string.
The effect of each setter on the members is `apply`; all of them reset `m_wire`.
-/
namespace Ndn.Nfd
open Tlv Block Name Packet Mgmt

/-! ### ControlResponse, mgmt/control-response.{hpp,cpp} -/

/-- control-response.hpp 82-84. `body` is `m_body` when it has an encoding. -/
structure Response where
  code : Nat := 200
  text : Bytes := []
  body : Option Raw := none
  deriving DecidableEq, Repr

inductive Response.Set where
  | code (n : Nat) | text (s : Bytes) | body (b : Raw)

/-- control-response.cpp 41-64. The block given to `setBody` has its encoding. -/
def Response.apply : Response.Set → Response → Response
  | .code n, r => { r with code := n }
  | .text s, r => { r with text := s }
  | .body b, r => { r with body := some b }

/-- control-response.cpp 73-78. -/
def Response.value (r : Response) : Bytes :=
  nniTlv 102 r.code ++ tlvBytes 103 r.text ++ optElem r.body Raw.wire

/-- control-response.cpp 96-114. -/
def Response.fill (r : Response) (es : List Raw) : Out × Response :=
  match es with
  | [] => (.threw, r)
  | e1 :: es1 =>
    if e1.type = 102 then
      match numAs (2 ^ 32 - 1) e1 with
      | .ok n =>
        match es1 with
        | [] => (.threw, { r with code := n })
        | e2 :: es2 =>
          if e2.type = 103 then (.ok, { r with code := n, text := e2.value, body := es2.head?.orElse fun _ => r.body })
          else (.threw, { r with code := n })
      | _ => (.threw, r)
    else (.threw, r)

/-- control-response.cpp 66-115; line 91 resets every member. -/
def Response.codec : Codec Response where
  type := 101
  value := Response.value
  start := fun _ => {}
  fill := Response.fill

/-! ### ChannelStatus, channel-status.{hpp,cpp} -/

structure Channel where
  localUri : Bytes := []
  deriving DecidableEq, Repr

inductive Channel.Set where
  | localUri (s : Bytes)

/-- channel-status.cpp 84-90. -/
def Channel.apply : Channel.Set → Channel → Channel
  | .localUri x, s => { s with localUri := x }

/-- channel-status.cpp 37-44. -/
def Channel.value (s : Channel) : Bytes := tlvBytes 129 s.localUri

/-- channel-status.cpp 74-81. -/
def Channel.steps : List (Step Channel) :=
  [.req 129 fun s e => (text e).map fun x => { s with localUri := x }]

def Channel.codec : Codec Channel where
  type := 130
  value := Channel.value
  fill := runSteps Channel.steps

/-! ### CsInfo, cs-info.{hpp,cpp} -/

/-- cs-info.hpp 127-133; the two bits of `m_flags` are `admit` and `serve`. -/
structure CsInfo where
  capacity : Nat := 0
  admit : Bool := false
  serve : Bool := false
  nEntries : Nat := 0
  nHits : Nat := 0
  nMisses : Nat := 0
  deriving DecidableEq, Repr

inductive CsInfo.Set where
  | capacity (n : Nat) | enableAdmit (b : Bool) | enableServe (b : Bool) | nEntries (n : Nat) | nHits (n : Nat)
  | nMisses (n : Nat)

/-- cs-info.cpp 122-168. -/
def CsInfo.apply : CsInfo.Set → CsInfo → CsInfo
  | .capacity x, s => { s with capacity := x }
  | .enableAdmit x, s => { s with admit := x }
  | .enableServe x, s => { s with serve := x }
  | .nEntries x, s => { s with nEntries := x }
  | .nHits x, s => { s with nHits := x }
  | .nMisses x, s => { s with nMisses := x }

/-- `m_flags.to_ullong()`. -/
def CsInfo.flags (s : CsInfo) : Nat := (if s.admit then 1 else 0) + (if s.serve then 2 else 0)

/-- cs-info.cpp 40-46. -/
def CsInfo.value (s : CsInfo) : Bytes :=
  nniTlv 131 s.capacity ++ nniTlv 108 s.flags ++ nniTlv 135 s.nEntries ++ nniTlv 129 s.nHits ++ nniTlv 130 s.nMisses

/-- `FlagsBitSet(readNonNegativeInteger(e))`, cs-info.cpp 89: a set of two bits, the lowest ones of the number. -/
def csFlags (e : Raw) : Rd (Bool × Bool) := (num e).map fun x => (x.testBit 0, x.testBit 1)

/-- cs-info.cpp 80-118. -/
def CsInfo.steps : List (Step CsInfo) :=
  [.req 131 fun s e => (num e).map fun x => { s with capacity := x },
   .req 108 fun s e => (csFlags e).map fun x => { s with admit := x.1, serve := x.2 },
   .req 135 fun s e => (num e).map fun x => { s with nEntries := x },
   .req 129 fun s e => (num e).map fun x => { s with nHits := x },
   .req 130 fun s e => (num e).map fun x => { s with nMisses := x }]

def CsInfo.codec : Codec CsInfo where
  type := 128
  value := CsInfo.value
  fill := runSteps CsInfo.steps

/-! ### FaceEventNotification, face-event-notification.{hpp,cpp}, face-traits.hpp -/

/-- face-event-notification.hpp 69, face-traits.hpp 175-181. `INVALID_FACE_ID` is 0, encoding/nfd-constants.hpp 31. -/
structure FaceEvent where
  kind : Nat := 0
  faceId : Nat := 0
  remoteUri : Bytes := []
  localUri : Bytes := []
  scope : Nat := 0
  persistency : Nat := 0
  linkType : Nat := 0
  flags : Nat := 0
  deriving DecidableEq, Repr

inductive FaceEvent.Set where
  | kind (n : Nat) | faceId (n : Nat) | remoteUri (s : Bytes) | localUri (s : Bytes) | scope (n : Nat)
  | persistency (n : Nat) | linkType (n : Nat) | flags (n : Nat)

/-- face-event-notification.cpp 151-157, face-traits.hpp 51-141. -/
def FaceEvent.apply : FaceEvent.Set → FaceEvent → FaceEvent
  | .kind x, s => { s with kind := x }
  | .faceId x, s => { s with faceId := x }
  | .remoteUri x, s => { s with remoteUri := x }
  | .localUri x, s => { s with localUri := x }
  | .scope x, s => { s with scope := x }
  | .persistency x, s => { s with persistency := x }
  | .linkType x, s => { s with linkType := x }
  | .flags x, s => { s with flags := x }

/-- face-event-notification.cpp 41-50. -/
def FaceEvent.value (s : FaceEvent) : Bytes :=
  nniTlv 193 s.kind ++ nniTlv 105 s.faceId ++ tlvBytes 114 s.remoteUri ++ tlvBytes 129 s.localUri ++
  nniTlv 132 s.scope ++ nniTlv 133 s.persistency ++ nniTlv 134 s.linkType ++ nniTlv 108 s.flags

/-- face-event-notification.cpp 86-148. The enumerations have 8 bits. -/
def FaceEvent.steps : List (Step FaceEvent) :=
  [.req 193 fun s e => (numAs 255 e).map fun x => { s with kind := x },
   .req 105 fun s e => (num e).map fun x => { s with faceId := x },
   .req 114 fun s e => (text e).map fun x => { s with remoteUri := x },
   .req 129 fun s e => (text e).map fun x => { s with localUri := x },
   .req 132 fun s e => (numAs 255 e).map fun x => { s with scope := x },
   .req 133 fun s e => (numAs 255 e).map fun x => { s with persistency := x },
   .req 134 fun s e => (numAs 255 e).map fun x => { s with linkType := x },
   .req 108 fun s e => (num e).map fun x => { s with flags := x }]

def FaceEvent.codec : Codec FaceEvent where
  type := 192
  value := FaceEvent.value
  fill := runSteps FaceEvent.steps

/-! ### FaceStatus, face-status.{hpp,cpp}, face-traits.hpp -/

/-- face-status.hpp 223-234, face-traits.hpp 175-181. -/
structure FaceStatus where
  faceId : Nat := 0
  remoteUri : Bytes := []
  localUri : Bytes := []
  expiration : Option Int := none
  scope : Nat := 0
  persistency : Nat := 0
  linkType : Nat := 0
  interval : Option Int := none
  threshold : Option Nat := none
  mtu : Option Nat := none
  nInInterests : Nat := 0
  nInData : Nat := 0
  nInNacks : Nat := 0
  nOutInterests : Nat := 0
  nOutData : Nat := 0
  nOutNacks : Nat := 0
  nInBytes : Nat := 0
  nOutBytes : Nat := 0
  flags : Nat := 0
  deriving DecidableEq, Repr

inductive FaceStatus.Set where
  | faceId (n : Nat) | remoteUri (s : Bytes) | localUri (s : Bytes) | expiration (d : Int) | unsetExpiration
  | scope (n : Nat) | persistency (n : Nat) | linkType (n : Nat) | interval (d : Int) | unsetInterval
  | threshold (n : Nat) | unsetThreshold | mtu (n : Nat) | unsetMtu | nInInterests (n : Nat) | nInData (n : Nat)
  | nInNacks (n : Nat) | nOutInterests (n : Nat) | nOutData (n : Nat) | nOutNacks (n : Nat) | nInBytes (n : Nat)
  | nOutBytes (n : Nat) | flags (n : Nat)

/-- face-status.cpp 261-387, face-traits.hpp 51-141. -/
def FaceStatus.apply : FaceStatus.Set → FaceStatus → FaceStatus
  | .faceId x, s => { s with faceId := x }
  | .remoteUri x, s => { s with remoteUri := x }
  | .localUri x, s => { s with localUri := x }
  | .expiration x, s => { s with expiration := some x }
  | .unsetExpiration, s => { s with expiration := none }
  | .scope x, s => { s with scope := x }
  | .persistency x, s => { s with persistency := x }
  | .linkType x, s => { s with linkType := x }
  | .interval x, s => { s with interval := some x }
  | .unsetInterval, s => { s with interval := none }
  | .threshold x, s => { s with threshold := some x }
  | .unsetThreshold, s => { s with threshold := none }
  | .mtu x, s => { s with mtu := some x }
  | .unsetMtu, s => { s with mtu := none }
  | .nInInterests x, s => { s with nInInterests := x }
  | .nInData x, s => { s with nInData := x }
  | .nInNacks x, s => { s with nInNacks := x }
  | .nOutInterests x, s => { s with nOutInterests := x }
  | .nOutData x, s => { s with nOutData := x }
  | .nOutNacks x, s => { s with nOutNacks := x }
  | .nInBytes x, s => { s with nInBytes := x }
  | .nOutBytes x, s => { s with nOutBytes := x }
  | .flags x, s => { s with flags := x }

/-- face-status.cpp 41-72. -/
def FaceStatus.value (s : FaceStatus) : Bytes :=
  nniTlv 105 s.faceId ++ tlvBytes 114 s.remoteUri ++ tlvBytes 129 s.localUri ++
  optElem s.expiration (fun d => nniTlv 109 (toU64 d)) ++
  nniTlv 132 s.scope ++ nniTlv 133 s.persistency ++ nniTlv 134 s.linkType ++
  optElem s.interval (fun d => nniTlv 135 (toU64 d)) ++ optElem s.threshold (nniTlv 136) ++ optElem s.mtu (nniTlv 137) ++
  nniTlv 144 s.nInInterests ++ nniTlv 145 s.nInData ++ nniTlv 151 s.nInNacks ++
  nniTlv 146 s.nOutInterests ++ nniTlv 147 s.nOutData ++ nniTlv 152 s.nOutNacks ++
  nniTlv 148 s.nInBytes ++ nniTlv 149 s.nOutBytes ++ nniTlv 108 s.flags

/-- face-status.cpp 108-258. -/
def FaceStatus.steps : List (Step FaceStatus) :=
  [.req 105 fun s e => (num e).map fun x => { s with faceId := x },
   .req 114 fun s e => (text e).map fun x => { s with remoteUri := x },
   .req 129 fun s e => (text e).map fun x => { s with localUri := x },
   .opt 109 (fun s e => (signed e).map fun x => { s with expiration := some x }) (fun s => { s with expiration := none }),
   .req 132 fun s e => (numAs 255 e).map fun x => { s with scope := x },
   .req 133 fun s e => (numAs 255 e).map fun x => { s with persistency := x },
   .req 134 fun s e => (numAs 255 e).map fun x => { s with linkType := x },
   .opt 135 (fun s e => (signed e).map fun x => { s with interval := some x }) (fun s => { s with interval := none }),
   .opt 136 (fun s e => (num e).map fun x => { s with threshold := some x }) (fun s => { s with threshold := none }),
   .opt 137 (fun s e => (num e).map fun x => { s with mtu := some x }) (fun s => { s with mtu := none }),
   .req 144 fun s e => (num e).map fun x => { s with nInInterests := x },
   .req 145 fun s e => (num e).map fun x => { s with nInData := x },
   .req 151 fun s e => (num e).map fun x => { s with nInNacks := x },
   .req 146 fun s e => (num e).map fun x => { s with nOutInterests := x },
   .req 147 fun s e => (num e).map fun x => { s with nOutData := x },
   .req 152 fun s e => (num e).map fun x => { s with nOutNacks := x },
   .req 148 fun s e => (num e).map fun x => { s with nInBytes := x },
   .req 149 fun s e => (num e).map fun x => { s with nOutBytes := x },
   .req 108 fun s e => (num e).map fun x => { s with flags := x }]

def FaceStatus.codec : Codec FaceStatus where
  type := 128
  value := FaceStatus.value
  fill := runSteps FaceStatus.steps

/-! ### ForwarderStatus, forwarder-status.{hpp,cpp} -/

/-- forwarder-status.hpp 217-232. A time point is a count of nanoseconds since 1970. -/
structure Forwarder where
  version : Bytes := []
  start : Int := 0
  current : Int := 0
  nNameTree : Nat := 0
  nFib : Nat := 0
  nPit : Nat := 0
  nMeasurements : Nat := 0
  nCs : Nat := 0
  nInInterests : Nat := 0
  nInData : Nat := 0
  nInNacks : Nat := 0
  nOutInterests : Nat := 0
  nOutData : Nat := 0
  nOutNacks : Nat := 0
  nSatisfied : Nat := 0
  nUnsatisfied : Nat := 0
  deriving DecidableEq, Repr

inductive Forwarder.Set where
  | version (s : Bytes) | start (t : Int) | current (t : Int) | nNameTree (n : Nat) | nFib (n : Nat) | nPit (n : Nat)
  | nMeasurements (n : Nat) | nCs (n : Nat) | nInInterests (n : Nat) | nInData (n : Nat) | nInNacks (n : Nat)
  | nOutInterests (n : Nat) | nOutData (n : Nat) | nOutNacks (n : Nat) | nSatisfied (n : Nat) | nUnsatisfied (n : Nat)

/-- forwarder-status.cpp 224-350. -/
def Forwarder.apply : Forwarder.Set → Forwarder → Forwarder
  | .version x, s => { s with version := x }
  | .start x, s => { s with start := x }
  | .current x, s => { s with current := x }
  | .nNameTree x, s => { s with nNameTree := x }
  | .nFib x, s => { s with nFib := x }
  | .nPit x, s => { s with nPit := x }
  | .nMeasurements x, s => { s with nMeasurements := x }
  | .nCs x, s => { s with nCs := x }
  | .nInInterests x, s => { s with nInInterests := x }
  | .nInData x, s => { s with nInData := x }
  | .nInNacks x, s => { s with nInNacks := x }
  | .nOutInterests x, s => { s with nOutInterests := x }
  | .nOutData x, s => { s with nOutData := x }
  | .nOutNacks x, s => { s with nOutNacks := x }
  | .nSatisfied x, s => { s with nSatisfied := x }
  | .nUnsatisfied x, s => { s with nUnsatisfied := x }

/-- `time::toUnixTimestamp(t).count()`, util/time.hpp 263-268: whole milliseconds, towards zero. -/
def toMs (t : Int) : Int := t.tdiv 1000000

/-- `time::fromUnixTimestamp(time::milliseconds(readNonNegativeInteger(e)))`, util/time.hpp 273-277: the milliseconds are
multiplied by a million, which is undefined when it does not fit. -/
def timestamp (e : Raw) : Rd Int :=
  match readNniValue e.value with
  | none => .bad
  | some n =>
    if -2 ^ 63 ≤ toI64 n * 1000000 ∧ toI64 n * 1000000 < 2 ^ 63 then .ok (toI64 n * 1000000) else .ub

/-- forwarder-status.cpp 40-59. -/
def Forwarder.value (s : Forwarder) : Bytes :=
  tlvBytes 128 s.version ++ nniTlv 129 (toU64 (toMs s.start)) ++ nniTlv 130 (toU64 (toMs s.current)) ++
  nniTlv 131 s.nNameTree ++ nniTlv 132 s.nFib ++ nniTlv 133 s.nPit ++ nniTlv 134 s.nMeasurements ++ nniTlv 135 s.nCs ++
  nniTlv 144 s.nInInterests ++ nniTlv 145 s.nInData ++ nniTlv 151 s.nInNacks ++
  nniTlv 146 s.nOutInterests ++ nniTlv 147 s.nOutData ++ nniTlv 152 s.nOutNacks ++
  nniTlv 153 s.nSatisfied ++ nniTlv 154 s.nUnsatisfied

/-- forwarder-status.cpp 95-221. -/
def Forwarder.steps : List (Step Forwarder) :=
  [.req 128 fun s e => (text e).map fun x => { s with version := x },
   .req 129 fun s e => (timestamp e).map fun x => { s with start := x },
   .req 130 fun s e => (timestamp e).map fun x => { s with current := x },
   .req 131 fun s e => (num e).map fun x => { s with nNameTree := x },
   .req 132 fun s e => (num e).map fun x => { s with nFib := x },
   .req 133 fun s e => (num e).map fun x => { s with nPit := x },
   .req 134 fun s e => (num e).map fun x => { s with nMeasurements := x },
   .req 135 fun s e => (num e).map fun x => { s with nCs := x },
   .req 144 fun s e => (num e).map fun x => { s with nInInterests := x },
   .req 145 fun s e => (num e).map fun x => { s with nInData := x },
   .req 151 fun s e => (num e).map fun x => { s with nInNacks := x },
   .req 146 fun s e => (num e).map fun x => { s with nOutInterests := x },
   .req 147 fun s e => (num e).map fun x => { s with nOutData := x },
   .req 152 fun s e => (num e).map fun x => { s with nOutNacks := x },
   .req 153 fun s e => (num e).map fun x => { s with nSatisfied := x },
   .req 154 fun s e => (num e).map fun x => { s with nUnsatisfied := x }]

def Forwarder.codec : Codec Forwarder where
  type := 21
  value := Forwarder.value
  fill := runSteps Forwarder.steps

/-! ### FaceQueryFilter, face-query-filter.{hpp,cpp} -/

/-- face-query-filter.hpp 207-213; an empty string means the restriction is not there (93-96, 112-115, 131-134). -/
structure Filter where
  faceId : Option Nat := none
  uriScheme : Bytes := []
  remoteUri : Bytes := []
  localUri : Bytes := []
  scope : Option Nat := none
  persistency : Option Nat := none
  linkType : Option Nat := none
  deriving DecidableEq, Repr

inductive Filter.Set where
  | faceId (n : Nat) | unsetFaceId | uriScheme (s : Bytes) | unsetUriScheme | remoteUri (s : Bytes) | unsetRemoteUri
  | localUri (s : Bytes) | unsetLocalUri | scope (n : Nat) | unsetScope | persistency (n : Nat) | unsetPersistency
  | linkType (n : Nat) | unsetLinkType

/-- face-query-filter.cpp 178-282. -/
def Filter.apply : Filter.Set → Filter → Filter
  | .faceId x, s => { s with faceId := some x }
  | .unsetFaceId, s => { s with faceId := none }
  | .uriScheme x, s => { s with uriScheme := x }
  | .unsetUriScheme, s => { s with uriScheme := [] }
  | .remoteUri x, s => { s with remoteUri := x }
  | .unsetRemoteUri, s => { s with remoteUri := [] }
  | .localUri x, s => { s with localUri := x }
  | .unsetLocalUri, s => { s with localUri := [] }
  | .scope x, s => { s with scope := some x }
  | .unsetScope, s => { s with scope := none }
  | .persistency x, s => { s with persistency := some x }
  | .unsetPersistency, s => { s with persistency := none }
  | .linkType x, s => { s with linkType := some x }
  | .unsetLinkType, s => { s with linkType := none }

/-- `if (hasX()) prependStringBlock(...)`. -/
def textElem (t : Nat) (s : Bytes) : Bytes := if s = [] then [] else tlvBytes t s

/-- face-query-filter.cpp 39-73. -/
def Filter.value (s : Filter) : Bytes :=
  optElem s.faceId (nniTlv 105) ++ textElem 131 s.uriScheme ++ textElem 114 s.remoteUri ++ textElem 129 s.localUri ++
  optElem s.scope (nniTlv 132) ++ optElem s.persistency (nniTlv 133) ++ optElem s.linkType (nniTlv 134)

/-- face-query-filter.cpp 109-163. -/
def Filter.steps : List (Step Filter) :=
  [.opt 105 (fun s e => (num e).map fun x => { s with faceId := some x }) (fun s => { s with faceId := none }),
   .opt 131 (fun s e => (text e).map fun x => { s with uriScheme := x }) (fun s => { s with uriScheme := [] }),
   .opt 114 (fun s e => (text e).map fun x => { s with remoteUri := x }) (fun s => { s with remoteUri := [] }),
   .opt 129 (fun s e => (text e).map fun x => { s with localUri := x }) (fun s => { s with localUri := [] }),
   .opt 132 (fun s e => (numAs 255 e).map fun x => { s with scope := some x }) (fun s => { s with scope := none }),
   .opt 133 (fun s e => (numAs 255 e).map fun x => { s with persistency := some x }) (fun s => { s with persistency := none }),
   .opt 134 (fun s e => (numAs 255 e).map fun x => { s with linkType := some x }) (fun s => { s with linkType := none })]

def Filter.codec : Codec Filter where
  type := 150
  value := Filter.value
  fill := runSteps Filter.steps

/-- `FaceQueryFilter::empty`, face-query-filter.cpp 166-176. -/
def Filter.empty (s : Filter) : Bool :=
  !s.faceId.isSome && s.uriScheme.isEmpty && s.remoteUri.isEmpty && s.localUri.isEmpty &&
  !s.scope.isSome && !s.persistency.isSome && !s.linkType.isSome

/-! ### NextHopRecord and FibEntry, fib-entry.{hpp,cpp} -/

/-- fib-entry.hpp 76-77. -/
structure NextHop where
  faceId : Nat := 0
  cost : Nat := 0
  deriving DecidableEq, Repr

inductive NextHop.Set where
  | faceId (n : Nat) | cost (n : Nat)

/-- fib-entry.cpp 39-53. -/
def NextHop.apply : NextHop.Set → NextHop → NextHop
  | .faceId x, s => { s with faceId := x }
  | .cost x, s => { s with cost := x }

/-- fib-entry.cpp 59-62. -/
def NextHop.value (s : NextHop) : Bytes := nniTlv 105 s.faceId ++ nniTlv 106 s.cost

/-- fib-entry.cpp 98-114. -/
def NextHop.steps : List (Step NextHop) :=
  [.req 105 fun s e => (num e).map fun x => { s with faceId := x },
   .req 106 fun s e => (num e).map fun x => { s with cost := x }]

def NextHop.codec : Codec NextHop where
  type := 129
  value := NextHop.value
  fill := runSteps NextHop.steps

/-- fib-entry.hpp 155-156. -/
structure Fib where
  pfx : List Comp := []
  hops : List NextHop := []
  deriving DecidableEq, Repr

inductive Fib.Set where
  | pfx (n : List Comp) | addHop (h : NextHop) | clearHops

/-- fib-entry.cpp 142-164. -/
def Fib.apply : Fib.Set → Fib → Fib
  | .pfx n, s => { s with pfx := n }
  | .addHop h, s => { s with hops := s.hops ++ [h] }
  | .clearHops, s => { s with hops := [] }

/-- fib-entry.cpp 170-175; `nh.wireEncode(block)` writes the members, whatever the record has cached. -/
def Fib.value (s : Fib) : Bytes := encodeComps s.pfx ++ s.hops.flatMap fun h => (NextHop.codec.encode h).wire

/-- fib-entry.cpp 220-226: the records after the name; each is constructed from its element, and an element of another
type is an exception either way. -/
def Fib.fillHops : List Raw → Fib → Out × Fib
  | [], s => (.ok, s)
  | e :: es, s =>
    match NextHop.codec.wireDecode ⟨none, {}⟩ e with
    | (.ok, o) => Fib.fillHops es { s with hops := s.hops ++ [o.v] }
    | (r, _) => (r, s)

/-- fib-entry.cpp 209-226. What a failing `Name::wireDecode` leaves in the name is not modelled. -/
def Fib.fill (s : Fib) (es : List Raw) : Out × Fib :=
  match es with
  | [] => (.threw, s)
  | e :: rest =>
    match nameOf e with
    | none => (.threw, s)
    | some n => Fib.fillHops rest { s with pfx := n, hops := [] }

def Fib.codec : Codec Fib where
  type := 128
  value := Fib.value
  fill := Fib.fill

/-! ### Route and RibEntry, rib-entry.{hpp,cpp} -/

/-- rib-entry.hpp 120-124. -/
structure Route where
  faceId : Nat := 0
  origin : Nat := 0
  cost : Nat := 0
  flags : Nat := 1
  expiration : Option Int := none
  deriving DecidableEq, Repr

inductive Route.Set where
  | faceId (n : Nat) | origin (n : Nat) | cost (n : Nat) | flags (n : Nat) | expiration (d : Int) | unsetExpiration

/-- rib-entry.cpp 39-89; `time::milliseconds::max()` means no expiration. -/
def Route.apply : Route.Set → Route → Route
  | .faceId x, s => { s with faceId := x }
  | .origin x, s => { s with origin := x }
  | .cost x, s => { s with cost := x }
  | .flags x, s => { s with flags := x }
  | .expiration x, s => if x = 2 ^ 63 - 1 then { s with expiration := none } else { s with expiration := some x }
  | .unsetExpiration, s => { s with expiration := none }

/-- rib-entry.cpp 95-104. -/
def Route.value (s : Route) : Bytes :=
  nniTlv 105 s.faceId ++ nniTlv 111 s.origin ++ nniTlv 106 s.cost ++ nniTlv 108 s.flags ++
  optElem s.expiration (fun d => nniTlv 109 (toU64 d))

/-- rib-entry.cpp 140-178. `RouteOrigin` has 16 bits. -/
def Route.steps : List (Step Route) :=
  [.req 105 fun s e => (num e).map fun x => { s with faceId := x },
   .req 111 fun s e => (numAs 65535 e).map fun x => { s with origin := x },
   .req 106 fun s e => (num e).map fun x => { s with cost := x },
   .req 108 fun s e => (num e).map fun x => { s with flags := x },
   .opt 109 (fun s e => (signed e).map fun x => { s with expiration := some x }) (fun s => { s with expiration := none })]

def Route.codec : Codec Route where
  type := 129
  value := Route.value
  fill := runSteps Route.steps

/-- rib-entry.hpp 196-197. -/
structure Rib where
  name : List Comp := []
  routes : List Route := []
  deriving DecidableEq, Repr

inductive Rib.Set where
  | name (n : List Comp) | addRoute (r : Route) | clearRoutes

/-- rib-entry.cpp 219-241. -/
def Rib.apply : Rib.Set → Rib → Rib
  | .name n, s => { s with name := n }
  | .addRoute h, s => { s with routes := s.routes ++ [h] }
  | .clearRoutes, s => { s with routes := [] }

/-- rib-entry.cpp 247-252. -/
def Rib.value (s : Rib) : Bytes := encodeComps s.name ++ s.routes.flatMap fun r => (Route.codec.encode r).wire

/-- rib-entry.cpp 297-303. -/
def Rib.fillRoutes : List Raw → Rib → Out × Rib
  | [], s => (.ok, s)
  | e :: es, s =>
    match Route.codec.wireDecode ⟨none, {}⟩ e with
    | (.ok, o) => Rib.fillRoutes es { s with routes := s.routes ++ [o.v] }
    | (r, _) => (r, s)

/-- rib-entry.cpp 286-303. What a failing `Name::wireDecode` leaves in the name is not modelled. -/
def Rib.fill (s : Rib) (es : List Raw) : Out × Rib :=
  match es with
  | [] => (.threw, s)
  | e :: rest =>
    match nameOf e with
    | none => (.threw, s)
    | some n => Rib.fillRoutes rest { s with name := n, routes := [] }

def Rib.codec : Codec Rib where
  type := 128
  value := Rib.value
  fill := Rib.fill

/-! ### StrategyChoice, strategy-choice.{hpp,cpp} -/

structure Choice where
  name : List Comp := []
  strategy : List Comp := []
  deriving DecidableEq, Repr

inductive Choice.Set where
  | name (n : List Comp) | strategy (n : List Comp)

/-- strategy-choice.cpp 100-114. -/
def Choice.apply : Choice.Set → Choice → Choice
  | .name x, s => { s with name := x }
  | .strategy x, s => { s with strategy := x }

/-- strategy-choice.cpp 40-43. -/
def Choice.value (s : Choice) : Bytes := encodeComps s.name ++ tlvBytes 107 (encodeComps s.strategy)

/-- strategy-choice.cpp 79-97. What a failing `Name::wireDecode` leaves in the name is not modelled. -/
def Choice.steps : List (Step Choice) :=
  [.req 7 fun s e => (nameIn e).map fun x => { s with name := x },
   .req 107 fun s e => (Rd.of (strategyOf e)).map fun x => { s with strategy := x }]

def Choice.codec : Codec Choice where
  type := 128
  value := Choice.value
  fill := runSteps Choice.steps

/-! ### Equality of entries -/

/-- `matched[i] = true` for the first `i` with `!matched[i] && bs[i] == x`, fib-entry.cpp 242-247, rib-entry.cpp 319-324;
`none` when there is none. -/
def markFirst {α : Type} [DecidableEq α] (x : α) : List α → List Bool → Option (List Bool)
  | b :: bs, m :: ms => if !m && decide (b = x) then some (true :: ms) else (markFirst x bs ms).map (m :: ·)
  | _, _ => none

/-- The `std::all_of`, fib-entry.cpp 240-249, rib-entry.cpp 317-326. -/
def allMatched {α : Type} [DecidableEq α] (bs : List α) : List α → List Bool → Bool
  | [], _ => true
  | x :: xs, m => match markFirst x bs m with
    | some m' => allMatched bs xs m'
    | none => false

/-- The comparison of two vectors in `operator==`, fib-entry.cpp 232-249, rib-entry.cpp 309-326. -/
def sameRecords {α : Type} [DecidableEq α] (as bs : List α) : Bool :=
  decide (as.length = bs.length) && allMatched bs as (List.replicate bs.length false)

/-- `operator==(const FibEntry&, const FibEntry&)`, fib-entry.cpp 229-250. `operator==` of `Name` is equality of the
components (see Name), that of `NextHopRecord` (117-122) compares the members. -/
def Fib.eq (a b : Fib) : Bool := decide (a.pfx = b.pfx) && sameRecords a.hops b.hops

/-- `operator==(const RibEntry&, const RibEntry&)`, rib-entry.cpp 306-327. -/
def Rib.eq (a b : Rib) : Bool := decide (a.name = b.name) && sameRecords a.routes b.routes

/-! ### Flag bits of faces -/

/-- `FaceTraits::getFlagBit`, face-traits.hpp 143-150. -/
def getFlagBit (flags bit : Nat) : Bit Bool :=
  if bit ≥ 64 then .outOfRange
  else match shl1 bit with
    | none => .ub
    | some x => .ok (decide (flags &&& toU64 x ≠ 0))

/-- `FaceTraits::setFlagBit`, face-traits.hpp 152-169; the new flags. -/
def setFlagBit (flags bit : Nat) (value : Bool) : Bit Nat :=
  if bit ≥ 64 then .outOfRange
  else match shl1 bit with
    | none => .ub
    | some x => .ok (if value then flags ||| toU64 x else flags &&& toU64 (complement x))

end Ndn.Nfd
