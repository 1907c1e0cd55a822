import Verif.Nfd.Items
import Verif.Mgmt.ParamsSpec
/-
What the elements inside an encoding of a management structure mean, in terms of the TLV specification.
-/
namespace Ndn.Nfd
open Tlv Tlv.Spec Block Block.Spec Name Packet Packet.Spec Mgmt

/-- One place in a grammar: an element that must be there, of type `t` and such that `P`; or one that may be there, with
what its absence means. -/
inductive Item where
  | one (t : Nat) (P : Raw → Prop)
  | may (t : Nat) (P : Raw → Prop) (absent : Prop)

/-- The elements follow the grammar: the items in order, one after the other, then anything. -/
def Laid : List Raw → List Item → Prop
  | _, [] => True
  | es, .one t P :: is => ∃ e rest, es = e :: rest ∧ e.type = t ∧ P e ∧ Laid rest is
  | es, .may t P absent :: is =>
    (∃ e rest, es = e :: rest ∧ e.type = t ∧ P e ∧ Laid rest is) ∨
    ((∀ e rest, es = e :: rest → e.type ≠ t) ∧ absent ∧ Laid es is)

/-- A 64-bit number. -/
def IsU64 (e : Raw) (n : Nat) : Prop := NniForm e.value n

/-- An optional field. -/
def optional {α : Type} (t : Nat) (R : Raw → α → Prop) (o : Option α) : Item :=
  .may t (fun e => ∃ a, o = some a ∧ R e a) (o = none)

/-- A text that is empty when there is no element. -/
def optionalText (t : Nat) (s : Bytes) : Item := .may t (fun e => s = e.value) (s = [])

/-- Milliseconds since 1970 that a time point in nanoseconds can hold. -/
def IsTime (e : Raw) (t : Int) : Prop :=
  ∃ ms, IsSigned e ms ∧ t = ms * 1000000 ∧ -2 ^ 63 ≤ t ∧ t < 2 ^ 63

/-- StatusCode of at most 32 bits, StatusText, then possibly a body: any one element. -/
def Response.Means (es : List Raw) (r : Response) : Prop :=
  ∃ e1 e2 rest, es = e1 :: e2 :: rest ∧ e1.type = 102 ∧ IsNum (2 ^ 32 - 1) e1 r.code ∧ e2.type = 103 ∧
    r.text = e2.value ∧ r.body = rest.head?

def Channel.grammar (s : Channel) : List Item := [.one 129 (IsText · s.localUri)]

def CsInfo.grammar (s : CsInfo) : List Item :=
  [.one 131 (IsU64 · s.capacity),
   .one 108 (fun e => ∃ n, IsU64 e n ∧ (s.admit = true ↔ n % 2 = 1) ∧ (s.serve = true ↔ n / 2 % 2 = 1)),
   .one 135 (IsU64 · s.nEntries), .one 129 (IsU64 · s.nHits), .one 130 (IsU64 · s.nMisses)]

def FaceEvent.grammar (s : FaceEvent) : List Item :=
  [.one 193 (IsNum 255 · s.kind), .one 105 (IsU64 · s.faceId), .one 114 (IsText · s.remoteUri),
   .one 129 (IsText · s.localUri), .one 132 (IsNum 255 · s.scope), .one 133 (IsNum 255 · s.persistency),
   .one 134 (IsNum 255 · s.linkType), .one 108 (IsU64 · s.flags)]

def FaceStatus.grammar (s : FaceStatus) : List Item :=
  [.one 105 (IsU64 · s.faceId), .one 114 (IsText · s.remoteUri), .one 129 (IsText · s.localUri),
   optional 109 IsSigned s.expiration,
   .one 132 (IsNum 255 · s.scope), .one 133 (IsNum 255 · s.persistency), .one 134 (IsNum 255 · s.linkType),
   optional 135 IsSigned s.interval, optional 136 IsU64 s.threshold, optional 137 IsU64 s.mtu,
   .one 144 (IsU64 · s.nInInterests), .one 145 (IsU64 · s.nInData), .one 151 (IsU64 · s.nInNacks),
   .one 146 (IsU64 · s.nOutInterests), .one 147 (IsU64 · s.nOutData), .one 152 (IsU64 · s.nOutNacks),
   .one 148 (IsU64 · s.nInBytes), .one 149 (IsU64 · s.nOutBytes), .one 108 (IsU64 · s.flags)]

def Forwarder.grammar (s : Forwarder) : List Item :=
  [.one 128 (IsText · s.version), .one 129 (IsTime · s.start), .one 130 (IsTime · s.current),
   .one 131 (IsU64 · s.nNameTree), .one 132 (IsU64 · s.nFib), .one 133 (IsU64 · s.nPit),
   .one 134 (IsU64 · s.nMeasurements), .one 135 (IsU64 · s.nCs),
   .one 144 (IsU64 · s.nInInterests), .one 145 (IsU64 · s.nInData), .one 151 (IsU64 · s.nInNacks),
   .one 146 (IsU64 · s.nOutInterests), .one 147 (IsU64 · s.nOutData), .one 152 (IsU64 · s.nOutNacks),
   .one 153 (IsU64 · s.nSatisfied), .one 154 (IsU64 · s.nUnsatisfied)]

def Filter.grammar (s : Filter) : List Item :=
  [optional 105 IsU64 s.faceId, optionalText 131 s.uriScheme, optionalText 114 s.remoteUri, optionalText 129 s.localUri,
   optional 132 (IsNum 255) s.scope, optional 133 (IsNum 255) s.persistency, optional 134 (IsNum 255) s.linkType]

def NextHop.grammar (s : NextHop) : List Item := [.one 105 (IsU64 · s.faceId), .one 106 (IsU64 · s.cost)]

def Route.grammar (s : Route) : List Item :=
  [.one 105 (IsU64 · s.faceId), .one 111 (IsNum 65535 · s.origin), .one 106 (IsU64 · s.cost), .one 108 (IsU64 · s.flags),
   optional 109 IsSigned s.expiration]

def Choice.grammar (s : Choice) : List Item := [.one 7 (IsName · s.name), .one 107 (HoldsName · s.strategy)]

/-- Two lists of the same length, related place by place. -/
def Each {α β : Type} (R : α → β → Prop) : List α → List β → Prop
  | [], [] => True
  | a :: as, b :: bs => R a b ∧ Each R as bs
  | _, _ => False

/-- The element holds this structure. -/
def Holds {σ : Type} (t : Nat) (grammar : σ → List Item) (e : Raw) (s : σ) : Prop :=
  e.type = t ∧ ∃ es, ReadsAs e.value es ∧ Laid es (grammar s)

/-- A name, then one record element per next hop, in order, and nothing else. -/
def Fib.Means (es : List Raw) (s : Fib) : Prop :=
  ∃ e rest, es = e :: rest ∧ IsName e s.pfx ∧ Each (Holds 129 NextHop.grammar) rest s.hops

/-- A name, then one element per route, in order, and nothing else. -/
def Rib.Means (es : List Raw) (s : Rib) : Prop :=
  ∃ e rest, es = e :: rest ∧ IsName e s.name ∧ Each (Holds 129 Route.grammar) rest s.routes

/-! ### What the types of the members allow -/

def U64 (n : Nat) : Prop := n < 2 ^ 64
def I64 (d : Int) : Prop := -2 ^ 63 ≤ d ∧ d < 2 ^ 63
def All {α : Type} (P : α → Prop) (o : Option α) : Prop := ∀ a, o = some a → P a

def Response.Ok (r : Response) : Prop := r.code < 2 ^ 32 ∧ All RawWF r.body ∧ r.value.length < 2 ^ 64
def Channel.Ok (s : Channel) : Prop := s.value.length < 2 ^ 64
def CsInfo.Ok (s : CsInfo) : Prop := U64 s.capacity ∧ U64 s.nEntries ∧ U64 s.nHits ∧ U64 s.nMisses
def FaceEvent.Ok (s : FaceEvent) : Prop :=
  s.kind ≤ 255 ∧ U64 s.faceId ∧ s.scope ≤ 255 ∧ s.persistency ≤ 255 ∧ s.linkType ≤ 255 ∧ U64 s.flags ∧
  s.value.length < 2 ^ 64
def FaceStatus.Ok (s : FaceStatus) : Prop :=
  U64 s.faceId ∧ All I64 s.expiration ∧ s.scope ≤ 255 ∧ s.persistency ≤ 255 ∧ s.linkType ≤ 255 ∧ All I64 s.interval ∧
  All U64 s.threshold ∧ All U64 s.mtu ∧ U64 s.nInInterests ∧ U64 s.nInData ∧ U64 s.nInNacks ∧ U64 s.nOutInterests ∧
  U64 s.nOutData ∧ U64 s.nOutNacks ∧ U64 s.nInBytes ∧ U64 s.nOutBytes ∧ U64 s.flags ∧ s.value.length < 2 ^ 64
def Forwarder.Ok (s : Forwarder) : Prop :=
  I64 s.start ∧ I64 s.current ∧ U64 s.nNameTree ∧ U64 s.nFib ∧ U64 s.nPit ∧ U64 s.nMeasurements ∧ U64 s.nCs ∧
  U64 s.nInInterests ∧ U64 s.nInData ∧ U64 s.nInNacks ∧ U64 s.nOutInterests ∧ U64 s.nOutData ∧ U64 s.nOutNacks ∧
  U64 s.nSatisfied ∧ U64 s.nUnsatisfied ∧ s.value.length < 2 ^ 64
def Filter.Ok (s : Filter) : Prop :=
  All U64 s.faceId ∧ All (· ≤ 255) s.scope ∧ All (· ≤ 255) s.persistency ∧ All (· ≤ 255) s.linkType ∧
  s.value.length < 2 ^ 64
def NextHop.Ok (s : NextHop) : Prop := U64 s.faceId ∧ U64 s.cost
def Route.Ok (s : Route) : Prop :=
  U64 s.faceId ∧ s.origin ≤ 65535 ∧ U64 s.cost ∧ U64 s.flags ∧ All I64 s.expiration
def Fib.Ok (s : Fib) : Prop := NameWF s.pfx ∧ (∀ h ∈ s.hops, h.Ok) ∧ s.value.length < 2 ^ 64
def Rib.Ok (s : Rib) : Prop := NameWF s.name ∧ (∀ r ∈ s.routes, r.Ok) ∧ s.value.length < 2 ^ 64
def Choice.Ok (s : Choice) : Prop := NameWF s.name ∧ NameWF s.strategy ∧ s.value.length < 2 ^ 64

/-! ### What setters are to do -/

/-- A value a getter returns. -/
inductive Shown where
  | num (n : Nat) | text (s : Bytes) | signed (d : Int) | flag (b : Bool) | name (n : List Comp) | block (b : Raw)
  | absent

def shownOpt {α : Type} (f : α → Shown) : Option α → Shown
  | some a => f a
  | none => .absent

/-- What the getters of a `Response` return, in the order of its fields. -/
def Response.shown (s : Response) : List Shown :=
  [.num s.code, .text s.text, shownOpt .block s.body]

/-- Which getter each setter is to change, and what it returns then. -/
def Response.target : Response.Set → Nat × Shown
  | .code n => (0, .num n)
  | .text s => (1, .text s)
  | .body b => (2, .block b)

/-- What the getters of a `Channel` return, in the order of its fields. -/
def Channel.shown (s : Channel) : List Shown :=
  [.text s.localUri]

/-- Which getter each setter is to change, and what it returns then. -/
def Channel.target : Channel.Set → Nat × Shown
  | .localUri s => (0, .text s)

/-- What the getters of a `CsInfo` return, in the order of its fields. -/
def CsInfo.shown (s : CsInfo) : List Shown :=
  [.num s.capacity, .flag s.admit, .flag s.serve, .num s.nEntries, .num s.nHits, .num s.nMisses]

/-- Which getter each setter is to change, and what it returns then. -/
def CsInfo.target : CsInfo.Set → Nat × Shown
  | .capacity n => (0, .num n)
  | .enableAdmit b => (1, .flag b)
  | .enableServe b => (2, .flag b)
  | .nEntries n => (3, .num n)
  | .nHits n => (4, .num n)
  | .nMisses n => (5, .num n)

/-- What the getters of a `FaceEvent` return, in the order of its fields. -/
def FaceEvent.shown (s : FaceEvent) : List Shown :=
  [.num s.kind, .num s.faceId, .text s.remoteUri, .text s.localUri, .num s.scope, .num s.persistency, .num s.linkType, .num s.flags]

/-- Which getter each setter is to change, and what it returns then. -/
def FaceEvent.target : FaceEvent.Set → Nat × Shown
  | .kind n => (0, .num n)
  | .faceId n => (1, .num n)
  | .remoteUri s => (2, .text s)
  | .localUri s => (3, .text s)
  | .scope n => (4, .num n)
  | .persistency n => (5, .num n)
  | .linkType n => (6, .num n)
  | .flags n => (7, .num n)

/-- What the getters of a `FaceStatus` return, in the order of its fields. -/
def FaceStatus.shown (s : FaceStatus) : List Shown :=
  [.num s.faceId, .text s.remoteUri, .text s.localUri, shownOpt .signed s.expiration, .num s.scope, .num s.persistency, .num s.linkType, shownOpt .signed s.interval, shownOpt .num s.threshold, shownOpt .num s.mtu, .num s.nInInterests, .num s.nInData, .num s.nInNacks, .num s.nOutInterests, .num s.nOutData, .num s.nOutNacks, .num s.nInBytes, .num s.nOutBytes, .num s.flags]

/-- Which getter each setter is to change, and what it returns then. -/
def FaceStatus.target : FaceStatus.Set → Nat × Shown
  | .faceId n => (0, .num n)
  | .remoteUri s => (1, .text s)
  | .localUri s => (2, .text s)
  | .expiration d => (3, .signed d)
  | .unsetExpiration => (3, .absent)
  | .scope n => (4, .num n)
  | .persistency n => (5, .num n)
  | .linkType n => (6, .num n)
  | .interval d => (7, .signed d)
  | .unsetInterval => (7, .absent)
  | .threshold n => (8, .num n)
  | .unsetThreshold => (8, .absent)
  | .mtu n => (9, .num n)
  | .unsetMtu => (9, .absent)
  | .nInInterests n => (10, .num n)
  | .nInData n => (11, .num n)
  | .nInNacks n => (12, .num n)
  | .nOutInterests n => (13, .num n)
  | .nOutData n => (14, .num n)
  | .nOutNacks n => (15, .num n)
  | .nInBytes n => (16, .num n)
  | .nOutBytes n => (17, .num n)
  | .flags n => (18, .num n)

/-- What the getters of a `Forwarder` return, in the order of its fields. -/
def Forwarder.shown (s : Forwarder) : List Shown :=
  [.text s.version, .signed s.start, .signed s.current, .num s.nNameTree, .num s.nFib, .num s.nPit, .num s.nMeasurements, .num s.nCs, .num s.nInInterests, .num s.nInData, .num s.nInNacks, .num s.nOutInterests, .num s.nOutData, .num s.nOutNacks, .num s.nSatisfied, .num s.nUnsatisfied]

/-- Which getter each setter is to change, and what it returns then. -/
def Forwarder.target : Forwarder.Set → Nat × Shown
  | .version s => (0, .text s)
  | .start t => (1, .signed t)
  | .current t => (2, .signed t)
  | .nNameTree n => (3, .num n)
  | .nFib n => (4, .num n)
  | .nPit n => (5, .num n)
  | .nMeasurements n => (6, .num n)
  | .nCs n => (7, .num n)
  | .nInInterests n => (8, .num n)
  | .nInData n => (9, .num n)
  | .nInNacks n => (10, .num n)
  | .nOutInterests n => (11, .num n)
  | .nOutData n => (12, .num n)
  | .nOutNacks n => (13, .num n)
  | .nSatisfied n => (14, .num n)
  | .nUnsatisfied n => (15, .num n)

/-- What the getters of a `Filter` return, in the order of its fields. -/
def Filter.shown (s : Filter) : List Shown :=
  [shownOpt .num s.faceId, .text s.uriScheme, .text s.remoteUri, .text s.localUri, shownOpt .num s.scope, shownOpt .num s.persistency, shownOpt .num s.linkType]

/-- Which getter each setter is to change, and what it returns then. -/
def Filter.target : Filter.Set → Nat × Shown
  | .faceId n => (0, .num n)
  | .unsetFaceId => (0, .absent)
  | .uriScheme s => (1, .text s)
  | .unsetUriScheme => (1, .text [])
  | .remoteUri s => (2, .text s)
  | .unsetRemoteUri => (2, .text [])
  | .localUri s => (3, .text s)
  | .unsetLocalUri => (3, .text [])
  | .scope n => (4, .num n)
  | .unsetScope => (4, .absent)
  | .persistency n => (5, .num n)
  | .unsetPersistency => (5, .absent)
  | .linkType n => (6, .num n)
  | .unsetLinkType => (6, .absent)

/-- What the getters of a `NextHop` return, in the order of its fields. -/
def NextHop.shown (s : NextHop) : List Shown :=
  [.num s.faceId, .num s.cost]

/-- Which getter each setter is to change, and what it returns then. -/
def NextHop.target : NextHop.Set → Nat × Shown
  | .faceId n => (0, .num n)
  | .cost n => (1, .num n)

/-- What the getters of a `Route` return, in the order of its fields. -/
def Route.shown (s : Route) : List Shown :=
  [.num s.faceId, .num s.origin, .num s.cost, .num s.flags, shownOpt .signed s.expiration]

/-- Which getter each setter is to change, and what it returns then. -/
def Route.target : Route.Set → Nat × Shown
  | .faceId n => (0, .num n)
  | .origin n => (1, .num n)
  | .cost n => (2, .num n)
  | .flags n => (3, .num n)
  | .expiration d => (4, if d = 2 ^ 63 - 1 then .absent else .signed d)
  | .unsetExpiration => (4, .absent)

/-- What the getters of a `Choice` return, in the order of its fields. -/
def Choice.shown (s : Choice) : List Shown :=
  [.name s.name, .name s.strategy]

/-- Which getter each setter is to change, and what it returns then. -/
def Choice.target : Choice.Set → Nat × Shown
  | .name n => (0, .name n)
  | .strategy n => (1, .name n)

/-- The records added since the last `clear`, in order. -/
def Fib.added (before : List NextHop) : List Fib.Set → List NextHop
  | [] => before
  | .clearHops :: ops => Fib.added [] ops
  | .addHop h :: ops => Fib.added (before ++ [h]) ops
  | .pfx _ :: ops => Fib.added before ops

/-- The routes added since the last `clear`, in order. -/
def Rib.added (before : List Route) : List Rib.Set → List Route
  | [] => before
  | .clearRoutes :: ops => Rib.added [] ops
  | .addRoute h :: ops => Rib.added (before ++ [h]) ops
  | .name _ :: ops => Rib.added before ops

end Ndn.Nfd
