import Verif.Fetch.Model
import Verif.Segmenter.Model
import Verif.Mgmt.Dispatcher
import Verif.Nfd.Items
import Verif.Notify.Model
/-
A consumer fetching over the wire: what `SegmentFetcher` reads from a Data packet received as octets.
-/
namespace Ndn.Flow
open Ndn.Packet Ndn.Name Ndn.Block

/-- What the fetcher reads from a packet, segment-fetcher.cpp 221-226, 267, 279-291, 305-306: the name
without its last component (numbered by `num`), the segment number of the last component, that of the
FinalBlockId, and the value of the content (`getContent().value_*`, empty if there is no content). A packet
with an empty name is an exception (`get(-1)`), not modelled: the Face hands over only packets matching an
Interest. -/
def view (st : Settings) (num : List Comp → Nat) (d : DFields) : Option Fetch.Data :=
  d.name.getLast?.map fun c =>
    { obj := num d.name.dropLast
      seg := Conv.segment.to st c
      final := d.minfo.finalBlock.map (Conv.segment.to st)
      content := (d.content.map Raw.value).getD [] }

/-- A packet received: the octets are decoded as one block and the block as a Data packet. -/
def receive (st : Settings) (num : List Comp → Nat) (wire : Bytes) : Option Fetch.Data :=
  match fromBuffer wire with
  | some (b, []) => (dataDecode b).bind (view st num)
  | _ => none

/-- What happens to a fetcher on a network: a Data packet arrives as octets, or anything else. -/
inductive Ev where
  | data (iid : Nat) (wire : Bytes) (verdict : Option Bool) (w : Nat) (stopsReceived stopsValidated : Bool)
  | result (vid : Nat) (ok : Bool) (w : Nat) (stops : Bool)
  | nack (iid : Nat) (again : Bool) (w : Nat) (stops : Bool)
  | timeout (node : Nat) (w : Nat) (stops : Bool)
  | lost (iid : Nat)
  | stop
  | advance (dt : Nat)

/-- The event of the fetcher; octets that are not a Data packet do not reach it. -/
def Ev.toFetch (st : Settings) (num : List Comp → Nat) : Ev → Option Fetch.Ev
  | .data i wire v w a b => (receive st num wire).map fun d => .data i d v w a b
  | .result v ok w a => some (.result v ok w a)
  | .nack i g w a => some (.nack i g w a)
  | .timeout n w a => some (.timeout n w a)
  | .lost i => some (.lost i)
  | .stop => some .stop
  | .advance dt => some (.advance dt)

/-- A fetch over the wire. -/
def run (st : Settings) (num : List Comp → Nat) (cfg : Fetch.Cfg) (evs : List Ev) : Fetch.St :=
  Fetch.run (Fetch.start cfg) (evs.filterMap (Ev.toFetch st num))

/-- The content given to `sendData`: an encoded response (dispatcher.cpp 222), the Content element made by the context of a dataset
(status-dataset-context.cpp 71-75, 91-94), or a notification, given by its octets (dispatcher.cpp 325-328); a block of
another type is put into a Content element by `setContent`. -/
def contentBlock : Mgmt.Content → Raw
  | .resp r => Nfd.Response.codec.encode ⟨r.code, r.text, r.body⟩
  | .bytes b => binaryBlock 21 b

/-- `Dispatcher::sendData`, dispatcher.cpp 130-137, with the `MetaInfo` of its callers (216-219, 290-293, 328): content
type Nack or not, FinalBlockId or none; freshness one second; signed. -/
def sendData (p : Segmenter.Params) (x : Mgmt.OutData) : Option DFields :=
  (Segmenter.calls (.init x.name)
    [.setContentBlock (contentBlock x.content),
     .setMetaInfo { MetaInfo.init with type := if x.nack then 3 else 0, finalBlock := x.final },
     .setFreshness 1000]).bind fun o => Segmenter.signed p o.f

/-- The value of the content of a packet received (`Data::getContent`, empty if there is none). -/
def contentOf (wire : Bytes) : Option Bytes :=
  match fromBuffer wire with
  | some (b, []) => (dataDecode b).map fun d => (d.content.map Raw.value).getD []
  | _ => none

/-- A packet received by a notification subscriber, notification-subscriber.cpp 115-137 and notification-subscriber.hpp
180-191: its name, and its content decoded by `dec` (the constructor of the notification type). -/
def hear (dec : Bytes → Option Nat) (wire : Bytes) : Option Notify.Ev :=
  match fromBuffer wire with
  | some (b, []) => (dataDecode b).map fun d => .data d.name (dec ((d.content.map Raw.value).getD [])) []
  | _ => none

end Ndn.Flow
