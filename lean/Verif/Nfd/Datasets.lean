import Verif.Nfd.Items
import Verif.Mgmt.Command
/-
Model of ndn-cxx/mgmt/nfd/status-dataset.{hpp,cpp}: the names under which the NFD datasets are asked for, and how the
payload that was put together is parsed.
-/
namespace Ndn.Nfd
open Tlv Block Name Packet Mgmt

/-- How parsing ends: a result, a `tlv::Error`, an `std::invalid_argument`, or undefined behaviour. -/
inductive Parsed (α : Type) where
  | ok (a : α)
  | tlvError
  | invalidArgument
  | ub
  deriving DecidableEq, Repr

def Parsed.map {α β : Type} (f : α → β) : Parsed α → Parsed β
  | .ok a => .ok (f a)
  | .tlvError => .tlvError
  | .invalidArgument => .invalidArgument
  | .ub => .ub

/-- The result of a decoding. -/
def Parsed.of {σ : Type} (r : Out × Obj σ) : Parsed σ :=
  match r with
  | (.ok, o) => .ok o.v
  | (.threw, _) => .tlvError
  | (.ub, _) => .ub

/-- The loop of `parseDatasetVector`, status-dataset.cpp 42-59, on the bytes from `offset` on; `init` is what a default
constructed item holds. The first argument bounds the number of rounds; every round consumes at least two bytes. -/
def parseLoop {σ : Type} (c : Codec σ) (init : σ) : Nat → Bytes → List σ → Parsed (List σ)
  | _, [], acc => .ok acc
  | 0, _ :: _, _ => .tlvError
  | n + 1, x :: xs, acc =>
    match fromBuffer (x :: xs) with
    | none => .tlvError
    | some (b, rest) =>
      match Parsed.of (c.wireDecode ⟨none, init⟩ b) with
      | .ok s => parseLoop c init n rest (acc ++ [s])
      | .tlvError => .tlvError
      | .invalidArgument => .invalidArgument
      | .ub => .ub

/-- `parseDatasetVector`, status-dataset.cpp 37-62. -/
def parseVector {σ : Type} (c : Codec σ) (init : σ) (payload : Bytes) : Parsed (List σ) :=
  parseLoop c init payload.length payload []

/-- The datasets, status-dataset.hpp 97-211. -/
inductive Dataset where
  | general | faces | query (f : Filter) | channels | fib | cs | strategies | rib

/-- What they hold. -/
inductive Result where
  | general (s : Forwarder)
  | faces (l : List FaceStatus)
  | channels (l : List Channel)
  | fib (l : List Fib)
  | cs (s : CsInfo)
  | strategies (l : List Choice)
  | rib (l : List Rib)
  deriving DecidableEq

/-- `Block(payload)`, encoding/block.cpp 83-115, for `CsInfoDataset`: an empty buffer is refused with
`std::invalid_argument` before anything is read. -/
def parseCs (payload : Bytes) : Parsed CsInfo :=
  if payload = [] then .invalidArgument
  else match fromRange payload true with
    | none => .tlvError
    | some b => .of (CsInfo.codec.wireDecode ⟨none, {}⟩ b)

/-- `parseResult` of each dataset, status-dataset.cpp 69-73, 80-84, 100-104, 111-115, 122-126, 133-137, 144-148, 155-159.
The payload of `status/general` becomes the value of a Content element. -/
def Dataset.parse (d : Dataset) (payload : Bytes) : Parsed Result :=
  match d with
  | .general => (Parsed.of (Forwarder.codec.wireDecode ⟨none, {}⟩ (binaryBlock 21 payload))).map .general
  | .faces => (parseVector FaceStatus.codec {} payload).map .faces
  | .query _ => (parseVector FaceStatus.codec {} payload).map .faces
  | .channels => (parseVector Channel.codec {} payload).map .channels
  | .fib => (parseVector Fib.codec {} payload).map .fib
  | .cs => (parseCs payload).map .cs
  | .strategies => (parseVector Choice.codec {} payload).map .strategies
  | .rib => (parseVector Rib.codec {} payload).map .rib

/-- The dataset names given to the constructors, status-dataset.cpp 64-67, 75-78, 86-90, 106-109, 117-120, 128-131,
139-142, 150-153. -/
def Dataset.words : Dataset → String × String
  | .general => ("status", "general")
  | .faces => ("faces", "list")
  | .query _ => ("faces", "query")
  | .channels => ("faces", "channels")
  | .fib => ("fib", "list")
  | .cs => ("cs", "info")
  | .strategies => ("strategy-choice", "list")
  | .rib => ("rib", "list")

def word (s : String) : Comp := ⟨8, strBytes s⟩

/-- `getDatasetPrefix`, status-dataset.cpp 25-29 and 92-97: the filter's element is the value of a generic component
(`Name::append(span)`, name.hpp 339-343, with the range of the whole element). -/
def Dataset.name (d : Dataset) (pfx : List Comp) : List Comp :=
  pfx ++ [word d.words.1, word d.words.2] ++
  match d with
  | .query f => [⟨8, (Filter.codec.encode f).wire⟩]
  | _ => []

end Ndn.Nfd
