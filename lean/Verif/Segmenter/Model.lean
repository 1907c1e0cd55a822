import Verif.Packet.Model
/-
Model of ndn-cxx/util/segmenter.cpp.

The key chain is a function from the packet to be signed to the signature information and value it
attaches, or an exception.
-/
namespace Ndn.Segmenter
open Ndn.Packet Ndn.Name

structure Params where
  settings : Settings
  /-- `KeyChain::sign`. -/
  sign : DFields → Option (SigInfo × Bytes)

/-- `m_keyChain.sign(*data, m_signingInfo)`. -/
def signed (p : Params) (d : DFields) : Option DFields :=
  (p.sign d).map fun r => { d with sigInfo := r.1, sigValue := some (binaryBlock 23 r.2) }

/-- Calls on a fresh `Data`; `none` is an exception. -/
def calls : DObj → List DOp → Option DObj
  | d, [] => some d
  | d, op :: ops => let r := d.step (fun b => b) op; if r.1 then calls r.2 ops else none

/-- The packet made in one round: `Data()`, `setName`, `setContentType`, `setFreshnessPeriod`, and the
rest, segmenter.cpp 49-55 and 87-92. -/
def mk (p : Params) (name : List Comp) (i contentType : Nat) (freshness : Int) (rest : List DOp) : Option DFields :=
  (Conv.segment.from p.settings i).bind fun c =>
    (calls (.init []) (.setName (name ++ [c]) :: .setContentType contentType :: .setFreshness freshness :: rest)).map DObj.f

/-- The loop of `segment(span, …)`, segmenter.cpp 46-62: first argument is an upper bound on the
remaining rounds, `i` is `segments.size()`. -/
def loop (p : Params) (name : List Comp) (maxSize contentType : Nat) (freshness : Int) (final : Comp) :
    Nat → Bytes → Nat → Option (List DFields)
  | 0, _, _ => none
  | fuel + 1, buffer, i =>
    let segLen := min buffer.length maxSize
    (mk p name i contentType freshness [.setFinalBlock (some final), .setContent (buffer.take segLen)]).bind fun d =>
      (signed p d).bind fun d =>
        let rest := buffer.drop segLen
        if rest = [] then some [d]
        else (loop p name maxSize contentType freshness final fuel rest (i + 1)).map (d :: ·)

/-- `segment(span<const uint8_t>, …)`, segmenter.cpp 34-67. -/
def segment (p : Params) (buffer : Bytes) (name : List Comp) (maxSize : Nat) (freshness : Int) (contentType : Nat) :
    Option (List DFields) :=
  if maxSize = 0 then none
  else
    let numSegments := 1 + (buffer.length - (if buffer = [] then 0 else 1)) / maxSize
    (Conv.segment.from p.settings (numSegments - 1)).bind fun final =>
      loop p name maxSize contentType freshness final (buffer.length + 1) buffer 0

/-- `boost::iostreams::read` on the rest of the stream: end of file, or the octets read. -/
def read (stream : Bytes) (n : Nat) : Option (Bytes × Bytes) :=
  if stream = [] then none else some (stream.take n, stream.drop n)

/-- The reading loop of `segment(std::istream, …)`, segmenter.cpp 80-95. -/
def readLoop (p : Params) (name : List Comp) (maxSize contentType : Nat) (freshness : Int) :
    Nat → Bytes → Nat → Option (List DFields)
  | 0, _, _ => none
  | fuel + 1, stream, i =>
    match read stream maxSize with
    | none => some []
    | some (chunk, rest) =>
      (mk p name i contentType freshness [.setContent chunk]).bind fun d =>
        (readLoop p name maxSize contentType freshness fuel rest (i + 1)).map (d :: ·)

/-- Adding the final block id and signing, segmenter.cpp 106-111. -/
def finish (p : Params) (final : Comp) : List DFields → Option (List DFields)
  | [] => some []
  | d :: l =>
    (calls ⟨d, none, []⟩ [.setFinalBlock (some final)]).bind fun o =>
      (signed p o.f).bind fun d => (finish p final l).map (d :: ·)

/-- `segment(std::istream, …)`, segmenter.cpp 69-113. -/
def segmentStream (p : Params) (stream : Bytes) (name : List Comp) (maxSize : Nat) (freshness : Int) (contentType : Nat) :
    Option (List DFields) :=
  if maxSize = 0 then none
  else
    (readLoop p name maxSize contentType freshness (stream.length + 1) stream 0).bind fun l =>
      (if l = [] then (mk p name 0 contentType freshness []).map fun d => [d] else some l).bind fun l =>
        (Conv.segment.from p.settings (l.length - 1)).bind fun final => finish p final l

end Ndn.Segmenter
