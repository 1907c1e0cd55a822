import Verif.Hex.Model
/-
Model of the pipelines of security/transform: sources, chains of modules and sinks
(transform-base, buffer-source, stream-source, step-source, stream-sink, bool-sink and the modules hex-encode, hex-decode,
strip-space, digest-filter, signer-filter, verifier-filter, base64-encode, base64-decode, block-cipher), and of what is built
from them: `util::Sha256`, `io::loadBuffer` and `io::saveBuffer`, `verifySignature` on octets.

What OpenSSL computes is a parameter: a digest or signature is a function of all that was put in; a BIO (base64, AES) is an
`Engine`. An OpenSSL object is taken to accept all that is written to it.
-/
namespace Ndn.Pipe

/-- The ways a call can fail: `transform::Error` of module `i` because it was closed or because of its input, a failed
`BOOST_ASSERT`, a loop that does not end, a bad input stream. -/
inductive Err where
  | closed (i : Nat)
  | refused (i : Nat)
  | asserted
  | endless
  | badStream
  deriving DecidableEq, Repr

/-! ### Sinks -/

/-- `StreamSink`: what was written to the stream and how often it was flushed; `BoolSink`: the value and `m_hasValue`. -/
inductive SinkVal where
  | stream (out : Bytes) (flushes : Nat)
  | bool (value has : Bool)
  deriving DecidableEq, Repr

structure SinkSt where
  val : SinkVal
  ended : Bool
  deriving DecidableEq, Repr

/-- `StreamSink::doWrite`, stream-sink.cpp 33-42 (the stream does not fail); `BoolSink::doWrite`, bool-sink.cpp 26-34. -/
def SinkVal.write : SinkVal → Bytes → SinkVal
  | .stream out k, b => .stream (out ++ b) k
  | .bool v has, b =>
    match b with
    | [] => .bool v has
    | c :: _ => if has then .bool v has else .bool (c != 0) true

/-- `StreamSink::doEnd`, stream-sink.cpp 44-48; `BoolSink::doEnd`, bool-sink.hpp 59-63. -/
def SinkVal.fin : SinkVal → SinkVal
  | .stream out k => .stream out (k + 1)
  | .bool v has => .bool v has

/-- A `Downstream` with all that follows it: `write` (how much was accepted), `end()`, and the state of the sink. -/
structure Iface where
  St : Type
  write : St → Bytes → Except Err (St × Nat)
  fin : St → Except Err St
  sink : St → SinkSt

/-- A sink with index `i`; `Downstream::write` and `end`, transform-base.cpp 32-51. -/
def sinkIface (i : Nat) : Iface where
  St := SinkSt
  write s b := if s.ended then .error (.closed i) else .ok ({ s with val := s.val.write b }, b.length)
  fin s := .ok (if s.ended then s else ⟨s.val.fin, true⟩)
  sink s := s

/-! ### Modules -/

/-- What `preTransform` does. -/
inductive Pre where
  | nothing
  /-- `fillOutputBuffer` once. -/
  | once
  /-- `fillOutputBuffer` and flush until there is nothing to read. -/
  | loop

/-- What `finalize` does after `close`. -/
inductive Fin where
  /-- Nothing is flushed. -/
  | nothing
  /-- `flushAllOutput`. -/
  | flush
  /-- While the converter has output: fill the buffer and flush it. -/
  | drain
  /-- Fill the buffer; while it is not empty: flush; if it is empty then, fill it. -/
  | read

/-- A module by its own functions. `fill` is `fillOutputBuffer`: the octets read from the converter, at most `avail`.
`convert` gives the new output buffer and how much was taken; `none`: an exception. `close` is the beginning of `finalize`:
`none`: an exception; the second component is an output buffer that is set. -/
structure Mod where
  σ : Type
  init : σ
  avail : σ → Nat
  fill : σ → σ × Bytes
  pre : Pre
  convert : σ → Bytes → Option (σ × Bytes × Nat)
  close : σ → Option (σ × Option Bytes)
  fin : Fin

/-- `HexEncode`, hex-encode.cpp 38-59; `finalize` is that of `Transform`, transform-base.cpp 126-130. -/
def hexEncodeMod (upper : Bool) : Mod :=
  ⟨Unit, (), fun _ => 0, fun s => (s, []), .nothing, fun s b => some (s, Hex.hexEncode upper b, b.length), fun s => some (s, none), .flush⟩

/-- `HexDecode`, hex-decode.cpp 48-105; the state is the odd octet. -/
def hexDecodeMod : Mod :=
  ⟨Option UInt8, none, fun _ => 0, fun s => (s, []), .nothing,
    fun s b => (Hex.hexConvert s b).map (fun r => (r.1, r.2, b.length)), fun s => if s.isSome then none else some (s, none), .nothing⟩

/-- `StripSpace`, strip-space.cpp 35-49. -/
def stripSpaceMod (ws : UInt8 → Bool) : Mod :=
  ⟨Unit, (), fun _ => 0, fun s => (s, []), .nothing, fun s b => some (s, Hex.stripSpace ws b, b.length), fun s => some (s, none), .flush⟩

/-- `DigestFilter`, digest-filter.cpp 48-71, `SignerFilter`, signer-filter.cpp 57-84, `VerifierFilter`, verifier-filter.cpp
86-127: all input is put into a context; in the end there is a result, `f`, or an exception. -/
def contextMod (f : Bytes → Option Bytes) : Mod :=
  ⟨Bytes, [], fun _ => 0, fun s => (s, []), .nothing, fun s b => some (s ++ b, [], b.length), fun s => (f s).map (fun r => (s, some r)), .flush⟩

/-- An OpenSSL filter BIO: `out x` is what can be read from it once `x` has been written, `final x` what can be read once it
has been flushed (or the end of the input has been set); `none`: flushing fails. -/
structure Engine where
  out : Bytes → Bytes
  final : Bytes → Option Bytes

/-- The input so far, whether it is complete, and how much of the output has been read. -/
structure BioSt where
  seen : Bytes
  done : Bool
  read : Nat

/-- What can be read. -/
def BioSt.rest (e : Engine) (s : BioSt) : Bytes := ((if s.done then (e.final s.seen).getD [] else e.out s.seen)).drop s.read

/-- `Base64Encode`, base64-encode.cpp 61-122, `BlockCipher`, block-cipher.cpp 71-133: `fillOutputBuffer` reads all that can be
read. -/
def bioMod (e : Engine) : Mod where
  σ := BioSt
  init := ⟨[], false, 0⟩
  avail s := (s.rest e).length
  fill s := ({ s with read := s.read + (s.rest e).length }, s.rest e)
  pre := .once
  convert s b :=
    match b with
    | [] => some (s, [], 0)
    | _ => let s' : BioSt := { s with seen := s.seen ++ b }; some ({ s' with read := s'.read + (s'.rest e).length }, s'.rest e, b.length)
  close s := match e.final s.seen with
    | none => none
    | some _ => some ({ s with done := true }, none)
  fin := .drain

/-- `Base64Decode`, base64-decode.cpp 63-125: `fillOutputBuffer` reads at most 1024 octets; `convert` only writes. A decoder has
no errors: input that is not base64 ends the output. -/
def bioDecodeMod (e : Engine) : Mod where
  σ := BioSt
  init := ⟨[], false, 0⟩
  avail s := (s.rest e).length
  fill s := ({ s with read := s.read + ((s.rest e).take 1024).length }, (s.rest e).take 1024)
  pre := .loop
  convert s b := some ({ s with seen := s.seen ++ b }, [], b.length)
  close s := some ({ s with done := true }, none)
  fin := .read

/-! ### Transforms in a chain -/

/-- `m_isEnd`, the state of the module, and `m_oBuffer` from `m_outputOffset`. -/
structure Node (σ : Type) where
  st : σ
  obuf : Bytes
  ended : Bool

/-- `flushOutputBuffer`, transform-base.cpp 66-74. -/
def flushBuf (d : Iface) (ob : Bytes) (ds : d.St) : Except Err (Bytes × d.St) :=
  if ob = [] then .ok (ob, ds)
  else match d.write ds ob with
    | .error e => .error e
    | .ok (ds', n) => .ok (ob.drop n, ds')

/-- `flushAllOutput`, transform-base.cpp 76-82. -/
def flushAll (d : Iface) : Nat → Bytes → d.St → Except Err d.St
  | 0, ob, ds => if ob = [] then .ok ds else .error .endless
  | f + 1, ob, ds =>
    if ob = [] then .ok ds
    else match flushBuf d ob ds with
      | .error e => .error e
      | .ok (ob', ds') => flushAll d f ob' ds'

/-- `Base64Decode::preTransform`, base64-decode.cpp 63-74, with an empty output buffer. -/
def preLoop (m : Mod) (d : Iface) : Nat → m.σ → d.St → Except Err (m.σ × Bytes × d.St)
  | 0, _, _ => .error .endless
  | f + 1, s, ds =>
    let r := m.fill s
    if r.2 = [] then .ok (r.1, [], ds)
    else match flushBuf d r.2 ds with
      | .error e => .error e
      | .ok (ob, ds') => if ob = [] then preLoop m d f r.1 ds' else .ok (r.1, ob, ds')

/-- `preTransform`, with an empty output buffer: base64-encode.cpp 61-65, base64-decode.cpp 63-74. -/
def preTransform (m : Mod) (d : Iface) (s : m.σ) (ds : d.St) : Except Err (m.σ × Bytes × d.St) :=
  match m.pre with
  | .nothing => .ok (s, [], ds)
  | .once => let r := m.fill s; .ok (r.1, r.2, ds)
  | .loop => preLoop m d (m.avail s + 1) s ds

/-- `Transform::doWrite`, transform-base.cpp 98-113. -/
def doWrite (i : Nat) (m : Mod) (d : Iface) (n : Node m.σ) (ds : d.St) (b : Bytes) : Except Err ((Node m.σ × d.St) × Nat) :=
  match flushBuf d n.obuf ds with
  | .error e => .error e
  | .ok (ob, ds) =>
    if ob ≠ [] then .ok (({ n with obuf := ob }, ds), 0)
    else match preTransform m d n.st ds with
      | .error e => .error e
      | .ok (s, ob, ds) =>
        match flushBuf d ob ds with
        | .error e => .error e
        | .ok (ob, ds) =>
          if ob ≠ [] then .ok (({ n with st := s, obuf := ob }, ds), 0)
          else match m.convert s b with
            | none => .error (.refused i)
            | some (s, out, k) =>
              match flushBuf d out ds with
              | .error e => .error e
              | .ok (ob, ds) => .ok (({ n with st := s, obuf := ob }, ds), k)

/-- `finalize` of base64-encode.cpp 87-99: `while (!isConverterEmpty())`. -/
def drainLoop (m : Mod) (d : Iface) : Nat → m.σ → d.St → Except Err d.St
  | 0, _, _ => .error .endless
  | f + 1, s, ds =>
    let r := m.fill s
    if r.2 = [] then .ok ds
    else match flushAll d r.2.length r.2 ds with
      | .error e => .error e
      | .ok ds' => drainLoop m d f r.1 ds'

/-- `finalize` of base64-decode.cpp 94-106; `ob` is the output buffer. -/
def readLoop (m : Mod) (d : Iface) : Nat → m.σ → Bytes → d.St → Except Err d.St
  | 0, _, _, _ => .error .endless
  | f + 1, s, ob, ds =>
    if ob = [] then .ok ds
    else match flushBuf d ob ds with
      | .error e => .error e
      | .ok (ob', ds') => if ob' = [] then let r := m.fill s; readLoop m d f r.1 r.2 ds' else readLoop m d f s ob' ds'

/-- `finalize` of the modules. `setOutputBuffer` asserts that the buffer is empty, transform-base.cpp 84-90. -/
def finalize (i : Nat) (m : Mod) (d : Iface) (n : Node m.σ) (ds : d.St) : Except Err d.St :=
  match m.close n.st with
  | none => .error (.refused i)
  | some (s, new) =>
    match new with
    | some b => if n.obuf ≠ [] then .error .asserted else flushAll d b.length b ds
    | none =>
      match m.fin with
      | .nothing => .ok ds
      | .flush => flushAll d n.obuf.length n.obuf ds
      | .drain => if n.obuf ≠ [] ∧ m.avail s ≠ 0 then .error .asserted else drainLoop m d (m.avail s + 1) s ds
      | .read =>
        if n.obuf ≠ [] ∧ m.avail s ≠ 0 then .error .asserted
        else if n.obuf ≠ [] then readLoop m d (n.obuf.length + 1) s n.obuf ds
        else let r := m.fill s; readLoop m d (m.avail s + 1) r.1 r.2 ds

/-- A module with index `i` in front of what follows it; `Downstream::write` and `end`, transform-base.cpp 32-51, `doEnd`,
115-120. -/
def attach (i : Nat) (m : Mod) (d : Iface) : Iface where
  St := Node m.σ × d.St
  write x b := if x.1.ended then .error (.closed i) else doWrite i m d x.1 x.2 b
  fin x :=
    if x.1.ended then .ok x
    else match finalize i m d x.1 x.2 with
      | .error e => .error e
      | .ok ds => match d.fin ds with
        | .error e => .error e
        | .ok ds' => .ok ({ x.1 with ended := true }, ds')
  sink x := d.sink x.2

/-- `source >> module >> … >> sink`: the modules get the indices 1, 2, …; transform-base.cpp 138-155. -/
def chain : Nat → List Mod → Iface
  | i, [] => sinkIface i
  | i, m :: ms => attach i m (chain (i + 1) ms)

/-- The chain before anything is written. -/
def chainInit (v : SinkVal) : (i : Nat) → (ms : List Mod) → (chain i ms).St
  | _, [] => (⟨v, false⟩ : SinkSt)
  | i, m :: ms => ((⟨m.init, [], false⟩ : Node m.σ), chainInit v (i + 1) ms)

/-! ### Sources -/

/-- The loop of `BufferSource::doPump` on one buffer, buffer-source.cpp 45-50. -/
def pumpOne (d : Iface) : Nat → d.St → Bytes → Except Err d.St
  | 0, s, b => if b = [] then .ok s else .error .endless
  | f + 1, s, b =>
    if b = [] then .ok s
    else match d.write s b with
      | .error e => .error e
      | .ok (s', n) => pumpOne d f s' (b.drop n)

/-- `BufferSource::doPump`, buffer-source.cpp 41-54. -/
def pump (d : Iface) (s : d.St) : List Bytes → Except Err d.St
  | [] => d.fin s
  | b :: bs => match pumpOne d b.length s b with
    | .error e => .error e
    | .ok s' => pump d s' bs

/-- An input stream: what is still in it, `eof`, and whether it breaks (`badbit`) once that is used up. -/
structure IStream where
  rest : Bytes
  eof : Bool
  breaks : Bool

/-- `StreamSource::doPump`, stream-source.cpp 37-65: `buf` is the leftover in the buffer, `bad` the badbit. The loop ends at the
end of the stream; `read` of `k` octets at the end of the stream sets eof, or the badbit. -/
def streamPump (d : Iface) (k : Nat) : Nat → d.St → Bytes → IStream → Bool → Except Err d.St
  | 0, _, _, _, _ => .error .endless
  | f + 1, s, buf, is, bad =>
    if buf ≠ [] then
      match d.write s buf with
      | .error e => .error e
      | .ok (s', n) => streamPump d k f s' (buf.drop n) is bad
    else if is.eof then d.fin s
    else if bad then .error .badStream
    else
      let got := is.rest.take k
      if got.length < k then
        if is.breaks then streamPump d k f s got { is with rest := [] } true
        else streamPump d k f s got { is with rest := [], eof := true } false
      else streamPump d k f s got { is with rest := is.rest.drop k } false

/-- `streamSource(is, k) >> …`: enough iterations. -/
def streamRun (d : Iface) (k : Nat) (s : d.St) (is : IStream) : Except Err d.St :=
  streamPump d k (2 * is.rest.length + 4) s [] is false

/-! ### Users of pipelines -/

/-- The output of a stream sink. -/
def outOf : Except Err SinkSt → Except Err Bytes
  | .ok ⟨.stream out _, _⟩ => .ok out
  | .ok _ => .ok []
  | .error e => .error e

/-- A pipeline from buffers to a stream. -/
def runBuffers (ms : List Mod) (bs : List Bytes) : Except Err Bytes :=
  outOf ((pump (chain 1 ms) (chainInit (.stream [] 0) 1 ms) bs).map (chain 1 ms).sink)

/-- A pipeline from an input stream, read `k` octets at a time, to a stream. -/
def runStream (ms : List Mod) (k : Nat) (is : IStream) : Except Err Bytes :=
  outOf ((streamRun (chain 1 ms) k (chainInit (.stream [] 0) 1 ms) is).map (chain 1 ms).sink)

/-- Calls on a `StepSource`, step-source.cpp 26-36. -/
inductive SOp where
  | write (b : Bytes)
  | fin

/-- What they do: the octets taken, or `closed`: an exception because of an earlier `end()`. -/
inductive SObs where
  | wrote (n : Nat)
  | closed
  | ended
  deriving DecidableEq, Repr

/-- Some calls on a step source with a chain. An exception for another reason ends the history. -/
def stepRun (d : Iface) (s : d.St) (log : List SObs) : List SOp → Except Err (d.St × List SObs)
  | [] => .ok (s, log)
  | .write b :: ops => match d.write s b with
    | .ok (s', n) => stepRun d s' (log ++ [.wrote n]) ops
    | .error (.closed _) => stepRun d s (log ++ [.closed]) ops
    | .error e => .error e
  | .fin :: ops => match d.fin s with
    | .ok s' => stepRun d s' (log ++ [.ended]) ops
    | .error e => .error e

/-! ### Digests -/

/-- `step source >> digestFilter(SHA256) >> streamSink`. -/
def shaChain (sha : Bytes → Bytes) : Iface := chain 1 [contextMod (fun x => some (sha x))]

/-- `util::Sha256`, util/sha256.hpp: the pipeline, `m_isEmpty`, `m_isFinalized`. -/
structure Sha (sha : Bytes → Bytes) where
  st : (shaChain sha).St
  empty : Bool
  finalized : Bool

/-- `reset`, util/sha256.cpp 48-59. -/
def Sha.new (sha : Bytes → Bytes) : Sha sha := ⟨chainInit (.stream [] 0) 1 [contextMod (fun x => some (sha x))], true, false⟩

/-- `update`, 114-123; `none`: an exception. -/
def Sha.update {sha} (h : Sha sha) (b : Bytes) : Option (Sha sha) :=
  if h.finalized then none
  else match (shaChain sha).write h.st b with
    | .ok (s, _) => some { h with st := s, empty := false }
    | .error _ => none

/-- `computeDigest`, 61-71. -/
def Sha.digest {sha} (h : Sha sha) : Sha sha × Bytes :=
  let out := fun (s : (shaChain sha).St) => match ((shaChain sha).sink s).val with | .stream o _ => o | _ => []
  if h.finalized then (h, out h.st)
  else match (shaChain sha).fin h.st with
    | .ok s => ({ h with st := s, finalized := true }, out s)
    | .error _ => (h, [])

/-- Calls on several objects. -/
inductive ShaOp where
  | reset (i : Nat)
  /-- `operator<<` of octets, of a string, or of a number (its octets in memory). -/
  | update (i : Nat) (b : Bytes)
  | digest (i : Nat)
  | empty (i : Nat)
  /-- `operator==`, 73-86. -/
  | eq (i j : Nat)
  /-- `operator<<(Sha256&)`, 88-93. -/
  | append (i j : Nat)

inductive ShaObs where
  | nothing
  | threw
  | octets (b : Bytes)
  | bool (b : Bool)
  deriving DecidableEq, Repr

def put {α : Type} (f : Nat → α) (i : Nat) (x : α) : Nat → α := fun j => if j = i then x else f j

def shaStep {sha} (f : Nat → Sha sha) : ShaOp → (Nat → Sha sha) × ShaObs
  | .reset i => (put f i (.new sha), .nothing)
  | .update i b => match (f i).update b with
    | some h => (put f i h, .nothing)
    | none => (f, .threw)
  | .digest i => let r := (f i).digest; (put f i r.1, .octets r.2)
  | .empty i => (f, .bool (f i).empty)
  | .eq i j =>
    let a := (f i).digest
    let f := put f i a.1
    let b := (f j).digest
    (put f j b.1, .bool (if a.2.length ≠ b.2.length then false else a.2 == b.2))
  | .append i j =>
    let b := (f j).digest
    let f := put f j b.1
    match (f i).update b.2 with
    | some h => (put f i h, .nothing)
    | none => (f, .threw)

def shaRun {sha} (x : (Nat → Sha sha) × List ShaObs) : List ShaOp → (Nat → Sha sha) × List ShaObs
  | [] => x
  | op :: ops => let r := shaStep x.1 op; shaRun (r.1, x.2 ++ [r.2]) ops

/-! ### Signatures -/

/-- `VerifierFilter::finalize`, verifier-filter.cpp 99-127: with an HMAC key the octets of the HMAC and of the signature are
compared as far as both reach. -/
def hmacOk (hmac sig : Bytes) : Bool :=
  let n := min hmac.length sig.length
  hmac.take n == sig.take n

/-- A key: an HMAC key, given by its HMACs, or a public key, given by what it verifies. -/
inductive VKey where
  | hmac (mac : Bytes → Bytes)
  | pub (verifies : Bytes → Bytes → Bool)

/-- `finalize`, verifier-filter.cpp 99-127: `ok`. -/
def VKey.accepts : VKey → Bytes → Bytes → Bool
  | .hmac mac, x, sig => hmacOk (mac x) sig
  | .pub v, x, sig => v x sig

/-- `verifierFilter(SHA256, key, sig)`, verifier-filter.cpp 86-127: one octet. -/
def verifierMod (key : VKey) (sig : Bytes) : Mod := contextMod (fun x => some [if key.accepts x sig then 1 else 0])

/-- `verifySignature(blobs, sig, key)`, verification-helpers.cpp 60-76, and `KeyHandleMem::doVerify`, tpm/impl/key-handle-mem.cpp
49-59: the result is `false` unless the pipeline says otherwise. -/
def verifyBlobs (blobs : List Bytes) (sig : Bytes) (key : VKey) : Bool :=
  let ms := [verifierMod key sig]
  match pump (chain 1 ms) (chainInit (.bool false false) 1 ms) blobs with
  | .error _ => false
  | .ok s => match ((chain 1 ms).sink s).val with
    | .bool v _ => v
    | _ => false

/-- `verifyDigest`, verification-helpers.cpp 155-179. -/
def verifyDigest (sha : Bytes → Bytes) (blobs : List Bytes) (sig : Bytes) : Bool :=
  if blobs = [] then false
  else match runBuffers [contextMod (fun x => some (sha x))] blobs with
    | .error _ => false
    | .ok d => if d.length ≠ sig.length then false else d == sig

/-- `IoEncoding`, util/io.hpp. -/
inductive Enc where
  | none
  | base64
  | hex
  deriving DecidableEq, Repr

/-- OpenSSL's base64: encoding with a line break after every 64 characters and decoding without. -/
structure Base64 where
  enc : Engine
  dec : Engine

/-- `saveBuffer`, util/io.cpp 61-85: what is written to the stream. -/
def saveBuffer (B : Base64) (buf : Bytes) : Enc → Except Err Bytes
  | .none => runBuffers [] [buf]
  | .base64 => runBuffers [bioMod B.enc] [buf]
  | .hex => runBuffers [hexEncodeMod true] [buf]

/-- `loadBuffer`, util/io.cpp 34-59; the stream is read 1024 octets at a time, stream-source.hpp. -/
def loadBuffer (B : Base64) (is : IStream) : Enc → Except Err Bytes
  | .none => runStream [] 1024 is
  | .base64 => runStream [stripSpaceMod (fun c => c = 10), bioDecodeMod B.dec] 1024 is
  | .hex => runStream [hexDecodeMod] 1024 is

end Ndn.Pipe
