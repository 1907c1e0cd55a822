import Verif.Packet.Model
/-
Model of ndn::Interest: ndn-cxx/interest.{hpp,cpp}.

`H` is SHA-256, `auto` is `s_autoCheckParametersDigest` (interest.hpp 535, default true). Random
nonces are arguments of the calls that may draw one. Nested blocks, sizes and encoders are treated as
in Verif/Packet/Model.lean.
-/
namespace Ndn.Interest
open Tlv Block Name Packet

/-- Members of `Interest` other than `m_wire`, interest.hpp 516-531. -/
structure IFields where
  name : List Comp
  canBePrefix : Bool
  mustBeFresh : Bool
  hint : List (List Comp)
  nonce : Option Bytes
  lifetime : Nat
  hopLimit : Option UInt8
  params : List Raw
  deriving DecidableEq, Repr, Inhabited

/-- `DEFAULT_INTEREST_LIFETIME`, interest.hpp 43. -/
def defaultLifetime : Nat := 4000

structure IObj where
  f : IFields
  wire : Option Raw
  deriving DecidableEq, Repr

/-- `Component::isParametersSha256Digest`, name-component.cpp 420-424. -/
def isParamsDigest (c : Comp) : Bool := c.type = 2 && c.value.length = 32

/-- `Component::isImplicitSha256Digest`, name-component.cpp 414-418. -/
def isImplicitDigest (c : Comp) : Bool := c.type = 1 && c.value.length = 32

/-- The loop of `findParametersDigestComponent`, interest.cpp 749-761: `i` the index of the head of
the list, `pos` the index found so far. -/
def findDigestLoop : Nat → Int → List Comp → Int
  | _, pos, [] => pos
  | i, pos, c :: cs =>
    if isParamsDigest c then
      if pos ≠ -1 then -2 else findDigestLoop (i + 1) i cs
    else findDigestLoop (i + 1) pos cs

def findDigest (n : List Comp) : Int := findDigestLoop 0 (-1) n

/-- `computeParametersDigest`, interest.cpp 712-727. -/
def paramsDigest (H : Bytes → Bytes) (ps : List Raw) : Bytes := H ((ps.map Raw.wire).flatten)

/-- `isParametersDigestValid`, interest.cpp 691-710 (index -2 is excluded by an assertion). -/
def IFields.digestValid (H : Bytes → Bytes) (f : IFields) : Bool :=
  let i := findDigest f.name
  if i = -1 then f.params = []
  else if f.params = [] then false
  else
    match f.name[i.toNat]? with
    | none => false
    | some c => c.value = paramsDigest H f.params

/-- `addOrReplaceParametersDigestComponent`, interest.cpp 729-747. -/
def addOrReplace (H : Bytes → Bytes) (n : List Comp) (ps : List Raw) : List Comp :=
  let i := findDigest n
  if i = -1 then n ++ [⟨2, paramsDigest H ps⟩] else n.set i.toNat ⟨2, paramsDigest H ps⟩

/-! ### Encoding -/

/-- The elements between the Name and the parameters, interest.cpp 83-113. `getNonce` has been
called: `nonce` is present. -/
def IFields.encode (f : IFields) : Bytes :=
  tlvBytes 5 (encodeComps f.name ++
    (if f.canBePrefix then tlvBytes 33 [] else []) ++
    (if f.mustBeFresh then tlvBytes 18 [] else []) ++
    (if f.hint ≠ [] then tlvBytes 30 ((f.hint.map encodeComps).flatten) else []) ++
    (match f.nonce with | some n => tlvBytes 10 n | none => []) ++
    (if f.lifetime ≠ defaultLifetime then nniTlv 12 f.lifetime else []) ++
    (match f.hopLimit with | some h => tlvBytes 34 [h] | none => []) ++
    (f.params.map Raw.wire).flatten)

/-- The sanity check at the start of `wireEncode(encoder)`, interest.cpp 66-76. -/
def IFields.encodable (f : IFields) : Bool :=
  if findDigest f.name = -1 then f.params = [] else f.params ≠ []

/-! ### Decoding -/

/-- One element of a ForwardingHint, interest.cpp 215-241: `none` is an exception, `some none` an
ignored element. -/
def hintElem (d : Raw) : Option (Option (List Comp)) :=
  if d.type = 7 then (nameOf d).map some
  else if d.type = 31 then
    match parseElements d.value with
    | none => none
    | some es =>
      match es.find? (fun e => e.type = 7) with
      | none => none
      | some n => (nameOf n).map some
  else if isCriticalType d.type then none
  else some none

/-- The loop over a ForwardingHint: outcome and `m_forwardingHint`. -/
def hintLoop : List (List Comp) → List Raw → Bool × List (List Comp)
  | acc, [] => (true, acc)
  | acc, d :: ds =>
    match hintElem d with
    | none => (false, acc)
    | some none => hintLoop acc ds
    | some (some n) => hintLoop (acc ++ [n]) ds

/-- ForwardingHint element, interest.cpp 202-245. -/
def hintDecode (acc : List (List Comp)) (b : Raw) : Bool × List (List Comp) :=
  match parseElements b.value with
  | none => (false, acc)
  | some ds => hintLoop acc ds

/-- The loop of `Interest::wireDecode`, interest.cpp 180-299. -/
def iLoop : IFields → Nat → List Raw → Bool × IFields
  | f, _, [] => (true, f)
  | f, last, e :: es =>
    if e.type = 33 then
      if last ≥ 2 then (false, f)
      else if e.value.length ≠ 0 then (false, f)
      else iLoop { f with canBePrefix := true } 2 es
    else if e.type = 18 then
      if last ≥ 3 then (false, f)
      else if e.value.length ≠ 0 then (false, f)
      else iLoop { f with mustBeFresh := true } 3 es
    else if e.type = 30 then
      if last ≥ 4 then (false, f)
      else
        let r := hintDecode f.hint e
        if r.1 then iLoop { f with hint := r.2 } 4 es else (false, { f with hint := r.2 })
    else if e.type = 10 then
      if last ≥ 5 then (false, f)
      else if e.value.length ≠ 4 then (false, f)
      else iLoop { f with nonce := some e.value } 5 es
    else if e.type = 12 then
      if last ≥ 6 then (false, f)
      else match readNniValue e.value with
        | none => (false, f)
        | some n => iLoop { f with lifetime := n } 6 es
    else if e.type = 34 then
      if last ≥ 7 then iLoop f last es
      else match e.value with
        | [h] => iLoop { f with hopLimit := some h } 7 es
        | _ => (false, f)
    else if e.type = 36 then
      if last ≥ 8 then iLoop f last es
      else iLoop { f with params := f.params ++ [e] } 8 es
    else if isCriticalType e.type then (false, f)
    else if f.params ≠ [] then iLoop { f with params := f.params ++ [e] } last es
    else iLoop f last es

/-- Everything reset before the loop, interest.cpp 170-178. -/
def IFields.cleared (n : List Comp) : IFields := ⟨n, false, false, [], none, defaultLifetime, none, []⟩

/-- `Interest::wireDecode`, interest.cpp 141-306. -/
def IObj.wireDecode (H : Bytes → Bytes) (auto : Bool) (o : IObj) (b : Raw) : Bool × IObj :=
  if b.type ≠ 5 then (false, o)
  else
    let o := { o with wire := some b }
    match parseElements b.value with
    | none => (false, o)
    | some [] => (false, o)
    | some (n :: es) =>
      if n.type ≠ 7 then (false, o)
      else match nameOf n with
        | none => (false, o)
        | some nm =>
          if nm = [] then (false, o)
          else if findDigest nm = -2 then (false, o)
          else
            let q := iLoop (IFields.cleared nm) 1 es
            if q.1 then (!auto || q.2.digestValid H, ⟨q.2, some b⟩) else (false, ⟨q.2, some b⟩)

/-- `Interest()`, `Interest(name)`, interest.cpp 36-43. -/
def IObj.init : IObj := ⟨IFields.cleared [], none⟩

/-- Decoding into a new object. -/
def interestDecode (H : Bytes → Bytes) (auto : Bool) (b : Raw) : Option IFields :=
  match IObj.init.wireDecode H auto b with
  | (true, o) => some o.f
  | (false, _) => none

/-- `getNonce`, interest.cpp 408-416; `rnd` is the random number drawn if there is no nonce. -/
def IObj.getNonce (o : IObj) (rnd : Bytes) : IObj × Bytes :=
  match o.f.nonce with
  | some n => (o, n)
  | none => (⟨{ o.f with nonce := some rnd }, none⟩, rnd)

/-- `Interest::wireEncode()`, interest.cpp 121-139; `none` is an exception. -/
def IObj.wireEncode (H : Bytes → Bytes) (auto : Bool) (o : IObj) (rnd : Bytes) : IObj × Option Raw :=
  match o.wire with
  | some b => (o, some b)
  | none =>
    if !o.f.encodable then (o, none)
    else
      let o := (o.getNonce rnd).1
      match fromRange o.f.encode true with
      | none => (o, none)
      | some b =>
        let r := o.wireDecode H auto b
        (r.2, if r.1 then some b else none)

/-! ### Matching -/

/-- `Interest::matchesData`, interest.cpp 318-341: `fullName` is the result of
`data.getFullName()`, `none` if that throws; the result `none` is an exception. -/
def matchesData (f : IFields) (dataName : List Comp) (fullName : Option (List Comp)) : Option Bool :=
  if f.name.length = dataName.length + 1 then
    if (f.name.getLast?.map isImplicitDigest).getD false then
      match fullName with
      | none => none
      | some fn => some (decide (f.name = fn))
    else some false
  else if f.canBePrefix then some (f.name.isPrefixOf dataName)
  else some (decide (f.name = dataName))

/-- `Interest::matchesInterest`, interest.cpp 343-349. -/
def matchesInterest (a b : IFields) : Bool :=
  a.name = b.name && a.canBePrefix == b.canBePrefix && a.mustBeFresh == b.mustBeFresh

/-! ### Parameters and signature -/

/-- `findFirstParameter`, interest.cpp 763-769: position of the first element of the type, or the
number of elements. -/
def firstParam (t : Nat) (ps : List Raw) : Nat := ps.findIdx (fun b => b.type = t)

/-- `setApplicationParametersInternal` on `m_parameters`, interest.cpp 475-490. -/
def setParam0 (b : Raw) : List Raw → List Raw
  | [] => [b]
  | _ :: ps => b :: ps

/-- Insertion before position `i` (`std::vector::insert`). -/
def insertAt (i : Nat) (b : Raw) (ps : List Raw) : List Raw := ps.take i ++ b :: ps.drop i

/-- Calls on an Interest. -/
inductive IOp where
  | setName (n : List Comp)
  | setCanBePrefix (x : Bool)
  | setMustBeFresh (x : Bool)
  | setForwardingHint (l : List (List Comp))
  | getNonce (rnd : Bytes)
  | setNonce (n : Option Bytes)
  | refreshNonce (rnds : List Bytes)
  | setLifetime (ms : Int)
  | setHopLimit (h : Option UInt8)
  | setParamsBlock (b : Raw)
  | setParams (v : Bytes)
  | unsetParams
  | setSigInfo (s : SObj)
  | setSigValue (v : Bytes)
  | wireEncode (rnd : Bytes)
  | wireDecode (b : Raw)

/-- `setApplicationParametersInternal`, interest.cpp 475-490. -/
def IObj.setParamsInternal (H : Bytes → Bytes) (o : IObj) (b : Raw) : IObj :=
  let ps := setParam0 b o.f.params
  ⟨{ o.f with params := ps, name := addOrReplace H o.f.name ps }, none⟩

/-- `setSignatureInfo`, interest.cpp 561-597: outcome and object. `info.wireEncode` may throw after
the empty ApplicationParameters has been added. -/
def IObj.setSigInfo (H : Bytes → Bytes) (o : IObj) (s : SObj) : Bool × IObj :=
  let ps := if o.f.params = [] then [binaryBlock 36 []] else o.f.params
  match s.wireEncode 44 with
  | none => (false, ⟨{ o.f with params := ps }, o.wire⟩)
  | some (_, enc) =>
    let i := firstParam 44 ps
    match ps[i]? with
    | some old =>
      if old.equals enc then (true, ⟨{ o.f with params := ps }, o.wire⟩)
      else
        let ps := ps.set i enc
        (true, ⟨{ o.f with params := ps, name := addOrReplace H o.f.name ps }, none⟩)
    | none =>
      let ps := insertAt (firstParam 46 ps) enc ps
      (true, ⟨{ o.f with params := ps, name := addOrReplace H o.f.name ps }, none⟩)

/-- `setSignatureValueInternal`, interest.cpp 605-638. -/
def IObj.setSigValue (H : Bytes → Bytes) (o : IObj) (v : Bytes) : Bool × IObj :=
  let b := binaryBlock 46 v
  let i := firstParam 44 o.f.params
  if i ≥ o.f.params.length then (false, o)
  else
    let j := firstParam 46 o.f.params
    match o.f.params[j]? with
    | some old =>
      if old.equals b then (true, o)
      else
        let ps := o.f.params.set j b
        (true, ⟨{ o.f with params := ps, name := addOrReplace H o.f.name ps }, none⟩)
    | none =>
      let ps := insertAt (i + 1) b o.f.params
      (true, ⟨{ o.f with params := ps, name := addOrReplace H o.f.name ps }, none⟩)

/-- One call: whether it returned, and the object; interest.cpp 353-641. `refreshNonce` draws until
the nonce differs; it does not return if all the given draws equal the old one. -/
def IObj.step (H : Bytes → Bytes) (auto : Bool) (o : IObj) : IOp → Bool × IObj
  | .setName n =>
    if findDigest n = -2 then (false, o)
    else if n ≠ o.f.name then
      (true, ⟨{ o.f with name := if o.f.params ≠ [] then addOrReplace H n o.f.params else n }, none⟩)
    else (true, o)
  | .setCanBePrefix x => if x ≠ o.f.canBePrefix then (true, ⟨{ o.f with canBePrefix := x }, none⟩) else (true, o)
  | .setMustBeFresh x => if x ≠ o.f.mustBeFresh then (true, ⟨{ o.f with mustBeFresh := x }, none⟩) else (true, o)
  | .setForwardingHint l => (true, ⟨{ o.f with hint := l }, none⟩)
  | .getNonce rnd => (true, (o.getNonce rnd).1)
  | .setNonce n => if n ≠ o.f.nonce then (true, ⟨{ o.f with nonce := n }, none⟩) else (true, o)
  | .refreshNonce rnds =>
    match o.f.nonce with
    | none => (true, o)
    | some old =>
      match rnds.find? (fun r => r ≠ old) with
      | none => (false, o)
      | some r => (true, ⟨{ o.f with nonce := some r }, none⟩)
  | .setLifetime ms =>
    if ms < 0 then (false, o)
    else if ms.toNat ≠ o.f.lifetime then (true, ⟨{ o.f with lifetime := ms.toNat }, none⟩)
    else (true, o)
  | .setHopLimit h => if h ≠ o.f.hopLimit then (true, ⟨{ o.f with hopLimit := h }, none⟩) else (true, o)
  | .setParamsBlock b => (true, o.setParamsInternal H (if b.type = 36 then b else binaryBlock 36 b.wire))
  | .setParams v => (true, o.setParamsInternal H (binaryBlock 36 v))
  | .unsetParams =>
    let i := findDigest o.f.name
    (true, ⟨{ o.f with params := [], name := if i ≥ 0 then o.f.name.eraseIdx i.toNat else o.f.name }, none⟩)
  | .setSigInfo s => o.setSigInfo H s
  | .setSigValue v => o.setSigValue H v
  | .wireEncode rnd => let r := o.wireEncode H auto rnd; (r.2.isSome, r.1)
  | .wireDecode b => o.wireDecode H auto b

/-- Run of calls: the object afterwards. -/
def run (H : Bytes → Bytes) (auto : Bool) (o : IObj) (ops : List IOp) : IObj :=
  ops.foldl (fun o op => (o.step H auto op).2) o

/-- `getInterestLifetime`, interest.cpp 441-448: clamped to the largest `milliseconds`. -/
def IFields.getLifetime (f : IFields) : Nat := if f.lifetime > 2 ^ 63 - 1 then 2 ^ 63 - 1 else f.lifetime

/-- `isSigned`, interest.cpp 541-549 (`getSignatureInfo` decodes the element; a malformed one makes
it throw inside a `noexcept` function, i.e. terminate: `none`). -/
def IFields.isSigned (f : IFields) : Option Bool :=
  if f.params.length < 3 then some false
  else match f.params.find? (fun b => b.type = 44) with
    | none => some false
    | some b =>
      if (SigInfo.wireDecode b 44).1 then
        some ((f.params.find? (fun b => b.type = 46)).isSome &&
          (f.name.getLast?.map (fun c => c.type == 2)).getD false)
      else none

/-! ### Signed ranges -/

/-- The octets of the second range of `extractSignedRanges`, interest.cpp 676-686, on the elements
`es` of `m_wire` after the Name: from the first ApplicationParameters to the last stored parameter
before the first InterestSignatureValue. Elements of type 34 and 36 after the first
ApplicationParameters are not stored (252-271). -/
def paramsRange (es : List Raw) : Bytes :=
  match es.dropWhile (fun e => e.type ≠ 36) with
  | [] => []
  | p :: post =>
    let seg := post.takeWhile (fun e => e.type ≠ 46)
    let seg := (seg.reverse.dropWhile (fun e => e.type = 34 || e.type = 36)).reverse
    p.wire ++ (seg.map Raw.wire).flatten

/-- `extractSignedRanges`, interest.cpp 656-687, after its `wireEncode()`: `none` is an exception.
The members were decoded from `m_wire`, so they share its buffer. -/
def signedRanges (b : Raw) (f : IFields) : Option (Bytes × Bytes) :=
  match parseElements b.value with
  | some (n :: es) =>
    match parseElements n.value with
    | some cs =>
      if (f.name.getLast?.map (fun c => c.type == 2)).getD false then
        if firstParam 44 f.params ≥ f.params.length then none
        else some ((cs.dropLast.map Raw.wire).flatten, paramsRange es)
      else none
    | none => none
  | _ => none

/-- `Interest::extractSignedRanges()`. -/
def IObj.extractSignedRanges (H : Bytes → Bytes) (auto : Bool) (o : IObj) (rnd : Bytes) :
    IObj × Option (Bytes × Bytes) :=
  match o.wireEncode H auto rnd with
  | (o, none) => (o, none)
  | (o, some b) => (o, signedRanges b o.f)

end Ndn.Interest
