import Verif.Net.Re
import Verif.Name.Model
/-
Model of ndn-cxx/net/ethernet.{hpp,cpp}, ndn-cxx/net/face-uri.{hpp,cpp} and ndn-cxx/net/dns.{hpp,cpp}. Strings are byte
lists. `boost::asio::ip` is a parameter (structure `Ip`); `std::regex` is Net/Re.lean; `std::sscanf` is modelled for the one
format string that is used.
-/
namespace Ndn.Net

/-- The octet of a character. -/
abbrev ch (c : Char) : UInt8 := UInt8.ofNat c.toNat

/-! ### Ethernet addresses -/

/-- `ethernet::Address`, net/ethernet.hpp 48-104: six octets. -/
structure Mac where
  a0 : UInt8
  a1 : UInt8
  a2 : UInt8
  a3 : UInt8
  a4 : UInt8
  a5 : UInt8
deriving DecidableEq, Repr

/-- `Address()`, ethernet.cpp 39-42. -/
def Mac.null : Mac := ⟨0, 0, 0, 0, 0, 0⟩

/-- `Address::isBroadcast`, `isMulticast` and `isNull`, ethernet.cpp 59-75; `getBroadcastAddress`, 114-118. -/
def Mac.isBroadcast (a : Mac) : Bool := a = ⟨255, 255, 255, 255, 255, 255⟩
def Mac.isMulticast (a : Mac) : Bool := a.a0 &&& 1 ≠ 0
def Mac.isNull (a : Mac) : Bool := a = Mac.null

/-- `%02x` of an octet. -/
def hex2 (b : UInt8) : Bytes := [Hex.toHexChar (b.toNat / 16) false, Hex.toHexChar b.toNat false]

/-- `Address::toString`, ethernet.cpp 77-87. `sep` is not the null character. -/
def Mac.toString (sep : UInt8) (a : Mac) : Bytes :=
  hex2 a.a0 ++ sep :: (hex2 a.a1 ++ sep :: (hex2 a.a2 ++ sep :: (hex2 a.a3 ++ sep :: (hex2 a.a4 ++ sep :: hex2 a.a5))))

/-- `isspace` in the C locale. -/
def isSpace (c : UInt8) : Bool := c = 32 || (9 ≤ c.toNat && c.toNat ≤ 13)

/-- The digits of a hexadecimal number, at most `w` of them. -/
def scanDigits : Nat → Bytes → Nat → Nat × Bytes
  | 0, s, v => (v, s)
  | _, [], v => (v, [])
  | w + 1, c :: s, v => match Hex.fromHexChar c with
    | some d => scanDigits w s (v * 16 + d)
    | none => (v, c :: s)

/-- Digits after the sign, if any: at least one. -/
def scanNumber (w : Nat) (s : Bytes) : Option (Nat × Bytes) :=
  match s with
  | [] => none
  | c :: _ => match Hex.fromHexChar c with
    | some _ => some (scanDigits w s 0)
    | none => none

/-- `sscanf` of `%2hhx` (C17 7.21.6.2): white space is skipped, then at most two characters of a number that may have a
sign, converted like `strtoul` and reduced to an octet. C libraries differ on a number that is just `0x`: `zx` tells
whether it is read as zero. -/
def scanHex (zx : Bool) (s : Bytes) : Option (UInt8 × Bytes) :=
  match s.dropWhile isSpace with
  | [] => none
  | c :: t =>
    if c = ch '-' then (scanNumber 1 t).map (fun r => (UInt8.ofNat (256 - r.1), r.2))
    else if c = ch '+' then (scanNumber 1 t).map (fun r => (UInt8.ofNat r.1, r.2))
    else if c = ch '0' ∧ (t.head? = some (ch 'x') ∨ t.head? = some (ch 'X')) then
      if zx then some (0, t.drop 1) else none
    else (scanNumber 2 (c :: t)).map (fun r => (UInt8.ofNat r.1, r.2))

/-- `sscanf` of `%1[:-]`. -/
def scanSep : Bytes → Option (UInt8 × Bytes)
  | c :: s => if c = ch ':' ∨ c = ch '-' then some (c, s) else none
  | [] => none

/-- The whole `sscanf`, ethernet.cpp 96-100: the octets, the separators and what is left. -/
def scanMac (zx : Bool) (s : Bytes) : Option (Mac × List UInt8 × Bytes) := do
  let (a0, s) ← scanHex zx s
  let (p0, s) ← scanSep s
  let (a1, s) ← scanHex zx s
  let (p1, s) ← scanSep s
  let (a2, s) ← scanHex zx s
  let (p2, s) ← scanSep s
  let (a3, s) ← scanHex zx s
  let (p3, s) ← scanSep s
  let (a4, s) ← scanHex zx s
  let (p4, s) ← scanSep s
  let (a5, s) ← scanHex zx s
  some (⟨a0, a1, a2, a3, a4, a5⟩, [p0, p1, p2, p3, p4], s)

/-- `Address::fromString`, ethernet.cpp 89-112. `sscanf` reads up to the first null character; `n` is the number of
characters read, so the address is rejected unless everything was read. -/
def Mac.fromString (zx : Bool) (str : Bytes) : Mac :=
  let cs := str.takeWhile (· ≠ 0)
  match scanMac zx cs with
  | none => Mac.null
  | some (a, seps, rest) =>
    if cs.length - rest.length ≠ str.length then Mac.null
    else match seps with
      | [] => Mac.null
      | p :: ps => if ps.all (· = p) then a else Mac.null

/-! ### FaceUri -/

/-- `FaceUri`, face-uri.hpp 46-220: its members. -/
structure FaceUri where
  scheme : Bytes := []
  host : Bytes := []
  port : Bytes := []
  path : Bytes := []
  isV6 : Bool := false
deriving DecidableEq, Repr

/-- `\w`, `\d`, `\s` and `[a-fA-F0-9]` in the C locale. -/
def isWord (c : UInt8) : Bool :=
  (48 ≤ c.toNat && c.toNat ≤ 57) || (65 ≤ c.toNat && c.toNat ≤ 90) || c = 95 || (97 ≤ c.toNat && c.toNat ≤ 122)
def isDig (c : UInt8) : Bool := 48 ≤ c.toNat && c.toNat ≤ 57
def isHex (c : UInt8) : Bool :=
  (97 ≤ c.toNat && c.toNat ≤ 102) || (65 ≤ c.toNat && c.toNat ≤ 70) || (48 ≤ c.toNat && c.toNat ≤ 57)

/-- `[a-fA-F0-9:]`, `[^\s/:]`, `[^/]`, `[^?]` and `[^:]`. -/
def isHexColon (c : UInt8) : Bool := isHex c || c = ch ':'
def isZone (c : UInt8) : Bool := !(isSpace c || c = ch '/' || c = ch ':')
def notSlash (c : UInt8) : Bool := c ≠ ch '/'
def notQuery (c : UInt8) : Bool := c ≠ ch '?'
def notColon (c : UInt8) : Bool := c ≠ ch ':'

/-- `protocolExp`, face-uri.cpp 68: `(\w+\d?(\+\w+)?)://([^/]*)(\/[^?]*)?`. -/
def protocolExp : Re :=
  .seq (.cap 1 (.seq (Re.plus isWord) (.seq (.opt (.cls isDig))
    (.opt (.cap 2 (.seq (Re.lit [ch '+']) (Re.plus isWord)))))))
  (.seq (Re.lit [ch ':', ch '/', ch '/'])
  (.seq (.cap 3 (.many notSlash))
  (.opt (.cap 4 (.seq (Re.lit [ch '/']) (.many notQuery))))))

/-- `(?:\:(\d+))?` with the number of its group. -/
def portExp (i : Nat) : Re := .opt (.seq (Re.lit [ch ':']) (.cap i (Re.plus isDig)))

/-- `v6LinkLocalExp`, face-uri.cpp 78: `^\[([a-fA-F0-9:]+)%([^\s/:]+)\](?:\:(\d+))?$`. -/
def v6LinkLocalExp : Re :=
  .seq (Re.lit [ch '[']) (.seq (.cap 1 (Re.plus isHexColon)) (.seq (Re.lit [ch '%']) (.seq (.cap 2 (Re.plus isZone))
  (.seq (Re.lit [ch ']']) (portExp 3)))))

/-- `v6Exp`, face-uri.cpp 80: `^\[([a-fA-F0-9:]+)\](?:\:(\d+))?$`. -/
def v6Exp : Re :=
  .seq (Re.lit [ch '[']) (.seq (.cap 1 (Re.plus isHexColon)) (.seq (Re.lit [ch ']']) (portExp 2)))

/-- `[a-fA-F0-9]{1,2}`. -/
def octetExp : Re := .seq (.cls isHex) (.opt (.cls isHex))

/-- `etherExp`, face-uri.cpp 82: `^\[((?:[a-fA-F0-9]{1,2}\:){5}(?:[a-fA-F0-9]{1,2}))\]$`. -/
def etherExp : Re :=
  .seq (Re.lit [ch '[']) (.seq (.cap 1 (.seq (Re.times 5 (.seq octetExp (Re.lit [ch ':']))) octetExp)) (Re.lit [ch ']']))

/-- `v4MappedV6Exp`, face-uri.cpp 84: `^\[::ffff:(\d+(?:\.\d+){3})\](?:\:(\d+))?$`. -/
def v4MappedV6Exp : Re :=
  .seq (Re.lit [ch '[', ch ':', ch ':', ch 'f', ch 'f', ch 'f', ch 'f', ch ':'])
  (.seq (.cap 1 (.seq (Re.plus isDig) (Re.times 3 (.seq (Re.lit [ch '.']) (Re.plus isDig)))))
  (.seq (Re.lit [ch ']']) (portExp 2)))

/-- `v4HostExp`, face-uri.cpp 86: `^([^:]+)(?:\:(\d+))?$`. -/
def v4HostExp : Re := .seq (.cap 1 (Re.plus notColon)) (portExp 2)

/-- `FaceUri::parse`, face-uri.cpp 63-114: the result and the object afterwards. -/
def FaceUri.parse (uri : Bytes) : Bool × FaceUri :=
  match protocolExp.full uri with
  | none => (false, {})
  | some pm =>
    let f : FaceUri := { scheme := pm 1, path := pm 4 }
    let authority := pm 3
    if authority = [] then (true, f)
    else match v6LinkLocalExp.full authority with
      | some m => (true, { f with isV6 := true, host := m 1 ++ ch '%' :: m 2, port := m 3 })
      | none => match v6Exp.full authority with
        | some m => (true, { f with isV6 := true, host := m 1, port := m 2 })
        | none => match etherExp.full authority with
          | some m => (true, { f with host := m 1, port := m 2 })
          | none => match v4MappedV6Exp.full authority with
            | some m => (true, { f with host := m 1, port := m 2 })
            | none => match v4HostExp.full authority with
              | some m => (true, { f with host := m 1, port := m 2 })
              | none => (false, f)

/-- `://`. -/
def schemeEnd : Bytes := [ch ':', ch '/', ch '/']

/-- `FaceUri::print`, face-uri.cpp 190-205, and `toString`, 182-188. -/
def FaceUri.toString (f : FaceUri) : Bytes :=
  f.scheme ++ schemeEnd ++ (if f.isV6 then ch '[' :: f.host ++ [ch ']'] else f.host) ++
    (if f.port = [] then [] else ch ':' :: f.port) ++ f.path

/-- `std::string::operator<`: lexicographic, octets as unsigned numbers. -/
def strLt : Bytes → Bytes → Bool
  | [], [] => false
  | [], _ :: _ => true
  | _ :: _, [] => false
  | a :: s, b :: t => if a.toNat < b.toNat then true else if b.toNat < a.toNat then false else strLt s t

/-- `operator==`, face-uri.hpp 190-198. -/
def FaceUri.eq (f g : FaceUri) : Bool :=
  f.isV6 == g.isV6 && f.scheme == g.scheme && f.host == g.host && f.port == g.port && f.path == g.path

/-- `operator<`, face-uri.hpp 200-205: `std::tie` compares the members one after the other with `<` only. -/
def FaceUri.lt (f g : FaceUri) : Bool :=
  if strLt f.scheme g.scheme then true else if strLt g.scheme f.scheme then false
  else if !f.isV6 && g.isV6 then true else if !g.isV6 && f.isV6 then false
  else if strLt f.host g.host then true else if strLt g.host f.host then false
  else if strLt f.port g.port then true else if strLt g.port f.port then false
  else strLt f.path g.path

/-! ### Scheme-specific construction -/

/-- What is used of `boost::asio::ip::address`: `make_address` (`none`: an error code), `to_string`, `is_v4` (`is_v6` is its
negation), `is_multicast` and `to_v6().is_link_local()`. -/
structure Ip (A : Type) where
  make : Bytes → Option A
  text : A → Bytes
  isV4 : A → Bool
  isMulticast : A → Bool
  isLinkLocal : A → Bool

def udpText : Bytes := [ch 'u', ch 'd', ch 'p']
def tcpText : Bytes := [ch 't', ch 'c', ch 'p']
def etherText : Bytes := [ch 'e', ch 't', ch 'h', ch 'e', ch 'r']
def devText : Bytes := [ch 'd', ch 'e', ch 'v']
def fdText : Bytes := [ch 'f', ch 'd']
def unixText : Bytes := [ch 'u', ch 'n', ch 'i', ch 'x']
def udp4dev : Bytes := [ch 'u', ch 'd', ch 'p', ch '4', ch '+', ch 'd', ch 'e', ch 'v']
def udp6dev : Bytes := [ch 'u', ch 'd', ch 'p', ch '6', ch '+', ch 'd', ch 'e', ch 'v']

variable {A : Type}

/-- `FaceUri(const udp::endpoint&)` and `FaceUri(const tcp::endpoint&)`, face-uri.cpp 116-130; `base` is `udp` or `tcp`. -/
def FaceUri.ofEndpoint (ip : Ip A) (base : Bytes) (a : A) (port : UInt16) : FaceUri :=
  { isV6 := !ip.isV4 a, scheme := base ++ [if ip.isV4 a then ch '4' else ch '6'], host := ip.text a,
    port := Name.dec port.toNat }

/-- `FaceUri(const tcp::endpoint&, scheme)`, face-uri.cpp 132-138. -/
def FaceUri.ofEndpointScheme (ip : Ip A) (a : A) (port : UInt16) (scheme : Bytes) : FaceUri :=
  { isV6 := !ip.isV4 a, scheme := scheme, host := ip.text a, port := Name.dec port.toNat }

/-- `FaceUri(const stream_protocol::endpoint&)`, face-uri.cpp 141-145. -/
def FaceUri.ofUnix (path : Bytes) : FaceUri := { scheme := unixText, path := path }

/-- `FaceUri(const ethernet::Address&)`, face-uri.cpp 148-153. -/
def FaceUri.ofMac (a : Mac) : FaceUri := { scheme := etherText, host := a.toString (ch ':'), isV6 := true }

/-- `std::to_string(int)`. -/
def intText (i : Int) : Bytes := if i < 0 then ch '-' :: Name.dec i.natAbs else Name.dec i.natAbs

/-- `FaceUri::fromFd`, face-uri.cpp 155-162. -/
def FaceUri.fromFd (fd : Int) : FaceUri := { scheme := fdText, host := intText fd }

/-- `FaceUri::fromDev`, face-uri.cpp 164-171. -/
def FaceUri.fromDev (ifname : Bytes) : FaceUri := { scheme := devText, host := ifname }

/-- `FaceUri::fromUdpDev`, face-uri.cpp 173-181. -/
def FaceUri.fromUdpDev (ip : Ip A) (a : A) (port : UInt16) (ifname : Bytes) : FaceUri :=
  { scheme := if ip.isV4 a then udp4dev else udp6dev, host := ifname, port := Name.dec port.toNat }

/-! ### Canonization -/

/-- The canonization providers, face-uri.cpp 207-555, with the schemes they serve (`getCanonizeProvider`, 557-597). -/
inductive Provider where
  | ip (base : Bytes)
  | ether
  | dev
  | udpDev
deriving DecidableEq, Repr

def getProvider (scheme : Bytes) : Option Provider :=
  if scheme = udpText ∨ scheme = udpText ++ [ch '4'] ∨ scheme = udpText ++ [ch '6'] then some (.ip udpText)
  else if scheme = tcpText ∨ scheme = tcpText ++ [ch '4'] ∨ scheme = tcpText ++ [ch '6'] then some (.ip tcpText)
  else if scheme = etherText then some .ether
  else if scheme = devText then some .dev
  else if scheme = udp4dev ∨ scheme = udp6dev then some .udpDev
  else none

/-- `std::string::find`: the position of the first occurrence. -/
def findSub (pat : Bytes) : Bytes → Option Nat
  | [] => if pat = [] then some 0 else none
  | c :: s => if pat.isPrefixOf (c :: s) then some 0 else (findSub pat s).map (· + 1)

/-- `unescapeHost`, face-uri.cpp 395-403. -/
def unescapeHost (host : Bytes) : Bytes :=
  match findSub [ch '%', ch '2', ch '5'] host with
  | some pos => if pos < host.length - 3 then Hex.unescape host else host
  | none => host

/-- `boost::algorithm::split` at `%`. -/
def splitPct : Bytes → List Bytes
  | [] => [[]]
  | c :: s => if c = ch '%' then [] :: splitPct s
    else match splitPct s with
      | [] => [[c]]
      | t :: ts => (c :: t) :: ts

/-- `checkAddressWithUri`, face-uri.cpp 262-285. -/
def checkAddressWithUri (ip : Ip A) (a : A) (f : FaceUri) : Bool :=
  if ip.isV4 a || !ip.isLinkLocal a then ip.text a == f.host
  else match splitPct (ip.text a), splitPct f.host with
    | [a0, a1], [f0, f1] =>
      if f1.length > 2 ∧ f1.take 2 = [ch '2', ch '5'] then false else a0 == f0 && a1 == f1
    | _, _ => false

/-- `checkAddress`, face-uri.cpp 389-393 and, for TCP, 431-438. -/
def checkAddress (ip : Ip A) (base : Bytes) (a : A) : Bool := !(base == tcpText && ip.isMulticast a)

/-- `IpHostCanonizeProvider::isCanonical`, face-uri.cpp 240-288. -/
def ipCanonical (ip : Ip A) (base : Bytes) (f : FaceUri) : Bool :=
  if f.port = [] then false
  else if f.path ≠ [] then false
  else match ip.make (unescapeHost f.host) with
    | none => false
    | some a =>
      if !((f.scheme == base ++ [ch '4'] && ip.isV4 a) || (f.scheme == base ++ [ch '6'] && !ip.isV4 a)) then false
      else checkAddressWithUri ip a f && checkAddress ip base a

/-- `FaceUri::isCanonical`, face-uri.cpp 605-614, with the four providers: 240-288, 450-462, 490-494, 530-540. -/
def FaceUri.isCanonical (ip : Ip A) (zx : Bool) (f : FaceUri) : Bool :=
  match getProvider f.scheme with
  | none => false
  | some (.ip base) => ipCanonical ip base f
  | some .ether =>
    if f.port ≠ [] then false else if f.path ≠ [] then false
    else (Mac.fromString zx f.host).toString (ch ':') == f.host
  | some .dev => f.host ≠ [] && f.port = [] && f.path = []
  | some .udpDev => if f.port = [] then false else if f.path ≠ [] then false else true

/-- `FaceUri::canCanonize`, face-uri.cpp 599-603. -/
def canCanonize (scheme : Bytes) : Bool := (getProvider scheme).isSome

/-- The reasons given to the failure callback. -/
inductive Reason where
  | notSupported | mismatch | multicast | badPort | badMac | noIfname | portNotAllowed | pathNotAllowed | cannotCanonize
  | notResolved | noMatch | timedOut
deriving DecidableEq, Repr

/-- What canonization does next: call a callback, fail an assertion, or resolve a host name (`sel`: the addresses wanted,
`none` for any and otherwise whether IPv4) and go on from the address. -/
inductive Act where
  | success (f : FaceUri)
  | failure (r : Reason)
  | assertion
  | resolve (host : Bytes) (sel : Option Bool)
deriving DecidableEq, Repr

/-- `boost::lexical_cast<uint16_t>` of a string of decimal digits. -/
def portNumber (s : Bytes) : Option UInt16 :=
  if s ≠ [] ∧ s.all isDig then
    let n := s.foldl (fun v c => v * 10 + (c.toNat - 48)) 0
    if n < 65536 then some (UInt16.ofNat n) else none
  else none

/-- `assert(canonicalUri.isCanonical()); onSuccess(canonicalUri);`. -/
def assertCanonical (ip : Ip A) (zx : Bool) (f : FaceUri) : Act :=
  if f.isCanonical ip zx then .success f else .assertion

/-- `IpHostCanonizeProvider::onDnsSuccess`, face-uri.cpp 348-375. Default ports 6363 and 56363 (336-338). -/
def onDnsSuccess (ip : Ip A) (zx : Bool) (base : Bytes) (f : FaceUri) (a : A) : Act :=
  if !checkAddress ip base a then .failure .multicast
  else if f.port = [] then
    assertCanonical ip zx (.ofEndpoint ip base a (if ip.isMulticast a then 56363 else 6363))
  else match portNumber f.port with
    | none => .failure .badPort
    | some p => assertCanonical ip zx (.ofEndpoint ip base a p)

/-- `FaceUri::canonize`, face-uri.cpp 616-634, with the four providers: 290-332, 464-478, 496-518, 542-554. -/
def FaceUri.canonize (ip : Ip A) (zx : Bool) (f : FaceUri) : Act :=
  match getProvider f.scheme with
  | none => .failure .notSupported
  | some (.ip base) =>
    if ipCanonical ip base f then .success f
    else match ip.make (unescapeHost f.host) with
      | some a =>
        if (f.scheme = base ++ [ch '4'] ∧ ¬ ip.isV4 a = true) ∨ (f.scheme = base ++ [ch '6'] ∧ ip.isV4 a = true) then
          .failure .mismatch
        else onDnsSuccess ip zx base f a
      | none =>
        if f.scheme = base ++ [ch '4'] then .resolve (unescapeHost f.host) (some true)
        else if f.scheme = base ++ [ch '6'] then .resolve (unescapeHost f.host) (some false)
        else .resolve (unescapeHost f.host) none
  | some .ether =>
    let a := Mac.fromString zx f.host
    if a.isNull then .failure .badMac else assertCanonical ip zx (.ofMac a)
  | some .dev =>
    if f.host = [] then .failure .noIfname
    else if f.port ≠ [] then .failure .portNotAllowed
    else if f.path ≠ [] ∧ f.path ≠ [ch '/'] then .failure .pathNotAllowed
    else assertCanonical ip zx (.fromDev f.host)
  | some .udpDev => if f.isCanonical ip zx then .success f else .failure .cannotCanonize

/-! ### Name resolution -/

/-- A result of `async_resolve`: an error (`aborted` when the operation was cancelled) or addresses. -/
inductive DnsResult (A : Type) where
  | error
  | aborted
  | found (as : List A)

/-- The callbacks of `dns::asyncResolve`. -/
inductive DnsCall (A : Type) where
  | ok (a : A)
  | fail (r : Reason)
deriving DecidableEq

/-- The background operation: running, finished with a result waiting to be delivered by the io_context, delivered. -/
inductive DnsOp (A : Type) where
  | running
  | queued (r : DnsResult A)
  | delivered

/-- `dns::Resolver`, dns.cpp 30-113: the operation, whether it was cancelled, whether the timeout is scheduled, and the
callbacks made so far. -/
structure Dns (A : Type) where
  op : DnsOp A := .running
  cancelled : Bool := false
  timer : Bool := true
  calls : List (DnsCall A) := []

/-- What can happen after `asyncResolve` (dns.cpp 42-57, 115-126): the resolver thread finishes, the io_context delivers the
result, the timeout expires. -/
inductive DnsEv (A : Type) where
  | finish (r : DnsResult A)
  | deliver
  | expire

/-- `onResolveResult`, dns.cpp 60-89; `sel` is the address selector. Both callbacks are set by `canonize`. -/
def onResolveResult (sel : A → Bool) (d : Dns A) (r : DnsResult A) : Dns A :=
  let d := { d with timer := false, op := .delivered }
  match r with
  | .aborted => d
  | .error => { d with calls := d.calls ++ [.fail .notResolved] }
  | .found as => match as.find? sel with
    | some a => { d with calls := d.calls ++ [.ok a] }
    | none => { d with calls := d.calls ++ [.fail .noMatch] }

/-- One step. `resolver::cancel` makes a running operation finish as aborted; it does not affect an operation that has
finished and whose handler is waiting in the io_context. `onResolveTimeout`: dns.cpp 91-102. -/
def Dns.step (sel : A → Bool) (d : Dns A) : DnsEv A → Dns A
  | .finish r => match d.op with
    | .running => { d with op := .queued (if d.cancelled then .aborted else match r with | .aborted => .error | r => r) }
    | _ => d
  | .deliver => match d.op with
    | .queued r => onResolveResult sel d r
    | _ => d
  | .expire =>
    if d.timer then { d with timer := false, cancelled := true, calls := d.calls ++ [.fail .timedOut] } else d

def Dns.run (sel : A → Bool) (evs : List (DnsEv A)) : Dns A := evs.foldl (Dns.step sel) {}

/-- The selector given by `canonize`, face-uri.cpp 315-325; dns.hpp 37-63. -/
def selector (ip : Ip A) : Option Bool → A → Bool
  | none => fun _ => true
  | some true => fun a => ip.isV4 a
  | some false => fun a => !ip.isV4 a

/-- The callbacks (and assertion failures) of a whole canonization whose name resolution goes through `evs`. -/
def FaceUri.canonizeRun (ip : Ip A) (zx : Bool) (f : FaceUri) (evs : List (DnsEv A)) : List Act :=
  match f.canonize ip zx with
  | .resolve _ sel =>
    (Dns.run (selector ip sel) evs).calls.map (fun c => match c with
      | .ok a => match getProvider f.scheme with
        | some (.ip base) => onDnsSuccess ip zx base f a
        | _ => .assertion
      | .fail r => .failure r)
  | a => [a]

end Ndn.Net
