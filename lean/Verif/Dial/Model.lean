import Verif.Net.Model
/-
Model of how a Face finds its forwarder: `makeDefaultTransport` (face.cpp 90-127), the addresses of the transports
(transport/unix-transport.cpp 40-74, transport/tcp-transport.cpp 40-77, on Linux) and the configuration file (util/config-file.cpp 29-122).

A configuration file is seen as what reading it gives; Boost's reader of such files is not modelled. Strings are lists of octets.
-/
namespace Ndn.Dial
open Ndn.Net

/-- What is under a path: nothing, something in a directory that may not be looked into (`exists` throws), a file that cannot be opened, a
file that is not a configuration file, or one with these entries. -/
inductive At
  | absent
  | denied
  | unreadable
  | malformed
  | entries (get : Bytes → Option Bytes)

/-- The environment variable NDN_CLIENT_TRANSPORT, and the files `$HOME/.ndn/client.conf` (`none`: HOME is not set), `ndn/client.conf` in
the directory the library was built with (`none`: with none) and `/etc/ndn/client.conf`. -/
structure Env where
  transport : Option Bytes
  home : Option At
  sysconf : Option At
  etc : At

/-- `ConfigFile::findConfigFile`, config-file.cpp 43-80: the first of these that exists. -/
def findFile : List At → At
  | [] => .absent
  | .absent :: rest => findFile rest
  | f :: _ => f

/-- The constructor of `ConfigFile`, 29-36, with `open`, 82-94, and `parse`, 104-122: its entries; `none`: it throws. -/
def config (e : Env) : Option (Bytes → Option Bytes) :=
  match findFile (e.home.toList ++ e.sysconf.toList ++ [e.etc]) with
  | .absent => some (fun _ => none)
  | .denied => none
  | .unreadable => some (fun _ => none)
  | .malformed => none
  | .entries get => some get

/-- Texts in the code. -/
def transportKey : Bytes := "transport".toList.map ch
def tcp4Text : Bytes := "tcp4".toList.map ch
def tcp6Text : Bytes := "tcp6".toList.map ch
def localhost : Bytes := "localhost".toList.map ch
def ndnPort : Bytes := "6363".toList.map ch
def nfdSock : Bytes := "/run/nfd/nfd.sock".toList.map ch

/-- `UnixTransport::getSocketNameFromUri`, unix-transport.cpp 40-66; `none`: `Transport::Error`. -/
def unixName (uri : Bytes) : Option Bytes :=
  if uri = [] then some nfdSock
  else
    let r := FaceUri.parse uri
    if r.1 = false then none
    else if r.2.scheme ≠ unixText then none
    else if r.2.path ≠ [] then some r.2.path
    else some nfdSock

/-- `TcpTransport::getSocketHostAndPortFromUri`, tcp-transport.cpp 47-77. -/
def tcpEndpoint (uri : Bytes) : Option (Bytes × Bytes) :=
  if uri = [] then some (localhost, ndnPort)
  else
    let r := FaceUri.parse uri
    if r.1 = false then none
    else if r.2.scheme ≠ tcpText ∧ r.2.scheme ≠ tcp4Text ∧ r.2.scheme ≠ tcp6Text then none
    else some (if r.2.host ≠ [] then r.2.host else localhost, if r.2.port ≠ [] then r.2.port else ndnPort)

/-- What a transport connects to: a socket in the file system, or a host and a port. -/
inductive Peer
  | unix (path : Bytes)
  | tcp (host port : Bytes)
  deriving DecidableEq, Repr

/-- `makeDefaultTransport` from the URI on, face.cpp 104-126; `none`: `ConfigFile::Error`. -/
def transportOf (uri : Bytes) : Option Peer :=
  if uri = [] then (unixName []).map .unix
  else
    let r := FaceUri.parse uri
    if r.1 = false then none
    else if r.2.scheme = unixText then (unixName uri).map .unix
    else if r.2.scheme = tcpText ∨ r.2.scheme = tcp4Text ∨ r.2.scheme = tcp6Text then (tcpEndpoint uri).map fun x => .tcp x.1 x.2
    else none

/-- `makeDefaultTransport`, face.cpp 90-127. -/
def makeDefault (e : Env) : Option Peer :=
  match e.transport with
  | some uri => transportOf uri
  | none =>
    match config e with
    | none => none
    | some get => transportOf ((get transportKey).getD [])

end Ndn.Dial
