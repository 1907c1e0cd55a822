/-
Model of the network monitor on Linux: netlink messages, the socket that receives them, and the interfaces they tell about.

Byte order: little endian, as the messages are in host byte order. `BOOST_ASSERT`s that depend on input appear as the event `assertion`,
after which execution goes on, as it does with assertions disabled. Routes are not handled by the code either. Extended
acknowledgements are only logged and left out.
-/
namespace Ndn.Netlink

abbrev Bytes := List UInt8

/-! ### Reading -/

/-- `uint8_t` at an offset. -/
def u8 (b : Bytes) (i : Nat) : Nat := (b.getD i 0).toNat
/-- `uint16_t` at an offset. -/
def u16 (b : Bytes) (i : Nat) : Nat := u8 b i + 256 * u8 b (i + 1)
/-- `uint32_t` at an offset. -/
def u32 (b : Bytes) (i : Nat) : Nat := u16 b i + 65536 * u16 b (i + 2)
/-- Conversion of `uint32_t` to `int`. -/
def toInt (n : Nat) : Int := if n < 2 ^ 31 then n else (n : Int) - 2 ^ 32

/-- `NLMSG_ALIGN`, `RTA_ALIGN`. -/
def align4 (n : Nat) : Nat := (n + 3) / 4 * 4

/-- How the loop over the messages of a datagram ends. -/
inductive Stop
  | done
  /-- octets outside the buffer are read -/
  | outside
  deriving DecidableEq, Repr

/-- The loop over `isValid()` and `getNext()`, netlink-message.hpp 129-137 and netlink-socket.cpp 290: the messages in `buf` from `off`
on, `len` being `m_length`, a `size_t`. A message reaching beyond `buf` counts as read outside it. -/
def scan : Nat → Bytes → Nat → Nat → List Bytes × Stop
  | 0, _, _, _ => ([], .done)
  | fuel + 1, buf, off, len =>
    if len < 16 then ([], .done)
    else if buf.length < off + 16 then ([], .outside)
    else
      let l := u32 buf off
      if l < 16 ∨ len < l then ([], .done)
      else if buf.length < off + l then ([], .outside)
      else
        let r := scan fuel buf (off + align4 l) ((len + 2 ^ 64 - align4 l) % 2 ^ 64)
        (((buf.drop off).take l) :: r.1, r.2)

/-- `nlmsg_type`, `nlmsg_flags`, `nlmsg_seq`, `nlmsg_pid`. -/
def msgType (m : Bytes) : Nat := u16 m 4
def msgFlags (m : Bytes) : Nat := u16 m 6
def msgSeq (m : Bytes) : Nat := u32 m 8
def msgPid (m : Bytes) : Nat := u32 m 12

/-- `getPayload<T>()`, netlink-message.hpp 128-138, `size` being `sizeof(T)`. -/
def payload (m : Bytes) (size : Nat) : Option Bytes := if m.length < 16 + size then none else some (m.drop 16)

/-- The constructor of `NetlinkMessageAttributes`, netlink-message.hpp 166-172, with `isAttrValid` and `getNextAttr` (196-214). -/
def attrs : Nat → Bytes → List (Nat × Bytes)
  | 0, _ => []
  | fuel + 1, b =>
    if b.length < 4 ∨ u16 b 0 < 4 ∨ b.length < u16 b 0 then []
    else
      (u16 b 2, (b.take (u16 b 0)).drop 4) ::
        (if b.length < align4 (u16 b 0) then [] else attrs fuel (b.drop (align4 (u16 b 0))))

/-- `getAttributes<rtattr>(p)`, netlink-message.hpp 140-149. -/
def msgAttrs (m : Bytes) (size : Nat) : List (Nat × Bytes) :=
  let b := m.drop (16 + align4 size)
  attrs (b.length + 1) b

/-- `m_attrs.find(attrType)`: the last one of a type replaces earlier ones. -/
def attr (as : List (Nat × Bytes)) (t : Nat) : Option Bytes := ((as.filter (fun a => a.1 = t)).getLast?).map (·.2)

/-- `convertAttrValue`, netlink-message.hpp 216-262. -/
def toU8 (v : Bytes) : Option Nat := if v.length < 1 then none else some (u8 v 0)
def toU32 (v : Bytes) : Option Nat := if v.length < 4 then none else some (u32 v 0)
def toFixed (n : Nat) (v : Bytes) : Option Bytes := if v.length < n then none else some (v.take n)
def toStr (v : Bytes) : Option Bytes := if v.contains 0 then some (v.takeWhile (· ≠ 0)) else none

/-! ### Interfaces -/

inductive IfType | unknown | loopback | ethernet
  deriving DecidableEq, Repr
inductive IfState | unknown | down | noCarrier | dormant | running
  deriving DecidableEq, Repr
inductive Family | unspecified | v4 | v6
  deriving DecidableEq, Repr
inductive Scope | nowhere | host | link | globalScope
  deriving DecidableEq, Repr

/-- `boost::asio::ip::address`: octets, and for version 6 the scope id. -/
inductive Ip
  | v4 (b : Bytes)
  | v6 (b : Bytes) (scope : Nat)
  deriving DecidableEq, Repr

/-- `ip::address()`. -/
def Ip.none : Ip := .v4 [0, 0, 0, 0]
/-- `is_unspecified()`. -/
def Ip.isUnspecified : Ip → Bool
  | .v4 b => b.all (· = 0)
  | .v6 b _ => b.all (· = 0)

/-- `NetworkAddress`, network-address.hpp. Ordered, hence identified, by `ip` only (122-126). -/
structure Addr where
  family : Family
  ip : Ip
  brd : Ip
  plen : Nat
  scope : Scope
  flags : Nat
  deriving DecidableEq, Repr

/-- `NetworkInterface`. The order in the set of addresses is not modelled. -/
structure Iface where
  index : Int
  name : Bytes
  type : IfType
  flags : Nat
  state : IfState
  mtu : Nat
  ether : Bytes
  brd : Bytes
  addrs : List Addr
  deriving DecidableEq, Repr

/-- What is signalled; signals of an interface carry its index. -/
inductive Ev
  | ifAdded (i : Iface)
  | ifRemoved (i : Iface)
  | stateChanged (index : Int) (old new : IfState)
  | mtuChanged (index : Int) (old new : Nat)
  | addrAdded (index : Int) (a : Addr)
  | addrRemoved (index : Int) (a : Addr)
  | enumCompleted
  | networkChanged
  /-- a dump request of this type with this sequence number is sent -/
  | sent (type seq : Nat)
  | assertion
  deriving DecidableEq, Repr

/-- `NetworkInterface::NetworkInterface()` and `setIndex`. -/
def Iface.new (index : Int) : Iface :=
  ⟨index, [], .unknown, 0, .unknown, 0, [0, 0, 0, 0, 0, 0], [0, 0, 0, 0, 0, 0], []⟩

/-- `addNetworkAddress`, network-interface.cpp 37-53. -/
def Iface.addAddr (i : Iface) (a : Addr) : Iface × List Ev :=
  if a.ip.isUnspecified then (i, [])
  else
    let rest := i.addrs.filter (fun x => x.ip ≠ a.ip)
    ({ i with addrs := rest ++ [a] }, if rest.length = i.addrs.length then [.addrAdded i.index a] else [])

/-- `removeNetworkAddress`, network-interface.cpp 55-64. -/
def Iface.removeAddr (i : Iface) (a : Addr) : Iface × List Ev :=
  let rest := i.addrs.filter (fun x => x.ip ≠ a.ip)
  ({ i with addrs := rest }, if rest.length = i.addrs.length then [] else [.addrRemoved i.index a])

/-- `setState`, network-interface.cpp 91-98. -/
def Iface.setState (i : Iface) (s : IfState) : Iface × List Ev :=
  if i.state = s then (i, []) else ({ i with state := s }, [.stateChanged i.index i.state s])

/-- `setMtu`, network-interface.cpp 100-107. -/
def Iface.setMtu (i : Iface) (m : Nat) : Iface × List Ev :=
  if i.mtu = m then (i, []) else ({ i with mtu := m }, [.mtuChanged i.index i.mtu m])

/-- `ifiTypeToInterfaceType`, network-monitor-impl-netlink.cpp 168-179. -/
def ifType (t : Nat) : IfType := if t = 1 then .ethernet else if t = 772 then .loopback else .unknown
/-- `ifaFamilyToAddressFamily`, 181-192. -/
def family (f : Nat) : Family := if f = 2 then .v4 else if f = 10 then .v6 else .unspecified
/-- `ifaScopeToAddressScope`, 194-207. -/
def scope (s : Nat) : Scope := if s = 255 then .nowhere else if s = 254 then .host else if s = 253 then .link else .globalScope

/-- `updateInterfaceState`, 209-230. -/
def operState (flags oper : Nat) : IfState :=
  if oper = 6 then .running
  else if oper = 5 then .dormant
  else if flags.testBit 16 && !flags.testBit 17 then .running
  else if flags.testBit 0 then .noCarrier
  else .down

/-! ### The monitor -/

inductive Phase | links | addrs | complete
  deriving DecidableEq, Repr

/-- The monitor: `m_interfaces` in the order of the indices, `m_phase`, `m_seqNum`, the keys of `m_pendingRequests`, the buffer,
whether a wait for the socket is under way, and what was signalled. All handlers are `parseRtnlMessage`. -/
structure Mon where
  ifs : List Iface
  phase : Phase
  seq : Nat
  pid : Nat
  pending : List Nat
  buf : Bytes
  waiting : Bool
  log : List Ev
  deriving DecidableEq, Repr

/-- `m_interfaces.find`. -/
def Mon.find (M : Mon) (index : Int) : Option Iface := M.ifs.find? (fun i => i.index = index)

/-- `m_interfaces[index] = interface`. -/
def insertIf (i : Iface) : List Iface → List Iface
  | [] => [i]
  | x :: l => if i.index < x.index then i :: x :: l else if i.index = x.index then i :: l else x :: insertIf i l

/-- `sendDumpRequest`, netlink-socket.cpp 357-392, with `registerRequestCallback`, 195-208. -/
def Mon.sendDump (M : Mon) (type : Nat) : Mon :=
  let s := (M.seq + 1) % 2 ^ 32
  { M with seq := s, pending := if M.pending.contains s then M.pending else s :: M.pending, waiting := true, log := M.log ++ [.sent type s] }

/-- The update of an interface by RTM_NEWLINK, 283-309: `p` the `ifinfomsg`, `as` the attributes. -/
def Iface.update (i : Iface) (p : Bytes) (as : List (Nat × Bytes)) : Iface × List Ev :=
  let i := { i with type := ifType (u16 p 2), flags := u32 p 8 }
  let i := match (attr as 1).bind (toFixed 6) with | some a => { i with ether := a } | none => i
  let i := match (attr as 2).bind (toFixed 6) with | some a => { i with brd := a } | none => i
  let r := match (attr as 3).bind toStr with
    | some n => ({ i with name := n }, if n = [] then [Ev.assertion] else [])
    | none => (i, [])
  let r2 := match (attr as 4).bind toU32 with
    | some m => r.1.setMtu m
    | none => (r.1, [])
  let r3 := r2.1.setState (operState (u32 p 8) (((attr as 16).bind toU8).getD 0))
  (r3.1, r.2 ++ r2.2 ++ r3.2)

/-- `parseLinkMessage`, network-monitor-impl-netlink.cpp 247-317. -/
def Mon.link (M : Mon) (m : Bytes) : Mon :=
  match payload m 16 with
  | none => M
  | some p =>
    if ifType (u16 p 2) = .unknown then M
    else
      let index := toInt (u32 p 4)
      if msgType m = 17 then
        match M.find index with
        | some i => { M with ifs := M.ifs.filter (fun x => x.index ≠ index), log := M.log ++ [.ifRemoved i] }
        | none => M
      else
        match M.find index with
        | some i =>
          let r := i.update p (msgAttrs m 16)
          { M with ifs := insertIf r.1 M.ifs, log := M.log ++ r.2 }
        | none =>
          let r := (Iface.new index).update p (msgAttrs m 16)
          { M with ifs := insertIf r.1 M.ifs, log := M.log ++ r.2 ++ [.ifAdded r.1] }

/-- `is_link_local()` of a version 6 address. -/
def linkLocal (b : Bytes) : Bool := u8 b 0 = 0xfe && u8 b 1 / 64 = 2

/-- The address in an RTM_NEWADDR or RTM_DELADDR message, 337-389: `p` the `ifaddrmsg`, `as` the attributes. -/
def addrOf (p : Bytes) (as : List (Nat × Bytes)) : Addr :=
  let ip := if u8 p 0 = 2 then (match (attr as 2).bind (toFixed 4) with | some b => Ip.v4 b | none => Ip.none)
    else if u8 p 0 = 10 then (match (attr as 1).bind (toFixed 16) with
      | some b => Ip.v6 b (if linkLocal b then u32 p 4 else 0)
      | none => Ip.none)
    else Ip.none
  let brd := if u8 p 0 = 2 then (match (attr as 4).bind (toFixed 4) with | some b => Ip.v4 b | none => Ip.none) else Ip.none
  ⟨family (u8 p 0), ip, brd, u8 p 1, scope (u8 p 3), ((attr as 8).bind toU32).getD (u8 p 2)⟩

/-- `parseAddressMessage`, network-monitor-impl-netlink.cpp 316-383. -/
def Mon.address (M : Mon) (m : Bytes) : Mon :=
  match payload m 8 with
  | none => M
  | some p =>
    match M.find (toInt (u32 p 4)) with
    | none => M
    | some i =>
      let a := addrOf p (msgAttrs m 8)
      if a.flags.testBit 6 && msgType m = 20 then M
      else
        let r := if msgType m = 20 then i.addAddr a else i.removeAddr a
        { M with ifs := insertIf r.1 M.ifs, log := M.log ++ (if a.family = .unspecified then [.assertion] else []) ++ r.2 }

/-- `parseDoneMessage`, 403-432. -/
def Mon.doneMsg (M : Mon) : Mon :=
  match M.phase with
  | .links => { M with phase := .addrs }.sendDump 22
  | .addrs => { M with phase := .complete, log := M.log ++ [.enumCompleted] }
  | .complete => M

/-- `this->emitSignal(onNetworkStateChanged)` once the enumeration is complete. -/
def Mon.changed (M : Mon) : Mon :=
  if M.phase = .complete then { M with log := M.log ++ [.networkChanged] } else M

/-- `parseRtnlMessage`, 133-166. -/
def Mon.rtnl (M : Mon) (m : Bytes) : Mon :=
  let t := msgType m
  if t = 16 ∨ t = 17 then (M.link m).changed
  else if t = 20 ∨ t = 21 then (M.address m).changed
  else if t = 24 ∨ t = 25 then M.changed
  else if t = 3 then M.doneMsg
  else M

/-- The body of the loop in `receiveAndValidate`, netlink-socket.cpp 299-339; `none`: exception. -/
def Mon.dispatch (M : Mon) (group : Nat) (m : Bytes) : Option Mon :=
  let key := if group ≠ 0 then some 0 else if msgPid m = M.pid then some (msgSeq m) else none
  match key with
  | none => some M
  | some k =>
    if !M.pending.contains k then some M
    else if (msgFlags m).testBit 4 then none
    else
      let M' := M.rtnl m
      if group = 0 ∧ (!(msgFlags m).testBit 1 ∨ msgType m = 3) then some { M' with pending := M'.pending.filter (· ≠ k) }
      else some M'

/-- The loop. -/
def Mon.handle (M : Mon) (group : Nat) : List Bytes → Mon × Bool
  | [] => (M, true)
  | m :: ms =>
    match M.dispatch group m with
    | none => (M, false)
    | some M' => M'.handle group ms

/-- What the socket gives: the sender, the group, whether the datagram was truncated, its octets. -/
structure Dgram where
  sender : Nat
  group : Nat
  trunc : Bool
  data : Bytes
  deriving DecidableEq, Repr

/-- How receiving a datagram ended. -/
inductive Res | ok | exception | outside
  deriving DecidableEq, Repr

/-- The handler in `asyncWait` and `receiveAndValidate`, netlink-socket.cpp 245-343. After an exception there is no further wait. -/
def Mon.recv (M : Mon) (d : Dgram) : Mon × Res :=
  let M := { M with buf := d.data ++ M.buf.drop d.data.length }
  if d.trunc then ({ M with waiting := false }, .exception)
  else if d.sender ≠ 0 then (M, .ok)
  else
    let s := scan (M.buf.length + 1) M.buf 0 d.data.length
    let r := M.handle d.group s.1
    if r.2 then
      ({ r.1 with waiting := !r.1.pending.isEmpty }, match s.2 with | .done => .ok | .outside => .outside)
    else ({ r.1 with waiting := false }, .exception)

/-- The constructor: the notification handler, and the request for all links, 44-58. `seq0` is the initial sequence number. -/
def Mon.init (seq0 pid : Nat) (buf : Bytes) : Mon :=
  ({ ifs := [], phase := .links, seq := seq0, pid := pid, pending := [0], buf := buf, waiting := true, log := [] } : Mon).sendDump 18

/-- Datagrams are received while there is a wait. -/
def Mon.step (M : Mon) (d : Dgram) : Mon := if M.waiting then (M.recv d).1 else M

def Mon.run (M : Mon) (ds : List Dgram) : Mon := ds.foldl Mon.step M

end Ndn.Netlink
