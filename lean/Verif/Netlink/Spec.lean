import Verif.Netlink.Model
/-
What a datagram holds, what a list of attributes holds, and what somebody who only listens to the signals knows.
-/
namespace Ndn.Netlink.Spec
open Ndn.Netlink

/-- `b` starts with a message: a header of 16 octets whose first field, between 16 and the number of octets there are, is its length. -/
def StartsMsg (b : Bytes) : Prop := 16 ≤ b.length ∧ 16 ≤ u32 b 0 ∧ u32 b 0 ≤ b.length

/-- The messages in a datagram: each as long as its first field says, followed by padding to a multiple of four octets, up to the
end or to something that is no message. At the end, padding may be missing. -/
inductive Messages : Bytes → List Bytes → Prop
  | stop (b) : ¬ StartsMsg b → Messages b []
  | msg (m pad rest ms) : 16 ≤ m.length → u32 m 0 = m.length → pad.length < 4 → (m.length + pad.length) % 4 = 0 →
      Messages rest ms → Messages (m ++ pad ++ rest) (m :: ms)
  | last (m pad) : 16 ≤ m.length → u32 m 0 = m.length → pad.length < 4 → (∀ k, k ≤ pad.length → (m.length + k) % 4 ≠ 0) →
      Messages (m ++ pad) [m]

/-- `b` starts with an attribute. -/
def StartsAttr (b : Bytes) : Prop := 4 ≤ b.length ∧ 4 ≤ u16 b 0 ∧ u16 b 0 ≤ b.length

/-- The octets of an attribute without padding: length, type, value. -/
def attrBytes (t : Nat) (v : Bytes) : Bytes :=
  [UInt8.ofNat (v.length + 4), UInt8.ofNat ((v.length + 4) / 256), UInt8.ofNat t, UInt8.ofNat (t / 256)] ++ v

/-- The attributes in a list of them, in the same way. -/
inductive Attributes : Bytes → List (Nat × Bytes) → Prop
  | stop (b) : ¬ StartsAttr b → Attributes b []
  | attr (t v pad rest as) : t < 2 ^ 16 → v.length + 4 < 2 ^ 16 → pad.length < 4 → (v.length + pad.length) % 4 = 0 →
      Attributes rest as → Attributes (attrBytes t v ++ pad ++ rest) ((t, v) :: as)
  | last (t v pad) : t < 2 ^ 16 → v.length + 4 < 2 ^ 16 → pad.length < 4 → (∀ k, k ≤ pad.length → (v.length + k) % 4 ≠ 0) →
      Attributes (attrBytes t v ++ pad) [(t, v)]

/-! ### Listening -/

/-- What a listener knows of an interface. -/
structure Seen where
  state : IfState
  mtu : Nat
  has : Ip → Bool

/-- What a listener knows of all interfaces. -/
abbrev View := Int → Option Seen

/-- What there is to know of an interface. -/
def snap (i : Iface) : Seen := ⟨i.state, i.mtu, fun ip => i.addrs.any (fun a => a.ip = ip)⟩

def put (v : View) (idx : Int) (s : Option Seen) : View := fun j => if j = idx then s else v j

/-- What a listener learns from a signal. -/
def learn (v : View) : Ev → View
  | .ifAdded i => put v i.index (some (snap i))
  | .ifRemoved i => put v i.index none
  | .stateChanged idx _ new => put v idx ((v idx).map fun s => { s with state := new })
  | .mtuChanged idx _ new => put v idx ((v idx).map fun s => { s with mtu := new })
  | .addrAdded idx a => put v idx ((v idx).map fun s => { s with has := fun ip => ip = a.ip || s.has ip })
  | .addrRemoved idx a => put v idx ((v idx).map fun s => { s with has := fun ip => ip ≠ a.ip && s.has ip })
  | _ => v

/-- What the signals so far tell. -/
def told (log : List Ev) : View := log.foldl learn (fun _ => none)

/-- The signal tells of a change, and of the right one. -/
def Truthful (v : View) : Ev → Prop
  | .ifAdded i => v i.index = none
  | .ifRemoved i => ∃ s, v i.index = some s
  | .stateChanged idx old new => old ≠ new ∧ ∀ s, v idx = some s → s.state = old
  | .mtuChanged idx old new => old ≠ new ∧ ∀ s, v idx = some s → s.mtu = old
  | .addrAdded idx a => ∃ s, v idx = some s ∧ s.has a.ip = false
  | .addrRemoved idx a => ∃ s, v idx = some s ∧ s.has a.ip = true
  | _ => True

/-- The state an interface is in: by its operational state, if it says up or dormant; otherwise by its flags (1 up, 2^16 lower layer
up, 2^17 dormant). -/
inductive InState (flags oper : Nat) : IfState → Prop
  | up : oper = 6 → InState flags oper .running
  | dormant : oper = 5 → InState flags oper .dormant
  | lowerUp : oper ≠ 6 → oper ≠ 5 → flags / 2 ^ 16 % 2 = 1 → flags / 2 ^ 17 % 2 = 0 → InState flags oper .running
  | noCarrier : oper ≠ 6 → oper ≠ 5 → (flags / 2 ^ 16 % 2 = 0 ∨ flags / 2 ^ 17 % 2 = 1) → flags % 2 = 1 → InState flags oper .noCarrier
  | down : oper ≠ 6 → oper ≠ 5 → (flags / 2 ^ 16 % 2 = 0 ∨ flags / 2 ^ 17 % 2 = 1) → flags % 2 = 0 → InState flags oper .down

/-- The value of an attribute: that of the last one of its type. -/
def Value (as : List (Nat × Bytes)) (t : Nat) (v : Bytes) : Prop := ∃ l1 l2, as = l1 ++ (t, v) :: l2 ∧ ∀ x ∈ l2, x.1 ≠ t

/-- What a message about an address says of it: family, address, broadcast address, prefix length, scope, flags. -/
structure Tells (m : Bytes) (as : List (Nat × Bytes)) (a : Addr) : Prop where
  addr : (u8 m 16 = 2 ∧ a.family = .v4 ∧ ∃ v, Value as 2 v ∧ 4 ≤ v.length ∧ a.ip = .v4 (v.take 4)) ∨
    (u8 m 16 = 10 ∧ a.family = .v6 ∧ ∃ v, Value as 1 v ∧ 16 ≤ v.length ∧
      ((u8 v 0 = 0xfe ∧ 0x80 ≤ u8 v 1 ∧ u8 v 1 < 0xc0 ∧ a.ip = .v6 (v.take 16) (u32 m 20)) ∨
       (¬ (u8 v 0 = 0xfe ∧ 0x80 ≤ u8 v 1 ∧ u8 v 1 < 0xc0) ∧ a.ip = .v6 (v.take 16) 0)))
  brd : (∃ v, u8 m 16 = 2 ∧ Value as 4 v ∧ 4 ≤ v.length ∧ a.brd = .v4 (v.take 4)) ∨
    ((u8 m 16 = 2 → ∀ v, Value as 4 v → v.length < 4) ∧ a.brd = Ip.none)
  plen : a.plen = u8 m 17
  scope : (u8 m 19 = 255 ∧ a.scope = .nowhere) ∨ (u8 m 19 = 254 ∧ a.scope = .host) ∨ (u8 m 19 = 253 ∧ a.scope = .link) ∨
    (u8 m 19 < 253 ∧ a.scope = .globalScope)
  flags : (∃ v, Value as 8 v ∧ 4 ≤ v.length ∧ a.flags = u32 v 0) ∨ ((∀ v, Value as 8 v → v.length < 4) ∧ a.flags = u8 m 18)

/-- The message is about adding (20) or removing (21) the address on the interface. -/
def About (idx : Int) (m : Bytes) (new : Bool) (a : Addr) : Prop :=
  24 ≤ m.length ∧ toInt (u32 m 20) = idx ∧ msgType m = (if new then 20 else 21) ∧ ∃ as, Attributes (m.drop 24) as ∧ Tells m as a

/-- The system has the address with this prefix length: it was added, and not removed since. -/
def SystemHas (ops : List (Bool × Addr)) (ip : Ip) (plen : Nat) : Prop :=
  ∃ l1 a l2, ops = l1 ++ (true, a) :: l2 ∧ a.ip = ip ∧ a.plen = plen ∧
    ∀ x ∈ l2, x.2.ip = ip → x.2.plen = plen → x.1 = true

/-- The answers to the requests with sequence numbers `s1` and `s2`, in whole datagrams, and notifications, undisturbed. -/
def Undisturbed (pid s1 s2 : Nat) (d : Dgram) : Prop :=
  d.trunc = false ∧ d.data.length % 4 = 0 ∧ d.data.length < 2 ^ 64 ∧
  ∀ ms, Messages d.data ms → ∀ m ∈ ms, (msgFlags m).testBit 4 = false ∧
    (d.group = 0 → msgPid m = pid → msgSeq m = s1 ∨ msgSeq m = s2)

/-- Answers come in parts and end with a message saying so. -/
def EndsWithDone (pid : Nat) (d : Dgram) : Prop :=
  ∀ ms, Messages d.data ms → ∀ m ∈ ms, d.group = 0 → msgPid m = pid → (msgFlags m).testBit 1 = true ∨ msgType m = 3

end Ndn.Netlink.Spec
