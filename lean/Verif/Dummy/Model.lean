/-
Model of the broadcast links between instances of `DummyClientFace`, util/dummy-client-face.cpp. Faces and links are numbered;
packets are not looked into here.
-/
namespace Ndn.Dummy

/-- Change a function at one place. -/
def upd {α : Type} (f : Nat → α) (n : Nat) (x : α) : Nat → α := fun m => if m = n then x else f m

/-- `m_bcastLink` of each face, dummy-client-face.hpp 197, the vector in each `BroadcastLink`, dummy-client-face.cpp 73-76, and the
number of the next one. -/
structure Net where
  link : Nat → Option Nat
  faces : Nat → List Nat
  next : Nat

def Net.init : Net := ⟨fun _ => none, fun _ => [], 0⟩

/-- `linkTo`, 279-301; `false`: `AlreadyLinkedError`. -/
def Net.linkTo (s : Net) (a b : Nat) : Bool × Net :=
  match s.link a, s.link b with
  | some l, some l' => (decide (l = l'), s)
  | none, some l => (true, { s with link := upd s.link a (some l), faces := upd s.faces l (s.faces l ++ [a]) })
  | some l, none => (true, { s with link := upd s.link b (some l), faces := upd s.faces l (s.faces l ++ [b]) })
  | none, none =>
    (true, ⟨upd (upd s.link a (some s.next)) b (some s.next), upd s.faces s.next [a, b], s.next + 1⟩)

/-- `unlink`, 303-319, which the destructor calls too, 117-120; `none`: undefined behaviour. If the only face left is this one, its
`m_bcastLink` is reset in 315 and used in 316. -/
def Net.unlink (s : Net) (a : Nat) : Option Net :=
  match s.link a with
  | none => some s
  | some l =>
    if a ∈ s.faces l then
      match (s.faces l).erase a with
      | [b] =>
        if b = a then none
        else some { s with link := upd (upd s.link b none) a none, faces := upd s.faces l [] }
      | fs => some { s with link := upd s.link a none, faces := upd s.faces l fs }
    else none

/-- What is called on the links. -/
inductive LOp where
  | linkTo (a b : Nat)
  | unlink (a : Nat)
  deriving DecidableEq, Repr

/-- One call; `none`: undefined behaviour. The flag is `false` if it throws. -/
def Net.step (s : Net) : LOp → Option (Bool × Net)
  | .linkTo a b => some (s.linkTo a b)
  | .unlink a => (s.unlink a).map fun s => (true, s)

/-- What the callbacks of a face that receives the packet call, while the loop over the vector of link `l` goes on: the iterators of
the loop do not survive a change of the vector. Exceptions are caught in the callbacks. -/
def Net.react (l : Nat) : List LOp → Net → Option Net
  | [], s => some s
  | op :: ops, s =>
    match s.step op with
    | none => none
    | some (_, s') => if s'.faces l = s.faces l then Net.react l ops s' else none

/-- The loops in `enableBroadcastLink`, 164-194: the faces that receive a packet sent by `a`, in order. -/
def Net.loop (a l : Nat) (callback : Nat → List LOp) : List Nat → Net → Option (List Nat × Net)
  | [], s => some ([], s)
  | b :: rest, s =>
    if b = a then Net.loop a l callback rest s
    else match Net.react l (callback b) s with
      | none => none
      | some s => (Net.loop a l callback rest s).map fun r => (b :: r.1, r.2)

/-- A packet is sent by `a`. -/
def Net.send (s : Net) (a : Nat) (callback : Nat → List LOp) : Option (List Nat × Net) :=
  match s.link a with
  | none => some ([], s)
  | some l => Net.loop a l callback (s.faces l) s

/-- Several calls, whatever they throw; `none`: undefined behaviour. -/
def Net.run : List LOp → Net → Option Net
  | [], s => some s
  | op :: ops, s => (s.step op).bind fun r => Net.run ops r.2

end Ndn.Dummy
