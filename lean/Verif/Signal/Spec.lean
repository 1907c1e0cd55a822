import Verif.Signal.Model
/-
Specification of signals: an automaton over what is observed. Its state is the list of connected
handlers (identity, single-shot) in connection order and, during an emission, the handlers still to
be called.
-/
namespace Ndn.Signal.Spec

structure Abs where
  conn : List (Nat × Bool)
  todo : Option (List Nat)
  deriving DecidableEq, Repr

def Abs.init : Abs := ⟨[], none⟩

/-- One observation; `none`: not allowed. -/
def obsStep (a : Abs) : Obs → Option Abs
  | .connected id sg => some ⟨a.conn ++ [(id, sg)], a.todo⟩
  | .disconnected id => some ⟨a.conn.filter (fun x => x.1 ≠ id), a.todo⟩
  | .emit => if a.todo = none then some ⟨a.conn, some (a.conn.map Prod.fst)⟩ else none
  | .called id =>
    match a.todo with
    | some (x :: rest) => if x = id then some ⟨a.conn, some rest⟩ else none
    | _ => none
  | .returned id => some ⟨a.conn.filter (fun x => ¬ (x.1 = id ∧ x.2 = true)), a.todo⟩
  | .threw _ => some ⟨a.conn, none⟩
  | .done => if a.todo = some [] then some ⟨a.conn, none⟩ else none

def obsRun : Abs → List Obs → Option Abs
  | a, [] => some a
  | a, o :: l => (obsStep a o).bind (fun a => obsRun a l)

/-- Histories, as long as nothing undefined is asked for and no handler throws after disconnecting
itself. -/
inductive Clean : St → Prop where
  | init : Clean .init
  | step {s : St} (op : Op) : Clean s →
      (op = .throw → ∀ cur last m, s.mode = .handler cur last m → isConnected s cur = true) →
      Clean (step s op)

end Ndn.Signal.Spec
