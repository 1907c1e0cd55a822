import Verif.Ims.Model
import Verif.Name.OrderLemmas
/-
Specification of in-memory storages: which packets are stored, since when, until when fresh, and how
often used, as a function of what was observed; and which packet a policy may evict.
-/
namespace Ndn.Ims.Spec
open Ndn.Name Ndn.Name.Spec

structure Item where
  full : List Comp
  staleAt : Option Nat
  uses : Nat
  deriving DecidableEq, Repr

/-- Stored packets. FIFO: oldest first; LRU: least recently used first. -/
abbrev Abs := List Item

/-- The effect of a use under a policy. -/
def use (policy : Policy) (n : List Comp) (a : Abs) : Abs :=
  match policy with
  | .lru => a.filter (fun x => x.full ≠ n) ++ a.filter (fun x => x.full = n)
  | .lfu => a.map (fun x => if x.full = n then { x with uses := x.uses + 1 } else x)
  | _ => a

/-- What a policy may evict. -/
def MayEvict (policy : Policy) (n : List Comp) (a : Abs) : Prop :=
  match policy with
  | .fifo | .lru => ∃ x, a.head? = some x ∧ x.full = n
  | .lfu => ∃ x ∈ a, x.full = n ∧ ∀ y ∈ a, x.uses ≤ y.uses
  | .persistent => False

instance (policy : Policy) (n : List Comp) (a : Abs) : Decidable (MayEvict policy n a) := by
  unfold MayEvict
  cases policy
  · exact decidable_of_iff (a.head?.any (fun x => x.full = n) = true) (by cases a <;> simp)
  · exact decidable_of_iff (a.head?.any (fun x => x.full = n) = true) (by cases a <;> simp)
  · exact decidable_of_iff (a.any (fun x => x.full = n && a.all (fun y => x.uses ≤ y.uses)) = true) (by simp)
  · exact instDecidableFalse

/-- One observation; `none`: not allowed. `exact`: a find by full name counts as a use. -/
def obsStep (policy : Policy) (exact : Bool) (a : Abs) : Obs → Option Abs
  | .inserted n d => if a.any (fun x => x.full = n) then none else some (a ++ [⟨n, d, 0⟩])
  | .used n => if a.any (fun x => x.full = n) then some (use policy n a) else none
  | .usedExact n =>
    if a.any (fun x => x.full = n) then some (if exact then use policy n a else a) else none
  | .evicted n => if MayEvict policy n a then some (a.filter (fun x => x.full ≠ n)) else none
  | .erased n => if a.any (fun x => x.full = n) then some (a.filter (fun x => x.full ≠ n)) else none

def obsRun (policy : Policy) (exact : Bool) : Abs → List Obs → Option Abs
  | a, [] => some a
  | a, o :: l => (obsStep policy exact a o).bind (fun a => obsRun policy exact a l)

/-- Implicit digests have 32 octets. -/
def ValidOps (ops : List Op) : Prop := ∀ p w, Op.insert p w ∈ ops → p.digest.length = 32

/-- States a storage can be in. Restrictions (C42 has witnesses for what goes wrong without them): the
limit is not 0; with a limit below 16, `erase` is not called; a persistent storage gets fewer calls than
its limit (2^64 - 1). -/
def Reach (policy : Policy) (limit : Nat) (hasSched : Bool) (s : St) : Prop :=
  1 ≤ limit ∧ ∃ ops, ValidOps ops ∧ (limit < 16 → ∀ n b, Op.erase n b ∉ ops) ∧
    (policy = .persistent → ops.length < limit) ∧ s = run (init policy limit hasSched) ops

/-- A packet is in the storage. -/
def Stored (s : St) (p : Pkt) : Prop := ∃ e ∈ s.cache, e.pkt = p

/-- A packet is in the storage, and not marked stale. -/
def StoredFresh (s : St) (p : Pkt) : Prop := ∃ e ∈ s.cache, e.pkt = p ∧ e.fresh = true

/-- `p` is the first packet with property `Q` in the canonical order of full names. -/
def First (s : St) (Q : Pkt → Prop) (p : Pkt) : Prop :=
  Stored s p ∧ Q p ∧ ∀ q, Stored s q → Q q → q ≠ p → NameLt p.full q.full

/-- An Interest matches a packet: by its name, or by its full name, or, with CanBePrefix, by a prefix. -/
def Matches (f : Interest.IFields) (p : Pkt) : Prop :=
  f.name = p.name ∨ f.name = p.full ∨ (f.canBePrefix = true ∧ (f.name <+: p.name ∨ f.name <+: p.full))

end Ndn.Ims.Spec
