import Verif.Fetcher.Model
/-
What the fetchers are meant to do, said without them.
-/
namespace Ndn.Fetcher.Spec
open Ndn.Name Ndn.Cert

/-- Each request is followed by one outcome, for the certificate asked for, before the next request. The second argument is
the request still open. -/
inductive Served : List Obs → Option (List Comp) → Prop
  | nil : Served [] none
  | asked {l n} : Served l none → Served (l ++ [.asked n]) (some n)
  | continued {l n c} : Served l (some n) → Served (l ++ [.continued n c]) none
  | failed {l n} : Served l (some n) → Served (l ++ [.failed n]) none
  | bundle {l w n p} : Served l w → Served (l ++ [.bundle n p]) w
  | interest {l w n h b} : Served l w → Served (l ++ [.interest n h b]) w
  | wait {l w ms} : Served l w → Served (l ++ [.wait ms]) w
  | threw {l w} : Served l w → Served (l ++ [.threw]) w
  | undefined {l w} : Served l w → Served (l ++ [.undefined]) w

/-- The certificate came from the network, in a bundle or alone, or from another validation. -/
def Came (ops : List Op) (c : Crt) : Prop :=
  .other c ∈ ops ∨ ∃ d, .data d ∈ ops ∧ (d.asCert = some c ∨ ∃ es, d.elems = some es ∧ some c ∈ es)

/-- The component of a segment number, in the typed convention: TYPE 50. -/
def segment (k : Nat) : Comp := ⟨50, Tlv.writeNonNegativeInteger k⟩

/-- A segment number in either convention. -/
def IsSegment (c : Comp) : Prop :=
  c.type = 50 ∧ c.value.length ∈ [1, 2, 4, 8] ∨ c.type = 8 ∧ c.value.length ∈ [2, 3, 5, 9] ∧ c.value.head? = some 0

/-- An implicit digest. -/
def IsDigest (c : Comp) : Prop := c.type = 1 ∧ c.value.length = 32

/-- What is left of the name of a Data packet without its implicit digest and its segment number. -/
inductive Base : List Comp → List Comp → Prop
  | both {b s d} : IsSegment s → IsDigest d → Base (b ++ [s, d]) b
  | digest {b d} : (∀ x s, b = x ++ [s] → ¬ IsSegment s) → IsDigest d → Base (b ++ [d]) b
  | segment {b s} : IsSegment s → ¬ IsDigest s → Base (b ++ [s]) b
  | neither {b} : (∀ x s, b = x ++ [s] → ¬ IsSegment s ∧ ¬ IsDigest s) → Base b b

/-- How often something was observed. -/
def asks (l : List Obs) : Nat := l.countP (fun o => match o with | .asked _ => true | _ => false)
def bundles (l : List Obs) : Nat := l.countP (fun o => match o with | .bundle _ _ => true | _ => false)
/-- Interests for certificates whose answers are waited for. -/
def attempts (l : List Obs) : Nat := l.countP (fun o => match o with | .interest _ _ b => b | _ => false)

/-- Where Interests for certificates may go: `nextHop` and whether the answer is waited for. Nowhere offline; to the
network; only to the face the packet came from; or to both, and then the answer is waited for once. -/
def Allowed (i : Inner) (nextHop : Option Nat) (heard : Bool) : Prop :=
  match i with
  | .offline => False
  | .network => nextHop = none ∧ heard = true
  | .direct true f => f ≠ 0 ∧ nextHop = some f ∧ heard = true
  | .direct false f => nextHop = none ∧ heard = true ∨ f ≠ 0 ∧ nextHop = some f ∧ heard = false

/-- The answers that lead nowhere: a Nack or a timeout for an Interest that is out, and the end of the wait. -/
def noAnswer (s : St) (nack : Bool) : Op :=
  match s.phase with
  | .backoff _ => .retry
  | _ => if nack then .nack else .timeout

/-- A history of such answers. -/
def drive (E : Env) : St × List Obs → List Bool → St × List Obs
  | x, [] => x
  | x, b :: bs => let r := step E x.1 (noAnswer x.1 b); drive E (r.1, x.2 ++ r.2) bs

end Ndn.Fetcher.Spec
