import Verif.Fetch.Model
/-
Specification of segment fetching: which sequences of signals are right.
-/
namespace Ndn.Fetch.Spec

def terminal : Obs → Bool
  | .complete _ | .inOrderComplete | .error _ => true
  | _ => false

/-- Segment `i` was validated with this content. -/
def HasSeg (log : List Obs) (i : Nat) (c : Bytes) : Prop := ∃ d, Obs.validated d ∈ log ∧ d.seg = some i ∧ d.content = c

/-- The FinalBlockId a signal carries. -/
def finalOf : Obs → Option Nat
  | .validated d => d.final.join
  | _ => none

/-- The last FinalBlockId validated. -/
def lastFinal (log : List Obs) : Option Nat := (log.filterMap finalOf).getLast?

/-- The contents delivered in order. -/
def delivered (log : List Obs) : List Bytes := log.filterMap fun o => match o with | .inOrder c => some c | _ => none

/-- A signal is right after a history of signals. -/
def Allowed (pre : List Obs) (o : Obs) : Prop :=
  (∀ x ∈ pre, terminal x = false) ∧
  match o with
  | .validated d => Obs.received d ∈ pre
  | .inOrder c => HasSeg pre (delivered pre).length c
  | .complete buf => ∃ (f : Nat) (cs : List Bytes), lastFinal pre = some f ∧ cs.length = f + 1 ∧
      (∀ (i : Nat) c, cs[i]? = some c → HasSeg pre i c) ∧ buf = cs.flatten
  | .inOrderComplete => ∃ f, lastFinal pre = some f ∧ f < (delivered pre).length
  | _ => True

def Ok (log : List Obs) : Prop := ∀ pre o post, log = pre ++ o :: post → Allowed pre o

/-- Every Data's numbers are 64-bit numbers. -/
def ValidEvs (evs : List Ev) : Prop :=
  ∀ i d v w a b, Ev.data i d v w a b ∈ evs → (∀ k, d.seg = some k → k < 2 ^ 64) ∧ (∀ f, d.final = some (some f) → f < 2 ^ 64)

end Ndn.Fetch.Spec

namespace Ndn.Fetch.Spec

/-- The validator answers at once and handlers do not stop the fetcher. -/
def Calm : Ev → Prop
  | .data _ _ v _ a b => v ≠ none ∧ a = false ∧ b = false
  | .result _ _ _ a => a = false
  | .nack _ _ _ a => a = false
  | .timeout _ _ a => a = false
  | _ => True

/-- The producer's object has segments 0..N, and no other last segment is announced. -/
def Consistent (N : Nat) : Ev → Prop
  | .data _ d _ _ _ _ => (∀ k, d.seg = some k → k ≤ N) ∧ (∀ f, d.final = some (some f) → f = N)
  | _ => True

end Ndn.Fetch.Spec
