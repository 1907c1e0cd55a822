import Verif.Mgmt.Dataset
import Verif.Name.EditProps
/-
What a StatusDataset response consists of, in terms of the calls a handler made and how each of them ended.
-/
namespace Ndn.Mgmt
open Name

/-- The calls made, each with its result. -/
abbrev CtxHist := List (CtxOp × CtxRes)

/-- The bytes given to the calls of `append` that succeeded, in order. -/
def appendedBy : CtxHist → Bytes
  | [] => []
  | (.append b, .ok) :: h => b ++ appendedBy h
  | _ :: h => appendedBy h

def Appended (h : CtxHist) : Prop := ∃ b, (CtxOp.append b, CtxRes.ok) ∈ h
def Ended (h : CtxHist) : Prop := (CtxOp.finish, CtxRes.ok) ∈ h
def Rejected (h : CtxHist) : Prop := ∃ code, (CtxOp.reject code, CtxRes.ok) ∈ h

/-- The bytes cut into segments of at most `max` bytes: all segments but the last are full, and the last is empty only
if there are no bytes at all. -/
structure Cut (max : Nat) (bytes : Bytes) (segments : List Bytes) : Prop where
  nonempty : segments ≠ []
  complete : segments.flatten = bytes
  bounded : ∀ x ∈ segments, x.length ≤ max
  full : ∀ (i : Nat) x, segments[i]? = some x → i + 1 < segments.length → x.length = max
  last : segments.getLast? = some [] → bytes = []

/-- The segments under a prefix, numbered from `start`: each is named with its number, and is marked final if it is the
last one of a complete response. -/
def segmentsFrom (s : Settings) (pfx : List Comp) (complete : Bool) : Nat → List Bytes → List Sent
  | _, [] => []
  | start, x :: xs =>
    .data (pfx ++ [Spec.convComp s.encodeMarker .segment start]) x (complete && xs.isEmpty) ::
      segmentsFrom s pfx complete (start + 1) xs

/-- The prefix asked for: that of the last `setPrefix` that succeeded, or else the name of the Interest. -/
def askedPrefix (interest : List Comp) (h : CtxHist) : List Comp :=
  h.foldl (fun acc e => match e with | (.setPrefix p _, .ok) => p | _ => acc) interest

/-- A prefix as it is used: with a version as its last component, added if there is none. -/
def Versioned (s : Settings) (p used : List Comp) : Prop :=
  (used = p ∧ ∃ l, p.getLast? = some l ∧ Conv.version.is s l = true) ∨
  (∃ v, used = p ++ [Spec.convComp s.encodeMarker .version v] ∧ ∀ l, p.getLast? = some l → Conv.version.is s l = false)

/-- How a call made after the calls in `h` ends. -/
def EndsRight (s : Settings) (interest : List Comp) (h : CtxHist) : CtxOp → CtxRes → Prop
  | .append _, r => (r = .ok ∨ r = .logicError) ∧ (r = .ok ↔ ¬ (Ended h ∨ Rejected h))
  | .finish, r => (r = .ok ∨ r = .logicError) ∧ (r = .ok ↔ ¬ (Ended h ∨ Rejected h))
  | .reject _, r => (r = .ok ∨ r = .logicError) ∧ (r = .ok ↔ ¬ (Appended h ∨ Ended h ∨ Rejected h))
  | .setPrefix p _, r =>
    (r = .logicError ↔ Appended h ∨ Ended h ∨ Rejected h) ∧
    (r = .ok ↔ ¬ (Appended h ∨ Ended h ∨ Rejected h) ∧ interest <+: p ∧
      ∃ l, p.getLast? = some l ∧ Conv.segment.is s l = false)

end Ndn.Mgmt
