import Verif.Anchors.Model
/-
Specification for C61: what one group lists, as a function of the history, without regard to other groups.
-/
namespace Ndn.Anchors.Spec
open Ndn.Name Ndn.Cert

/-- What is known about a group: not there; certificates inserted one by one; or a path read last at `loaded`, which contained these certificates then. -/
inductive View where
  | absent
  | static (names : List Comp → Prop)
  | dynamic (path : Bytes) (isDir : Bool) (period loaded : Int) (names : List Comp → Prop)

/-- The names of certificates in a path. -/
def has (fs : Files) (path : Bytes) (isDir : Bool) : List Comp → Prop := fun n => ∃ c ∈ (fs path isDir).certs, c.name = n

/-- A path is read again when its period is over. -/
def reread (now : Int) (fs : Files) : View → View
  | .dynamic path isDir period loaded names =>
    if now < loaded + period then .dynamic path isDir period loaded names else .dynamic path isDir period now (has fs path isDir)
  | v => v

/-- The effect of a call on the group `id`. -/
def next (id : Bytes) : View → Op → View
  | .absent, .insert i c => if i = id then .static (· = c.name) else .absent
  | .static names, .insert i c => if i = id then .static (fun n => names n ∨ n = c.name) else .static names
  | .static names, .remove i m => if i = id then .static (fun n => names n ∧ n ≠ m) else .static names
  | .absent, .insertPath now fs i path period isDir => if i = id ∧ 0 < period then .dynamic path isDir period now (has fs path isDir) else .absent
  | v, .refresh now fs i => if i = id then reread now fs v else v
  | v, .find now fs _ => reread now fs v
  | _, .clear => .absent
  | v, _ => v

def view (id : Bytes) (ops : List Op) : View := ops.foldl (next id) .absent

def View.names : View → List Comp → Prop
  | .absent, _ => False
  | .static names, n => names n
  | .dynamic _ _ _ _ names, n => names n

/-- After these calls the group `id` lists a certificate named `n`. -/
def Lists (ops : List Op) (id : Bytes) (n : List Comp) : Prop := (view id ops).names n

/-- A call withdraws the name from a group, or asks to. -/
def Withdraws (before : List Op) (op : Op) (n : List Comp) : Prop :=
  (∃ id, op = .remove id n) ∨ ∃ id, Lists before id n ∧ ¬ Lists (before ++ [op]) id n

/-- Whenever the name is withdrawn from a group, no other lists it. -/
def Exclusive (ops : List Op) (n : List Comp) : Prop :=
  ∀ before op after, ops = before ++ op :: after → Withdraws before op n → ∀ id, ¬ Lists (before ++ [op]) id n

/-- The certificate was given to the container: by itself, or in a path that a group reads. -/
def Given (ops : List Op) (c : Crt) : Prop :=
  ∃ op ∈ ops, (∃ id, op = .insert id c) ∨
    ∃ now fs path isDir, ((∃ id period, op = .insertPath now fs id path period isDir) ∨ (∃ id, op = .refresh now fs id) ∨ ∃ order, op = .find now fs order) ∧
      c ∈ (fs path isDir).certs

/-- Calls that read files succeed, and the clock does not exceed 64 bits. (A call that is refused changes nothing.) -/
def Regular (outs : List Out) : Prop := ∀ o ∈ outs, o = .ok ∨ o = .refused

/-- The reading of the clock in a call. -/
def time : Op → Option Int
  | .insertPath now .. | .refresh now _ _ | .find now _ _ => some now
  | _ => none

/-- The (steady) clock is not negative. -/
def Clocked (ops : List Op) : Prop := ∀ op ∈ ops, ∀ t, time op = some t → 0 ≤ t

/-- The clock stays below the limit of 64 bits by the longest period used. -/
def InRange (ops : List Op) : Prop := ∃ longest : Int, (∀ op ∈ ops, ∀ t, time op = some t → t + longest ≤ 2 ^ 63 - 1) ∧
  ∀ now fs id path period isDir, Op.insertPath now fs id path period isDir ∈ ops → period ≤ longest

/-- A certificate is trusted: an Interest that only it satisfies finds it. -/
def Trusted (s : St) (c : Crt) : Prop := s.lookupInterest c.name (fun d => d = c) = some c

end Ndn.Anchors.Spec
