import Verif.Block.Spec
/-
Histories of calls on a Block object, and the abstract list they should behave like (C08).
-/
namespace Ndn.Block
open Spec

namespace Obj
mutual
/-- What the block stands for as a TLV-VALUE: the value it carries, or else the canonical encoding
of its elements. -/
def content : Obj → Bytes
  | mk _ (some (_, v)) _ _ => v
  | mk _ none _ es => contentList es
def contentList : List Obj → Bytes
  | [] => []
  | e :: es => tlv e.type (content e) ++ contentList es
end

/-- A block as (type, value). -/
def abs (e : Obj) : Nat × Bytes := (e.type, content e)
end Obj

/-- Calls on a Block. -/
inductive Op where
  | pushBack (e : Obj)
  | insert (i : Nat) (e : Obj)
  | erase (i : Nat)
  | eraseRange (i j : Nat)
  | remove (t : Nat)
  | encode
  | parse

/-- Whether the call is a mutator. -/
def Op.mutates : Op → Bool
  | .encode => false
  | .parse => false
  | _ => true

/-- One call; `none` when its precondition on positions is violated. -/
def Obj.step (b : Obj) : Op → Option Obj
  | .pushBack e => some (b.pushBack e)
  | .insert i e => b.insert i e
  | .erase i => b.erase i
  | .eraseRange i j => b.eraseRange i j
  | .remove t => some (b.remove t)
  | .encode => some b.encode
  | .parse => some b.parse.2

def Obj.run (b : Obj) : List Op → Option Obj
  | [] => some b
  | op :: ops => (b.step op).bind (fun b' => b'.run ops)

namespace Spec
/-- The same call on a plain list of (type, value). -/
def listStep (l : List (Nat × Bytes)) : Op → Option (List (Nat × Bytes))
  | .pushBack e => some (l ++ [e.abs])
  | .insert i e => if i ≤ l.length then some (l.take i ++ e.abs :: l.drop i) else none
  | .erase i => if i < l.length then some (l.eraseIdx i) else none
  | .eraseRange i j => if i ≤ j ∧ j ≤ l.length then some (l.take i ++ l.drop j) else none
  | .remove t => some (l.filter (fun p => p.1 ≠ t))
  | .encode => some l
  | .parse => some l

def listRun (l : List (Nat × Bytes)) : List Op → Option (List (Nat × Bytes))
  | [] => some l
  | op :: ops => (listStep l op).bind (fun l' => listRun l' ops)

/-- The canonical TLVs of a list of (type, value), concatenated. -/
def canonical (l : List (Nat × Bytes)) : Bytes := (l.map (fun p => tlv p.1 p.2)).flatten
end Spec
end Ndn.Block
