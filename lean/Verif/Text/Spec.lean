import Verif.Text.Model
/-
What the texts stand for.
-/
namespace Ndn.Text.Spec

/-- The named route origins. -/
def Named (word : Bytes) (n : Nat) : Prop :=
  (word, n) ∈ [(w "none", 65535), (w "app", 0), (w "autoreg", 64), (w "client", 65), (w "autoconf", 66), (w "nlsr", 128),
    (w "prefixann", 129), (w "static", 255)]

/-- An ASCII letter in lower case. -/
def lower (c : UInt8) : UInt8 := if 65 ≤ c.toNat ∧ c.toNat ≤ 90 then UInt8.ofNat (c.toNat + 32) else c

/-- The number that decimal digits stand for. -/
def number (ds : Bytes) : Nat := ds.foldl (fun n c => n * 10 + (c.toNat - 48)) 0

def AllDigits (ds : Bytes) : Prop := ds ≠ [] ∧ ∀ c ∈ ds, 48 ≤ c.toNat ∧ c.toNat ≤ 57

/-- A word stands for a route origin: one of the names, in any case, or a decimal number in the range, perhaps with a sign. -/
def Denotes (t : Bytes) (n : Nat) : Prop :=
  Named (t.map lower) n ∨
  ∃ sign ds, t = sign ++ ds ∧ AllDigits ds ∧ number ds = n ∧ n ≤ 65535 ∧ (sign = [] ∨ sign = [43] ∨ (sign = [45] ∧ n = 0))

/-- White space in the "C" locale. -/
def White (c : UInt8) : Prop := c = 32 ∨ (9 ≤ c.toNat ∧ c.toNat ≤ 13)

/-- The number that hexadecimal digits stand for. -/
def hexNumber (ds : Bytes) : Nat := ds.foldl (fun n c => n * 16 + (if c.toNat ≤ 57 then c.toNat - 48 else c.toNat - 87)) 0

/-- Take a word off. -/
def strip (word s : Bytes) : Option Bytes := if word.isPrefixOf s then some (s.drop word.length) else none

/-- After a word, the end or a bar and more. -/
def bar : Bytes → Option Bytes
  | [] => some []
  | 124 :: c :: s => some (c :: s)
  | _ => none

/-- How a reader understands route flags: `none`, or the words `child-inherit` and `capture` and a hexadecimal number for the other bits, in this
order, with bars between them. -/
def readFlags (s : Bytes) : Option Nat :=
  if s = w "none" then some 0
  else do
    let (a, s) ← match strip (w "child-inherit") s with | some t => (bar t).map fun t => (1, t) | none => some (0, s)
    let (b, s) ← match strip (w "capture") s with | some t => (bar t).map fun t => (2, t) | none => some (0, s)
    let c ← match strip (w "0x") s with | some t => some (hexNumber t) | none => if s = [] then some 0 else none
    pure (a + b + c)

/-- Text in lines: each ends with a newline and has no other. -/
inductive Lines : Bytes → List Bytes → Prop
  | nil : Lines [] []
  | cons {l s ls} : (∀ c ∈ l, c ≠ 10) → Lines s ls → Lines (l ++ 10 :: s) (l :: ls)

/-- The text written until a flush, for each of them, and what was written after the last. -/
def chunks : List IOp → Bytes → List Bytes
  | [], acc => [acc]
  | .write t :: ops, acc => chunks ops (acc ++ t)
  | .flush :: ops, acc => acc :: chunks ops []

/-- All that was written. -/
def written : List IOp → Bytes
  | [] => []
  | .write t :: ops => t ++ written ops
  | .flush :: ops => written ops

/-- It ends a line, or is empty. -/
def AtLineEnd (s : Bytes) : Prop := s = [] ∨ s.getLast? = some 10

end Ndn.Text.Spec
