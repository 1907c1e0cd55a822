import Verif.Regex.Model
/-
Specification of name regular expressions: syntax trees, their texts, their languages and captures.
-/
namespace Ndn.Regex.Spec

variable {α : Type}

/-- Quantifiers; numbers as written. -/
inductive Q where
  | one | opt | star | plus
  | exact (n : Bytes) | atMost (m : Bytes) | atLeast (n : Bytes) | between (n m : Bytes)
  deriving DecidableEq, Repr

/-- Expressions: a sequence of components `<re>`, sets `[<re1><re2>]` or `[^<re1><re2>]`, and groups, each with a quantifier. -/
inductive Pat where
  | nil
  | comp (re : Bytes) (q : Q) (rest : Pat)
  | set (neg : Bool) (res : List Bytes) (q : Q) (rest : Pat)
  | group (inner : Pat) (q : Q) (rest : Pat)
  deriving DecidableEq, Repr

/-- An expression with anchors. -/
structure Top where
  start : Bool
  fin : Bool
  pat : Pat
  deriving DecidableEq, Repr

/-! Texts -/

def Q.print : Q → Bytes
  | .one => []
  | .opt => [63]
  | .star => [42]
  | .plus => [43]
  | .exact n => 123 :: n ++ [125]
  | .atMost m => 123 :: 44 :: m ++ [125]
  | .atLeast n => 123 :: n ++ [44, 125]
  | .between n m => 123 :: n ++ 44 :: m ++ [125]

def setText (neg : Bool) (res : List Bytes) : Bytes :=
  (if neg then [94] else []) ++ res.flatMap fun re => 60 :: re ++ [62]

def Pat.print : Pat → Bytes
  | .nil => []
  | .comp re q rest => 60 :: re ++ 62 :: (q.print ++ rest.print)
  | .set neg res q rest => 91 :: setText neg res ++ 93 :: (q.print ++ rest.print)
  | .group inner q rest => 40 :: inner.print ++ 41 :: (q.print ++ rest.print)

def Top.print (t : Top) : Bytes := (if t.start then [94] else []) ++ t.pat.print ++ (if t.fin then [36] else [])

/-! Well-formedness -/

/-- Brackets balance. -/
def Bal (l r : UInt8) (x : Bytes) : Prop := (∀ p, p <+: x → p.count r ≤ p.count l) ∧ x.count l = x.count r

def Num (ds : Bytes) : Prop := ds ≠ [] ∧ (∀ c ∈ ds, 48 ≤ c ∧ c ≤ 57) ∧ number ds < 2 ^ 64

def Q.WF : Q → Prop
  | .exact n => Num n
  | .atMost m => Num m
  | .atLeast n => Num n
  | .between n m => Num n ∧ Num m ∧ number n ≤ number m
  | _ => True

/-- A component expression: balanced angle brackets, no NUL, accepted by the component regex library. -/
def CompWF (env : Env α) (re : Bytes) : Prop := Bal 60 62 re ∧ 0 ∉ re ∧ (env.marks re).isSome

def Pat.WF (env : Env α) : Pat → Prop
  | .nil => True
  | .comp re q rest => CompWF env re ∧ q.WF ∧ rest.WF env
  | .set neg res q rest => (∀ re ∈ res, CompWF env re) ∧ Bal 91 93 (setText neg res) ∧ q.WF ∧ rest.WF env
  | .group inner q rest => inner.WF env ∧ Bal 40 41 inner.print ∧ q.WF ∧ rest.WF env

/-! Languages -/

def Q.min : Q → Nat
  | .one | .plus => 1
  | .opt | .star | .atMost _ => 0
  | .exact n | .atLeast n | .between n _ => number n

def Q.max : Q → Option Nat
  | .one | .opt => some 1
  | .star | .plus | .atLeast _ => none
  | .exact n => some (number n)
  | .atMost m | .between _ m => some (number m)

/-- A number of repetitions is allowed. -/
def Q.Allows (q : Q) (k : Nat) : Prop := q.min ≤ k ∧ ∀ m, q.max = some m → k ≤ m

/-- `k` words of a language. -/
def Pow (L : List α → Prop) : Nat → List α → Prop
  | 0, w => w = []
  | k + 1, w => ∃ u v, w = u ++ v ∧ L u ∧ Pow L k v

/-- A component matches a component expression; the empty expression matches all. -/
def Fits (env : Env α) (re : Bytes) (c : α) : Prop := re = [] ∨ (env.eval re (env.uri c)).isSome

/-- The language of an expression. -/
def Lang (env : Env α) : Pat → List α → Prop
  | .nil, w => w = []
  | .comp re q rest, w => ∃ u v k, w = u ++ v ∧ q.Allows k ∧ Pow (fun x => ∃ c, x = [c] ∧ Fits env re c) k u ∧ Lang env rest v
  | .set neg res q rest, w => ∃ u v k, w = u ++ v ∧ q.Allows k ∧
      Pow (fun x => ∃ c, x = [c] ∧ ((∃ re ∈ res, Fits env re c) ↔ neg = false)) k u ∧ Lang env rest v
  | .group inner q rest, w => ∃ u v k, w = u ++ v ∧ q.Allows k ∧ Pow (Lang env inner) k u ∧ Lang env rest v

/-- The names an anchored expression denotes: a missing anchor allows any components at that end. -/
def Top.Lang (env : Env α) (t : Top) (w : List α) : Prop :=
  ∃ x y z, w = x ++ y ++ z ∧ Spec.Lang env t.pat y ∧ (t.start = true → x = []) ∧ (t.fin = true → z = [])

/-! When matching is right: groups that match the empty name -/

/-- No group that matches the empty name has a quantifier without upper bound. -/
def Pat.Bounded (env : Env α) : Pat → Prop
  | .nil => True
  | .comp _ _ rest => rest.Bounded env
  | .set _ _ _ rest => rest.Bounded env
  | .group inner q rest => inner.Bounded env ∧ (q.max = none → ¬ Lang env inner []) ∧ rest.Bounded env

/-- No group that matches the empty name has a quantifier that demands repetitions. -/
def Pat.Solid (env : Env α) : Pat → Prop
  | .nil => True
  | .comp _ _ rest => rest.Solid env
  | .set _ _ _ rest => rest.Solid env
  | .group inner q rest => inner.Solid env ∧ (q = .one ∨ q.min = 0 ∨ ¬ Lang env inner []) ∧ rest.Solid env

/-! Captures -/

/-- The number of groups, including those in component expressions. -/
def marksOf (env : Env α) (re : Bytes) : Nat := (env.marks re).getD 0

def Pat.groups (env : Env α) : Pat → Nat
  | .nil => 0
  | .comp re _ rest => marksOf env re + rest.groups env
  | .set _ res _ rest => (res.map (marksOf env)).sum + rest.groups env
  | .group inner _ rest => 1 + inner.groups env + rest.groups env

abbrev Caps (α : Type) := List (Nat × List α)

/-- The groups of a component: numbered from `n`, one component each. -/
def compCaps (env : Env α) (n : Nat) (re : Bytes) (c : α) (a : Caps α) : Prop :=
  (re = [] ∧ a = []) ∨
  (re ≠ [] ∧ ∃ gs, env.eval re (env.uri c) = some gs ∧ a = (gs.take (marksOf env re)).zipIdx.map fun x => (n + x.2, [env.lit x.1]))

/-- The first expression of a set that fits. -/
def setCaps (env : Env α) : Nat → List Bytes → α → Caps α → Prop
  | _, [], _, a => a = []
  | n, re :: res, c, a => (Fits env re c ∧ compCaps env n re c a) ∨ (¬ Fits env re c ∧ setCaps env (n + marksOf env re) res c a)

/-- `k` repetitions; the captures are those of the last one. -/
def PowD (D : List α → Caps α → Prop) : Nat → List α → Caps α → Prop
  | 0, w, a => w = [] ∧ a = []
  | 1, w, a => D w a
  | k + 2, w, a => ∃ u v b, w = u ++ v ∧ D u b ∧ PowD D (k + 1) v a

/-- Ways of matching, with what the groups capture; groups are numbered from `n` by their opening bracket. -/
def Way (env : Env α) : Pat → Nat → List α → Caps α → Prop
  | .nil, _, w, a => w = [] ∧ a = []
  | .comp re q rest, n, w, a => ∃ u v k b c, w = u ++ v ∧ a = b ++ c ∧ q.Allows k ∧
      PowD (fun x d => ∃ y, x = [y] ∧ Fits env re y ∧ compCaps env n re y d) k u b ∧ Way env rest (n + marksOf env re) v c
  | .set neg res q rest, n, w, a => ∃ u v k b c, w = u ++ v ∧ a = b ++ c ∧ q.Allows k ∧
      PowD (fun x d => ∃ y, x = [y] ∧ ((∃ re ∈ res, Fits env re y) ↔ neg = false) ∧ setCaps env n res y d) k u b ∧
      Way env rest (n + (res.map (marksOf env)).sum) v c
  | .group inner q rest, n, w, a => ∃ u v k b c, w = u ++ v ∧ a = b ++ c ∧ q.Allows k ∧
      PowD (fun x d => ∃ d', d = d' ++ [(n, x)] ∧ Way env inner (n + 1) x d') k u b ∧ Way env rest (n + 1 + inner.groups env) v c

/-- What a group captured. -/
def captured (a : Caps α) (r : Nat) : Option (List α) := (a.findRev? fun x => x.1 = r).map Prod.snd

/-! Expansion -/

/-- Items of an expansion: a literal `<uri>` or a reference `\n`. -/
inductive Item where
  | lit (uri : Bytes)
  | ref (n : Bytes)
  deriving DecidableEq, Repr

def Item.print : Item → Bytes
  | .lit u => 60 :: u ++ [62]
  | .ref n => 92 :: n

def Item.WF : Item → Prop
  | .lit u => Bal 60 62 u
  | .ref n => Num n

/-- What an item stands for: 0 is the whole name. -/
def Item.value (env : Env α) (groups : Nat) (cap : Nat → List α) (whole : List α) : Item → Option (List α)
  | .lit u => env.parse u
  | .ref n => if number n = 0 then some whole else if number n ≤ groups then some (cap (number n - 1)) else none

/-! Literal component expressions -/

/-- The characters with a meaning in ECMAScript expressions: `^ $ \ . * + ? ( ) [ ] { } |`. -/
def syntaxChars : Bytes := [94, 36, 92, 46, 42, 43, 63, 40, 41, 91, 93, 123, 125, 124]

/-- An expression without operators: the text that it stands for. -/
inductive Literal : Bytes → Bytes → Prop where
  | nil : Literal [] []
  | char (c : UInt8) (e x : Bytes) : c ∉ syntaxChars → Literal e x → Literal (c :: e) (c :: x)
  | escaped (c : UInt8) (e x : Bytes) : c ∈ syntaxChars → Literal e x → Literal (92 :: c :: e) (c :: x)

end Ndn.Regex.Spec
