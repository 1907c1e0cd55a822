import Verif.Logging.Model
/-
What logging.hpp 55-75 says about `setLevel`.
-/
namespace Ndn.Logging.Spec
open Ndn

/-- A rule given to `setLevel`: a prefix and a level. -/
abbrev Rule := Bytes × Level

/-- The loggers a prefix speaks of: one logger, or, with an asterisk at the end, all those whose name begins so. Nothing is
the same as only an asterisk. -/
def Matches (pat name : Bytes) : Prop := pat = [] ∨ pat = name ∧ pat.getLast? ≠ some 42 ∨ ∃ p, pat = p ++ [42] ∧ p <+: name

/-- The prefixes of the documentation: nothing or an asterisk, a name, a name followed by a dot and an asterisk; here a name
is anything that ends neither in a dot nor an asterisk. -/
def Documented (pat : Bytes) : Prop :=
  pat = [] ∨ pat = [42] ∨ (∃ p, pat = p ++ [46, 42]) ∨ (pat.getLast? ≠ some 42 ∧ pat.getLast? ≠ some 46)

open Classical in
/-- The level a logger has: that of the last rule that speaks of it, and NONE if there is none. -/
noncomputable def Wanted (name : Bytes) (rules : List Rule) : Level :=
  ((rules.reverse.find? (fun r => decide (Matches r.1 name))).map (·.2)).getD .none

/-- The names a logger may have: at least one character, letters, digits and `~#%_<>.-`, and no dot at either end or next to
another one. -/
def GoodName (n : Bytes) : Prop :=
  n ≠ [] ∧ (∀ c ∈ n, 97 ≤ c ∧ c ≤ 122 ∨ 65 ≤ c ∧ c ≤ 90 ∨ 48 ≤ c ∧ c ≤ 57 ∨ c ∈ [126, 35, 37, 95, 60, 62, 46, 45]) ∧
  (∀ l, n ≠ 46 :: l) ∧ (∀ l, n ≠ l ++ [46]) ∧ ∀ a b, n ≠ a ++ [46, 46] ++ b

/-- A text of `key=value` pairs separated by colons; a colon may stand at the end. -/
def Splits (text : Bytes) (ps : List Bytes) : Prop :=
  (∀ p ∈ ps, (58 : UInt8) ∉ p) ∧ (text = [58].intercalate ps ∧ ps.getLast? ≠ some [] ∨ text = [58].intercalate ps ++ [58] ∧ ps ≠ [])

/-- The pairs for these rules: the prefix, an equals sign, the name of the level. The first equals sign ends the prefix. -/
def Pairs (ps : List Bytes) (rs : List Rule) : Prop :=
  ps = rs.map (fun r => r.1 ++ [61] ++ r.2.text) ∧ ∀ r ∈ rs, (61 : UInt8) ∉ r.1

/-- The rules a history of calls gives, in order; those of a text only if it is accepted. -/
inductive Gives : List Op → List Rule → Prop
  | nil : Gives [] []
  | logger {n ops rs} : Gives ops rs → Gives (ops ++ [.logger n]) rs
  | register {n ops rs} : Gives ops rs → Gives (ops ++ [.register n]) rs
  | set {pat l ops rs} : Gives ops rs → Gives (ops ++ [.set pat l]) (rs ++ [(pat, l)])
  | config {text ps new ops rs} : Gives ops rs → Splits text ps → Pairs ps new →
      Gives (ops ++ [.config text]) (rs ++ new)

end Ndn.Logging.Spec
