import Verif.Name.Spec
import Verif.Hex.Spec
/-
Independent specification: what the text of a component and of a name stands for (NDN URI scheme).
-/
namespace Ndn.Name.Spec
open Hex.Spec

/-- `Decimal s n`: `s` is the decimal notation of `n`, without leading zeros. -/
inductive Decimal : Bytes → Nat → Prop
  | digit (d : Nat) (h : d < 10) : Decimal [UInt8.ofNat (48 + d)] d
  | snoc {s : Bytes} {n : Nat} (d : Nat) (hs : Decimal s n) (hn : 1 ≤ n) (h : d < 10) :
      Decimal (s ++ [UInt8.ofNat (48 + d)]) (n * 10 + d)

/-- `Unescaped s v`: percent-decoding of `s` gives `v`. A `%` with two digits is an octet; a `%` followed by two characters
that are not both digits stands, with these, for itself; so does a `%` nearer to the end. -/
inductive Unescaped : Bytes → Bytes → Prop
  | nil : Unescaped [] []
  | plain {a : UInt8} {s v : Bytes} (ha : a ≠ 37) (hs : Unescaped s v) : Unescaped (a :: s) (a :: v)
  | hex {b c x : UInt8} {h l : Nat} {s v : Bytes} (hb : HexDigit b h) (hc : HexDigit c l) (hx : x.toNat = h * 16 + l)
      (hs : Unescaped s v) : Unescaped (37 :: b :: c :: s) (x :: v)
  | bad {b c : UInt8} {s v : Bytes} (hbc : ¬ ((∃ h, HexDigit b h) ∧ ∃ l, HexDigit c l)) (hs : Unescaped s v) :
      Unescaped (37 :: b :: c :: s) (37 :: b :: c :: v)
  | last : Unescaped [37] [37]
  | last2 (b : UInt8) : Unescaped [37, b] [37, b]

/-- The octets of an ASCII text. -/
def text (s : String) : Bytes := s.toList.map (fun c => UInt8.ofNat c.toNat)

/-- Nothing but periods. -/
def Dots (v : Bytes) : Prop := ∀ c ∈ v, c = 46

/-- The value an escaped text stands for: after percent-decoding, three periods are taken off a text of periods only. -/
def ValueText (s v : Bytes) : Prop :=
  (Unescaped s v ∧ ¬ Dots v) ∨ (Unescaped s ([46, 46, 46] ++ v) ∧ Dots v)

/-- Names of the digest types. -/
def DigestType (p : Bytes) (t : Nat) : Prop :=
  (p = text "sha256digest" ∧ t = 1) ∨ (p = text "params-sha256" ∧ t = 2)

/-- Names of the number types. -/
def NumberType (p : Bytes) (t : Nat) : Prop :=
  (p = text "seg" ∧ t = 50) ∨ (p = text "off" ∧ t = 52) ∨ (p = text "v" ∧ t = 54) ∨
  (p = text "t" ∧ t = 56) ∨ (p = text "seq" ∧ t = 58)

/-- The shortest of the four widths of a big-endian number. -/
def ShortestNumber (v : Bytes) (n : Nat) : Prop :=
  Tlv.beNat v = n ∧ (v.length = 1 ∨ (v.length = 2 ∧ 2 ^ 8 ≤ n) ∨ (v.length = 4 ∧ 2 ^ 16 ≤ n) ∨ (v.length = 8 ∧ 2 ^ 32 ≤ n))

/-- `Denotes s c`: the text `s` stands for the component `c`. -/
inductive Denotes : Bytes → Comp → Prop
  | generic {s v : Bytes} (hs : (61 : UInt8) ∉ s) (hv : ValueText s v) : Denotes s ⟨8, v⟩
  | typed {p s v : Bytes} {t : Nat} (hp : Decimal p t) (h1 : 1 ≤ t) (h2 : t ≤ 65535)
      (h32 : t = 1 ∨ t = 2 → v.length = 32) (hv : ValueText s v) : Denotes (p ++ [61] ++ s) ⟨t, v⟩
  | digest {p s v : Bytes} {t : Nat} (hp : DigestType p t) (hv : HexForm s v) (h32 : v.length = 32) :
      Denotes (p ++ [61] ++ s) ⟨t, v⟩
  | number {p s v : Bytes} {t n : Nat} (hp : NumberType p t) (hs : Decimal s n) (hn : n < 2 ^ 64)
      (hv : ShortestNumber v n) : Denotes (p ++ [61] ++ s) ⟨t, v⟩

/-- The texts of the components: one empty text after the last slash does not count. -/
def compTexts : List Bytes → List Bytes
  | [] => []
  | [p] => if p = [] then [] else [p]
  | p :: q :: ps => p :: compTexts (q :: ps)

/-- `DenoteAll ps cs`: the texts, one by one, stand for the components. -/
inductive DenoteAll : List Bytes → List Comp → Prop
  | nil : DenoteAll [] []
  | cons {p : Bytes} {c : Comp} {ps : List Bytes} {cs : List Comp} (h : Denotes p c) (hs : DenoteAll ps cs) :
      DenoteAll (p :: ps) (c :: cs)

/-- Texts joined by slashes. -/
def joined (p : Bytes) (ps : List Bytes) : Bytes := p ++ ps.flatMap (fun q => 47 :: q)

end Ndn.Name.Spec
