import Verif.Net.Model
import Verif.Hex.Spec
/-
Specification of FaceUri text, of Ethernet addresses and of canonization, independent of the regular expressions and of
`sscanf`.
-/
namespace Ndn.Net.Spec
open Ndn.Net

/-! ### Characters -/

def Digit (c : UInt8) : Prop := 48 ≤ c.toNat ∧ c.toNat ≤ 57
def HexChar (c : UInt8) : Prop := ∃ d, Hex.Spec.HexDigit c d
def Word (c : UInt8) : Prop :=
  Digit c ∨ (65 ≤ c.toNat ∧ c.toNat ≤ 90) ∨ (97 ≤ c.toNat ∧ c.toNat ≤ 122) ∨ c = ch '_'
def White (c : UInt8) : Prop := c = 32 ∨ (9 ≤ c.toNat ∧ c.toNat ≤ 13)

/-- A non-empty text all of whose characters are in `P`. -/
def Some1 (P : UInt8 → Prop) (s : Bytes) : Prop := s ≠ [] ∧ ∀ c ∈ s, P c

/-! ### The grammar `scheme://host[:port]/path` -/

/-- A scheme: a word, or two words joined by `+`. -/
def Scheme (s : Bytes) : Prop := Some1 Word s ∨ ∃ a b, s = a ++ ch '+' :: b ∧ Some1 Word a ∧ Some1 Word b

/-- A port as written: nothing, or `:` and digits. -/
def PortText (t port : Bytes) : Prop := (t = [] ∧ port = []) ∨ (t = ch ':' :: port ∧ Some1 Digit port)

/-- A host in brackets: an IPv6 (or Ethernet) address, possibly with a zone. -/
def V6Host (h : Bytes) : Prop :=
  Some1 (fun c => HexChar c ∨ c = ch ':') h ∨
  ∃ a z, h = a ++ ch '%' :: z ∧ Some1 (fun c => HexChar c ∨ c = ch ':') a ∧
    Some1 (fun c => ¬ White c ∧ c ≠ ch '/' ∧ c ≠ ch ':') z

/-- Four numbers joined by dots. -/
def DottedQuad (s : Bytes) : Prop :=
  ∃ a b c d, s = a ++ ch '.' :: (b ++ ch '.' :: (c ++ ch '.' :: d)) ∧
    Some1 Digit a ∧ Some1 Digit b ∧ Some1 Digit c ∧ Some1 Digit d

/-- `[::ffff:`. -/
def mappedStart : Bytes := [ch '[', ch ':', ch ':', ch 'f', ch 'f', ch 'f', ch 'f', ch ':']

/-- The host and the port of an authority; `true`: the host is written in brackets. -/
inductive Authority : Bytes → Bytes → Bytes → Bool → Prop
  | empty : Authority [] [] [] false
  | v6 (h p t) : V6Host h → PortText t p → Authority (ch '[' :: h ++ ch ']' :: t) h p true
  | mapped (h p t) : DottedQuad h → PortText t p → Authority (mappedStart ++ h ++ ch ']' :: t) h p false
  | plain (h p t) : Some1 (· ≠ ch ':') h → PortText t p →
      (¬ ∃ h', V6Host h' ∧ h = ch '[' :: h' ++ [ch ']']) → Authority (h ++ t) h p false

/-- The text `s` is a FaceUri with the components of `f`. -/
def UriForm (s : Bytes) (f : FaceUri) : Prop :=
  ∃ auth, s = f.scheme ++ schemeEnd ++ auth ++ f.path ∧ Scheme f.scheme ∧ (∀ c ∈ auth, c ≠ ch '/') ∧
    (f.path = [] ∨ (f.path.head? = some (ch '/') ∧ ∀ c ∈ f.path, c ≠ ch '?')) ∧ Authority auth f.host f.port f.isV6

/-- The text is the IPv4-mapped form, which is not printed back. -/
def Mapped (s : Bytes) : Prop :=
  ∃ scheme h t path, s = scheme ++ schemeEnd ++ (mappedStart ++ h ++ ch ']' :: t) ++ path ∧ Scheme scheme ∧ DottedQuad h

/-! ### Ethernet addresses -/

/-- One or two hexadecimal digits with their value. -/
def Octet (s : Bytes) (b : UInt8) : Prop :=
  (∃ c d, s = [c] ∧ Hex.Spec.HexDigit c d ∧ b.toNat = d) ∨
  (∃ c₁ d₁ c₂ d₂, s = [c₁, c₂] ∧ Hex.Spec.HexDigit c₁ d₁ ∧ Hex.Spec.HexDigit c₂ d₂ ∧ b.toNat = d₁ * 16 + d₂)

/-- Six octets joined by one and the same separator, `:` or `-`. -/
def MacText (s : Bytes) (a : Mac) : Prop :=
  ∃ sep s0 s1 s2 s3 s4 s5, (sep = ch ':' ∨ sep = ch '-') ∧
    s = s0 ++ sep :: (s1 ++ sep :: (s2 ++ sep :: (s3 ++ sep :: (s4 ++ sep :: s5)))) ∧
    Octet s0 a.a0 ∧ Octet s1 a.a1 ∧ Octet s2 a.a2 ∧ Octet s3 a.a3 ∧ Octet s4 a.a4 ∧ Octet s5 a.a5

/-! ### Canonization -/

variable {A : Type}

/-- What is assumed of the address library: the text of an address reads back as that address; the text of an IPv4
address is a dotted quad. -/
structure IpOk (ip : Ip A) : Prop where
  make_text : ∀ a, ip.make (ip.text a) = some a
  v4 : ∀ a, ip.isV4 a = true → DottedQuad (ip.text a)

/-- Addresses whose text is unambiguous inside a FaceUri: IPv4; IPv6 in pure hexadecimal notation with, exactly for
link-local ones, a zone, which must not start with `25` followed by more. -/
def Plain (ip : Ip A) (a : A) : Prop :=
  ip.isV4 a = true ∨
  (ip.isLinkLocal a = false ∧ Some1 (fun c => HexChar c ∨ c = ch ':') (ip.text a)) ∨
  (ip.isLinkLocal a = true ∧ ∃ x z, ip.text a = x ++ ch '%' :: z ∧ Some1 (fun c => HexChar c ∨ c = ch ':') x ∧
    Some1 (fun c => ¬ White c ∧ c ≠ ch '/' ∧ c ≠ ch ':' ∧ c ≠ ch '%') z ∧
    ¬ ∃ w, w ≠ [] ∧ z = ch '2' :: ch '5' :: w)

end Ndn.Net.Spec
