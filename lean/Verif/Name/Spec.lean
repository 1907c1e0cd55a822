import Verif.Name.Model
import Verif.Block.Spec
/-
Independent specification: canonical order, validity.
-/
namespace Ndn.Name.Spec

/-- NDN canonical order of components: by TYPE, then by LENGTH, then byte by byte. -/
def CompLt (a b : Comp) : Prop :=
  a.type < b.type ∨ (a.type = b.type ∧ (a.value.length < b.value.length ∨
    (a.value.length = b.value.length ∧ List.Lex (fun x y : UInt8 => x.toNat < y.toNat) a.value b.value)))

/-- Canonical order of names: lexicographic by components, a proper prefix first. -/
def NameLt (a b : List Comp) : Prop := List.Lex CompLt a b

/-- A valid component: TYPE 1..65535; the two digest types hold 32 octets. -/
def ValidComp (c : Comp) : Prop :=
  1 ≤ c.type ∧ c.type ≤ 65535 ∧ (c.type = 1 ∨ c.type = 2 → c.value.length = 32)

def ValidName (n : List Comp) : Prop := ∀ c ∈ n, ValidComp c

/-- The encoding a component object carries, if any, is the shortest one. -/
def Canonical (c : WComp) : Prop := ∀ w, c.wire = some w → w = Block.Spec.tlv c.comp.type c.comp.value

/-- Sizes that fit: types and lengths as in any packet. -/
def Small (c : WComp) : Prop := c.comp.type < 2 ^ 31 ∧ c.comp.value.length < 2 ^ 31

end Ndn.Name.Spec
