import Verif.Bundle.Model
import Verif.Block.Spec
/-
What a certificate bundle says.
-/
namespace Ndn.Bundle.Spec
open Ndn.Block Ndn.Block.Spec

variable {C : Type}

/-- `bs` is a sequence of whole TLV elements followed by octets that no element begins. -/
def Parts (bs : Bytes) (es : List Raw) (tail : Bytes) : Prop :=
  bs = (es.map Raw.wire).flatten ++ tail ∧ (∀ e ∈ es, TlvForm e.wire e.type e.value) ∧
    ∀ w t v rest, TlvForm w t v → tail ≠ w ++ rest

/-- An element that may be in a bundle: a certificate that the handlers accept, or something that may be ignored (types of more than 31 that
are even). -/
def Good (cert : Raw → Option C) (throws : C → Bool) (e : Raw) : Prop :=
  (e.type = 6 ∧ ∃ c, cert e = some c ∧ throws c = false) ∨ (e.type ≠ 6 ∧ 31 < e.type ∧ e.type % 2 = 0)

/-- The certificates among these elements. -/
def certsOf (cert : Raw → Option C) (es : List Raw) : List C := (es.filter (fun e => e.type = 6)).filterMap cert

end Ndn.Bundle.Spec
