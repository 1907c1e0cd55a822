import Verif.Dummy.Model
/-
Who hears whom.
-/
namespace Ndn.Dummy.Spec

open Classical in
/-- Who hears whom after the calls, the last one first. Linking two faces puts them and all that hear them on one link, unless both are
on links already and not on the same. Unlinking takes a face from its link. -/
def Hears : List LOp → Nat → Nat → Prop
  | [], _, _ => False
  | .linkTo a b :: ops, x, y =>
    if ¬ Hears ops a b ∧ (∃ z, Hears ops a z) ∧ (∃ z, Hears ops b z) then Hears ops x y
    else x ≠ y ∧ (Hears ops x y ∨ ((x = a ∨ x = b ∨ Hears ops a x ∨ Hears ops b x) ∧ (y = a ∨ y = b ∨ Hears ops a y ∨ Hears ops b y)))
  | .unlink a :: ops, x, y => Hears ops x y ∧ x ≠ a ∧ y ≠ a

/-- The two faces are on different links. -/
def Conflict (ops : List LOp) (a b : Nat) : Prop := ¬ Hears ops a b ∧ (∃ z, Hears ops a z) ∧ (∃ z, Hears ops b z)

/-- No face is linked to itself. -/
def NoSelf (ops : List LOp) : Prop := ∀ a, LOp.linkTo a a ∉ ops

end Ndn.Dummy.Spec
