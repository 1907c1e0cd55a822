import Verif.Scoped.Model
/-
What is asked of handles.
-/
namespace Ndn.Scoped.Spec
open Ndn.Scoped

/-- The operations held by the objects that exist. -/
def held {T : Type} (s : St T) : List T := s.objs.filterMap Prod.snd

/-- An object that exists holds this connection. -/
def Holds (s : CSt) (c : Nat) : Prop := ∃ i, (i, some c) ∈ s.objs

end Ndn.Scoped.Spec
