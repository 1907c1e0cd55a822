import Verif.Locator.Model
/-
What is asked of KeyChains and their back ends.
-/
namespace Ndn.Locator.Spec
open Ndn.Locator

variable {N : Type}

/-- Every key of the PIB of this KeyChain has its private key in its TPM. -/
def Matched (w : World N) (k : KC N) : Prop := ∀ n ∈ (pibState w k.pib).keys, n ∈ tpmKeys w k.tpm

/-- The keys recorded in this database. -/
def recorded (w : World N) (q : Text) : List N := (w.db q).keys

/-- Two texts mean the same locator of a PIB: they have the same scheme, the default one if there is none, and the same location. -/
def scheme (u : Text) : Text := u.takeWhile (· ≠ ':')
def location (u : Text) : Text := (u.dropWhile (· ≠ ':')).drop 1

/-- The default locator: the environment variable if it is set, otherwise the entry of the configuration file, otherwise nothing (the default
back end and location). -/
def wanted (env entry : Option Text) : Text :=
  match env, entry with
  | some e, _ => e
  | none, some c => c
  | none, none => []

end Ndn.Locator.Spec
