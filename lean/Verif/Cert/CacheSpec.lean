import Verif.Cert.CacheModel
/-
Specification of certificate caches over the history of calls.
-/
namespace Ndn.Cert.CacheSpec
open Ndn.Name

/-- The clock after a history that began at `t0`. -/
def clock (t0 : Int) : List COp → Int
  | [] => t0
  | .setClock t :: ops => clock t ops
  | _ :: ops => clock t0 ops

/-- The calls that look up. -/
def isLookup : COp → Bool
  | .find _ | .findInterest _ _ => true
  | _ => false

/-- The last instant at which a certificate inserted at `t` may be returned. -/
def deadline (life t : Int) (c : Crt) : Int := min c.notAfter (t + life)

/-- No call of `clear` and no look-up after the deadline `d`, in the part `b` of the history after `a`. -/
def Undisturbed (t0 : Int) (a b : List COp) (d : Int) : Prop :=
  COp.clear ∉ b ∧ ∀ b1 q b2, b = b1 ++ q :: b2 → isLookup q = true → clock t0 (a ++ b1) ≤ d

/-- In this history `c` was inserted in time, and nothing since has removed it. -/
def Inserted (t0 life : Int) (ops : List COp) (c : Crt) (d : Int) : Prop :=
  ∃ a b, ops = a ++ COp.insert c :: b ∧ clock t0 a ≤ c.notAfter ∧ d = deadline life (clock t0 a) c ∧
    Undisturbed t0 (a ++ [COp.insert c]) b d

/-- `c` was inserted in time, when no other certificate of its name was there, and nothing since has
removed it. -/
def Cached (t0 life : Int) (ops : List COp) (c : Crt) (d : Int) : Prop :=
  ∃ a b, ops = a ++ COp.insert c :: b ∧ clock t0 a ≤ c.notAfter ∧ d = deadline life (clock t0 a) c ∧
    int64 (clock t0 a + life) = true ∧
    (∀ c' d', c'.name = c.name → ¬ Inserted t0 life a c' d') ∧
    Undisturbed t0 (a ++ [COp.insert c]) b d

end Ndn.Cert.CacheSpec
