import Verif.Validator.Model
/-
What it means that a certificate is trusted and that a packet may be accepted, in terms of what the validator
was given and of the clock (C51); outcomes and requests of a validation (C52). Nothing here mentions the state
of the validator.
-/
namespace Ndn.Validator
open Ndn.Name Ndn.Cert

variable {P : Type}

/-- The clock after an observation. -/
def tick (t : Int) : Obs P → Int
  | .clock t' => t'
  | _ => t

/-- The last reading of the clock. -/
def clockOf (log : List (Obs P)) : Int := log.foldl tick 0

/-- An outcome of the validation. -/
def isOutcome (id : Nat) : Obs P → Bool
  | .success i _ => i = id
  | .failure i _ => i = id
  | _ => false

/-- An Interest sent for the validation. -/
def isInterest (id : Nat) : Obs P → Bool
  | .interest i _ => i = id
  | _ => false

/-- An Interest sent for the validation, for the name. -/
def isInterestFor (id : Nat) (n : List Comp) : Obs P → Bool
  | .interest i m => i = id && m = n
  | _ => false

/-- Loaded as a trust anchor, and the anchors were not reset since. -/
def CurrentAnchor (log : List (Obs P)) (c : Crt) : Prop :=
  ∃ a b, log = a ++ .loaded c :: b ∧ Obs.anchorsReset ∉ b

/-- At the end of `log`, certificate `c` was verified with `r`: its signature is good, the policy asks for `r`
when shown `c`, `c` came from the network, and while a validation that is still running was in progress the clock
was within the validity period of `c`. -/
structure Link (E : Env P) (log : List (Obs P)) (c r : Crt) : Prop where
  signature : E.verifyCert c r = true
  policy : ∃ n, E.policyCert c = .request n ∧ E.isMatch n r = true ∧ n <+: r.name
  received : Obs.received c ∈ log
  valid : ∃ id p a b, log = a ++ b ∧ Obs.started id p ∈ a ∧ (∀ o ∈ log, isOutcome id o = false) ∧
    E.notBefore c ≤ clockOf a ∧ clockOf a ≤ c.notAfter

/-- What was put in the cache of verified certificates at the end of `a` may still be used after `b`: the
cache was not reset, the certificate has not expired, and no more than an hour has passed. -/
structure Kept (a b : List (Obs P)) (c : Crt) : Prop where
  reset : Obs.verifiedReset ∉ b
  notExpired : clockOf (a ++ b) ≤ c.notAfter
  recent : clockOf (a ++ b) ≤ clockOf a + 3600000000000

/-- Trusted at the end of `log`: a current anchor; a certificate the user put in the cache; a certificate
verified now with a trusted one; or one verified earlier with a certificate trusted then. -/
inductive Good (E : Env P) : List (Obs P) → Crt → Prop
  | anchor {log c} : CurrentAnchor log c → Good E log c
  | user {a b c} : Kept (a ++ [.userCached c]) b c → Good E (a ++ [.userCached c] ++ b) c
  | fresh {log c r} : Link E log c r → Good E log r → Good E log c
  | kept {a b c r} : Link E a c r → Good E a r → Kept a b c → Good E (a ++ b) c

/-- A packet may be accepted at the end of `log`: the policy exempts it, or its digest is right and a digest is
what the policy asks for, or the policy asks for a certificate that is trusted and verifies it. -/
def Acceptable (E : Env P) (log : List (Obs P)) (p : P) : Prop :=
  E.policy p = .bypass ∨
  (E.digestOk p = true ∧ (E.policy p = .request E.digestName ∨
    ∃ c, Obs.received c ∈ log ∧ E.policyCert c = .request E.digestName)) ∨
  ∃ n r, E.policy p = .request n ∧ E.isMatch n r = true ∧ n <+: r.name ∧ E.verify p r = true ∧ Good E log r

/-- The callbacks of the inputs do not throw. -/
def Quiet : Op P → Prop
  | .validate _ _ a b => a = false ∧ b = false
  | _ => True

/-- No certificate without a well-formed validity period arrives. -/
def Periods (E : Env P) : Op P → Prop
  | .data _ c => E.hasPeriod c = true
  | _ => True

/-- The maximum depth is never set above `D`. -/
def DepthLe (D : Nat) : Op P → Prop
  | .setMaxDepth d => d ≤ D
  | _ => True

/-- The input is an answer to what validation `id` waits for. -/
def answers (E : Env P) (s : St P) (id : Nat) : Op P → Bool
  | .data i c => i = id && (match find s.vals id with
      | some ⟨_, _, _, _, .fetching n _, _, _⟩ => E.isMatch n c && n.isPrefixOf c.name && E.hasPeriod c
      | _ => false)
  | .badData i | .nack i | .timeout i => i = id && (match find s.vals id with
      | some ⟨_, _, _, _, .fetching _ _, _, _⟩ => true
      | _ => false)
  | .retry i => i = id && (match find s.vals id with
      | some ⟨_, _, _, _, .backoff _ _, _, _⟩ => true
      | _ => false)
  | _ => false

/-- How many of the inputs are answers to validation `id`. -/
def answered (E : Env P) (id : Nat) : St P → List (Op P) → Nat
  | _, [] => 0
  | s, op :: ops => (if answers E s id op then 1 else 0) + answered E id (step E s op).1 ops

/-- Validation `id` waits for the network or for a timer. -/
def waiting (s : St P) (id : Nat) : Bool :=
  match find s.vals id with
  | some v => v.phase ≠ .done
  | none => false

/-- What the policy asks for, starting with decision `d`: the names of the links in turn, each matched by the
certificate of the link, and finally `nf`. -/
def Follows (E : Env P) : Decision → List (List Comp × Crt) → List Comp → Prop
  | d, [], nf => d = .request nf
  | d, (n, c) :: ls, nf => d = .request n ∧ E.isMatch n c = true ∧ n <+: c.name ∧ Follows E (E.policyCert c) ls nf

/-- Each certificate is verified by the next, the last by `root`. -/
def SignedBy (E : Env P) (root : Crt) : List Crt → Prop
  | [] => True
  | [c] => E.verifyCert c root = true
  | c :: c' :: cs => E.verifyCert c c' = true ∧ SignedBy E root (c' :: cs)

/-- The Interest for `n` is satisfied by `c`. -/
def Satisfies (E : Env P) (n : List Comp) (c : Crt) : Prop := E.isMatch n c = true ∧ n <+: c.name

end Ndn.Validator
