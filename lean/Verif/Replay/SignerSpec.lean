import Verif.Replay.Spec

/-
Specification for C144: the Interests of one `InterestSigner` (interest-signer.cpp 27-79) arriving at a
validator with `ValidationPolicySignedInterest` or `ValidationPolicyCommandInterest`.
-/
namespace Ndn.Replay.Spec

/-- The Interests that arrive in a history, in order. -/
def arrivals {X : Type} (ops : List (Op X)) : List X :=
  ops.filterMap fun
    | .arrive x => some x
    | _ => none

section
variable {K : Type} [DecidableEq K]

/-- The Interests that arrive under a key. -/
def under {X : Type} (key : X → Option K) (k : K) (ops : List (Op X)) : List X :=
  (arrivals ops).filter (fun x => key x == some k)

/-- What the signer put into the Interest. -/
def shown (x : Itm K) : Signed := ⟨x.time.map Int.ofNat, x.seq⟩

/-- The requested elements include those that the policy requires (`WantTime`, `WantSeqNum`). -/
def Wants (o : Opts) : Sign → Prop
  | .signed _ wt ws => (o.valTs = true → wt = true) ∧ (o.valSeq = true → ws = true)
  | .command => False

/-- The request puts a time into the Interest. -/
def Timed : Sign → Prop
  | .signed _ wt _ => wt = true
  | .command => True

/-- A time in milliseconds is representable in nanoseconds and within the grace period of a clock that
is itself representable. -/
def Timely (grace now m : Nat) : Prop :=
  now < 2 ^ 63 ∧ m * 1000000 < 2 ^ 63 ∧ ((now : Int) - (m * 1000000 : Nat)).natAbs ≤ grace

/-- The Interests that arrive under the key are some of those made, in the order in which they were
made, in the new format; each time is within the grace period on arrival; the nonces are there and
differ. -/
structure Delivered (o : Opts) (made : List Signed) (k : K) (now0 t0 : Nat) (ops : List (Op (Itm K))) : Prop where
  some_of : ((under Itm.key k ops).map shown).Sublist made
  v03 : ∀ x ∈ under Itm.key k ops, x.v03 = true
  timely : ∀ pre x post m, ops = pre ++ .arrive x :: post → x.key = some k → x.time = some m →
    Timely o.grace (run (signed o) (init [] now0 t0) pre).now m
  nonces : o.valNonce = true → (∀ x ∈ under Itm.key k ops, x.nonce ≠ none) ∧
    ((under Itm.key k ops).map Itm.nonce).Nodup

/-- The same for command Interests, which carry a time only. -/
structure DeliveredCmd (o : COpts) (made : List Signed) (k : K) (now0 t0 : Nat) (ops : List (Op (Cmd K))) : Prop where
  some_of : ((under Cmd.key k ops).map (fun x => x.time.map Int.ofNat)).Sublist (made.map Signed.timeMs)
  timely : ∀ pre x post m, ops = pre ++ .arrive x :: post → x.key = some k → x.time = some m →
    Timely o.grace (run (command o) (init [] now0 t0) pre).now m

end

/-- Every reading of the clock is at least one millisecond after the one before, the first after the
given time. -/
def Paced : Int → List (Int × Sign) → Prop
  | _, [] => True
  | t, (now, _) :: rest => t + 1000000 ≤ now ∧ Paced now rest

end Ndn.Replay.Spec
