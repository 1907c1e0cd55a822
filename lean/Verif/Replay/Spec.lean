import Verif.Replay.Model

/-
What "replay protection" means, over the log of the machine in Model: the Interests that were accepted
(success callback run) and those whose acceptance was recorded before.
-/
namespace Ndn.Replay.Spec

/-- A SignatureTime or command timestamp is a number of milliseconds since 1970 in 64 bits; numbers of
2^63 and above denote instants before 1970. -/
def instant (ms : Nat) : Int := if ms < 2 ^ 63 then ms else (ms : Int) - 2 ^ 64

section
variable {X R K : Type}

/-- The acceptances recorded in a log, with the times of the steady clock. -/
def recordings (log : List (Obs X)) : List (X × Nat) :=
  log.filterMap fun
    | .recorded _ x t => some (x, t)
    | _ => none

/-- No Interest arrives while another one is being validated. -/
def Sequential (P : Policy X R) (s : St X R) (ops : List (Op X)) : Prop :=
  ∀ pre x post, ops = pre ++ .arrive x :: post → (run P s pre).pend = []

/-- Fewer than `n` keys other than `k` occur in the recordings `b`. -/
def FewOthers (key : X → Option K) (n : Int) (k : Option K) (b : List (X × Nat)) : Prop :=
  ∃ ks : List K, (ks.length : Int) < n ∧
    ∀ e ∈ b, key e.1 ≠ k → ∃ k' ∈ ks, key e.1 = some k'

/-- The steady clock advances between any two recordings. -/
def Ticking (l : List (X × Nat)) : Prop := l.Pairwise (fun e e' => e.2 < e'.2)

/-- The record of the key of `y`, made at the recording `(y, t)`, is one of those the policy keeps
after the recordings `b`: there is no limit, or fewer other keys than the limit were recorded since. -/
def Kept (key : X → Option K) (maxRec : Int) (a : List (X × Nat)) (y : X × Nat) (b : List (X × Nat)) : Prop :=
  maxRec < 0 ∨ (FewOthers key maxRec (key y.1) b ∧ Ticking (a ++ y :: b))

end

/-- Number of recordings under a key. -/
def countKey {K : Type} [DecidableEq K] (k : Option K) (b : List (Itm K × Nat)) : Nat :=
  b.countP (fun e => e.1.key == k)

end Ndn.Replay.Spec
