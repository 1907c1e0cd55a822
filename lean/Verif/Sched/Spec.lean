import Verif.Sched.Model
/-
Specification of the scheduler in terms of what is observed: the sequence of schedule and cancel
calls and of callback executions.
-/
namespace Ndn.Sched.Spec

/-- Events scheduled, not cancelled and not run, according to the observations. -/
def pending : List Obs → List Ev → List Ev
  | [], acc => acc
  | .scheduled i e :: l, acc => pending l (acc ++ [⟨i, e⟩])
  | .cancelled i :: l, acc => pending l (acc.filter (fun x => x.id ≠ i))
  | .cancelledAll :: l, _ => pending l []
  | .ran i _ :: l, acc => pending l (acc.filter (fun x => x.id ≠ i))

/-- `i` may run at time `t` after the observations `l`: it is pending, due, and no pending event comes
before it in the order of expiry, then of scheduling. -/
def MayRun (l : List Obs) (i : Nat) (t : Int) : Prop :=
  ∃ e, ⟨i, e⟩ ∈ pending l [] ∧ e ≤ t ∧ ∀ x ∈ pending l [], e < x.expiry ∨ (e = x.expiry ∧ i ≤ x.id)

/-- Every execution in the sequence was allowed when it happened. -/
def Correct (l : List Obs) : Prop :=
  ∀ pre i t post, l = pre ++ .ran i t :: post → MayRun pre i t

end Ndn.Sched.Spec
