import Verif.Nfd.Controller
import Verif.Nfd.ItemsSpec
/-
Specification of the NFD controller over what was observed: a log of events, each with its observations.
-/
namespace Ndn.Nfd
open Tlv Tlv.Spec Block Block.Spec Name Packet Packet.Spec Mgmt

abbrev CLog := List (CEv × List COut)

/-- The face ends the Interest of command `i`. -/
def IsReply (i : Nat) (e : CEv) : Prop := (∃ content, e = .data i content) ∨ e = .nack i ∨ e = .timeout i

/-- The validator decides about the answer to command `i`. -/
def IsVerdict (i : Nat) (e : CEv) : Prop := e = .valid i ∨ e = .invalid i

/-- The fetcher of dataset `j` ends. -/
def IsEnd (j : Nat) (e : CEv) : Prop := (∃ p d, e = .complete j p d) ∨ ∃ c d, e = .error j c d

/-- Command `i` was started; `l2` is what happened since. -/
def Started (l : CLog) (i : Nat) (c : Command) (onS onF : Bool) (l2 : CLog) : Prop :=
  ∃ l1 pfx p name, l = l1 ++ (.start c pfx p onS onF, [.asked i name]) :: l2

/-- Its Interest is pending. -/
def Waiting (l : CLog) (i : Nat) (c : Command) (onS onF : Bool) : Prop :=
  ∃ l2, Started l i c onS onF l2 ∧ ∀ x ∈ l2, ¬ IsReply i x.1

/-- A packet with this content came and is being validated. -/
def Validating (l : CLog) (i : Nat) (c : Command) (onS onF : Bool) (content : Bytes) : Prop :=
  ∃ m1 m2, Started l i c onS onF (m1 ++ (.data i content, []) :: m2) ∧ (∀ x ∈ m1, ¬ IsReply i x.1) ∧
    ∀ x ∈ m2, ¬ IsVerdict i x.1

/-- The application's callback for dataset `j` was called. -/
def CalledBack (j : Nat) (os : List COut) : Prop := (∃ r, .result j r ∈ os) ∨ ∃ n, .failed j n ∈ os

/-- The Controller was destroyed: by the application directly, or in a callback. -/
def Gone (l : CLog) : Prop :=
  ∃ x ∈ l, x.1 = .destroy ∨ ∃ j, ((∃ p, x.1 = .complete j p true) ∨ ∃ c, x.1 = .error j c true) ∧ CalledBack j x.2

/-- The dataset `j` is being fetched. -/
def Fetching (l : CLog) (j : Nat) (d : Dataset) (onS onF : Bool) : Prop :=
  ¬ Gone l ∧ ∃ l1 pfx name l2, l = l1 ++ (.fetch d pfx onS onF, [.fetching j name]) :: l2 ∧ ∀ x ∈ l2, ¬ IsEnd j x.1

/-- The content is a control response. -/
def HoldsResponse (content : Bytes) (r : Response) : Prop :=
  ∃ b, b.wire = content ∧ RawWF b ∧ b.type = 101 ∧ ∃ es, ReadsAs b.value es ∧ Response.Means es r

/-- The content is the answer of a server that carried out the command: a response below the error codes whose body is a
ControlParameters element with the fields `p`, as the command allows them. -/
def Reports (c : Command) (content : Bytes) (p : Params) : Prop :=
  ∃ r b, HoldsResponse content r ∧ r.code < 400 ∧ r.body = some b ∧ Params.decode b = some p ∧ c.validateResponse p = .accept

/-- What is reported about a validated answer. -/
def Reported (c : Command) (i : Nat) (onS onF : Bool) (content : Bytes) (os : List COut) : Prop :=
  (∀ p, Reports c content p → os = if onS then [.success i p] else []) ∧
  (∀ r, HoldsResponse content r → 400 ≤ r.code → os = if onF then [.failure i (.server r)] else []) ∧
  ((∀ p, ¬ Reports c content p) → (∀ r, HoldsResponse content r → r.code < 400) →
    os = if onF then [.failure i (.library 500)] else [])

/-- The code reported for an error of the fetcher. -/
def codeOf : Nat → Option Nat
  | 1 => some 10060  -- timeout
  | 2 => some 500    -- a packet without segment number
  | 3 => some 10021  -- validation failure
  | 4 => some 10800  -- Nack
  | 5 => some 500    -- FinalBlockId not a segment number
  | _ => none

/-- What follows the application's callback if it destroys the Controller. -/
def afterwards (destroys : Bool) : List COut := if destroys then [.ub] else []

/-- What is observed at an event, given the past. -/
def CExpected (l : CLog) : CEv → List COut → Prop
  | .start c pfx p _ _, os =>
    (Gone l → os = []) ∧
    (¬ Gone l → (c.createRequest pfx p = none → os = [.refused]) ∧
      (∀ n, c.createRequest pfx p = some n → ∃ i, os = [.asked i n] ∧ ∀ x ∈ l, ∀ n', .asked i n' ∉ x.2))
  | .data i _, os =>
    (∀ c s f, Waiting l i c s f → (¬ Gone l → os = []) ∧ (Gone l → os = [.ub])) ∧
    ((∀ c s f, ¬ Waiting l i c s f) → os = [])
  | .nack i, os =>
    (∀ c s f, Waiting l i c s f → os = if f then [.failure i (.library 10800)] else []) ∧
    ((∀ c s f, ¬ Waiting l i c s f) → os = [])
  | .timeout i, os =>
    (∀ c s f, Waiting l i c s f → os = if f then [.failure i (.library 10060)] else []) ∧
    ((∀ c s f, ¬ Waiting l i c s f) → os = [])
  | .valid i, os =>
    (∀ c s f content, Validating l i c s f content → Reported c i s f content os) ∧
    ((∀ c s f content, ¬ Validating l i c s f content) → os = [])
  | .invalid i, os =>
    (∀ c s f content, Validating l i c s f content → os = if f then [.failure i (.library 10021)] else []) ∧
    ((∀ c s f content, ¬ Validating l i c s f content) → os = [])
  | .fetch d pfx _ _, os =>
    (Gone l → os = []) ∧
    (¬ Gone l → ∃ j, os = [.fetching j (d.name pfx)] ∧ ∀ x ∈ l, ∀ n', .fetching j n' ∉ x.2)
  | .complete j payload destroys, os =>
    (∀ d s f, Fetching l j d s f →
      (∀ r, d.parse payload = .ok r → os = if s then .result j r :: afterwards destroys else []) ∧
      (d.parse payload = .tlvError → os = if f then .failed j 500 :: afterwards destroys else []) ∧
      (d.parse payload = .invalidArgument → os = [.escaped]) ∧ (d.parse payload = .ub → os = [.ub])) ∧
    ((∀ d s f, ¬ Fetching l j d s f) → os = [])
  | .error j code destroys, os =>
    (∀ d s f, Fetching l j d s f →
      (∀ n, codeOf code = some n → os = if f then .failed j n :: afterwards destroys else []) ∧ (codeOf code = none → os = [])) ∧
    ((∀ d s f, ¬ Fetching l j d s f) → os = [])
  | .destroy, os => os = []

end Ndn.Nfd
