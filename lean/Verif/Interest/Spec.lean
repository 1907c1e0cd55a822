import Verif.Interest.Model
import Verif.Packet.Spec
/-
Specification of the Interest format and of the parameters digest.
-/
namespace Ndn.Interest.Spec
open Block Block.Spec Name Name.Spec Packet Packet.Spec

/-- The octets of a Name element read as a name. -/
def NameReads (e : Raw) (n : List Comp) : Prop :=
  e.type = 7 ∧ ∃ cs, ReadsAs e.value cs ∧ n = cs.map (fun r => (⟨r.type, r.value⟩ : Comp))

/-- A delegation of a ForwardingHint: a Name, or (old format) an element of type 31 whose first Name
is the delegation name. -/
def Delegation (e : Raw) (n : List Comp) : Prop :=
  NameReads e n ∨
    (e.type = 31 ∧ ∃ es pre m post, ReadsAs e.value es ∧ es = pre ++ m :: post ∧
      (∀ x ∈ pre, x.type ≠ 7) ∧ NameReads m n)

/-- Two lists related element by element. -/
inductive All2 {α β : Type} (R : α → β → Prop) : List α → List β → Prop
  | nil : All2 R [] []
  | cons {a b as bs} : R a b → All2 R as bs → All2 R (a :: as) (b :: bs)

/-- ForwardingHint: delegations, other elements must be ignorable. -/
def HintReads (e : Raw) (ns : List (List Comp)) : Prop :=
  ∃ ds, ReadsAs e.value ds ∧ (∀ d ∈ ds, d.type = 7 ∨ d.type = 31 ∨ Ignorable d) ∧
    All2 Delegation (ds.filter (fun d => d.type = 7 ∨ d.type = 31)) ns

/-- A parameters digest component. -/
def IsDigest (c : Comp) : Prop := c.type = 2 ∧ c.value.length = 32

instance : DecidablePred IsDigest := fun c => by unfold IsDigest; infer_instance

/-- The digest components of a name. -/
def digests (n : List Comp) : List Comp := n.filter (fun c => IsDigest c)

/-- The parameters and the name agree: no parameters and no digest component, or parameters and a
single digest component, which is the digest of all their octets. -/
def DigestOk (H : Bytes → Bytes) (n : List Comp) (ps : List Raw) : Prop :=
  (ps = [] ∧ digests n = []) ∨
    (ps ≠ [] ∧ digests n = [⟨2, H ((ps.map Raw.wire).flatten)⟩])

/-- First element of a type. -/
def pick (t : Nat) (es : List Raw) : Option Raw := es.find? (fun e => e.type = t)

/-- Recognised elements other than Name and ApplicationParameters. -/
def Known (e : Raw) : Prop :=
  e.type = 33 ∨ e.type = 18 ∨ e.type = 30 ∨ e.type = 10 ∨ e.type = 12 ∨ e.type = 34

instance : DecidablePred Known := fun e => by unfold Known; infer_instance

/-- The content of an Interest: Name; then CanBePrefix?, MustBeFresh?, ForwardingHint?, Nonce?,
InterestLifetime?, in this order, then HopLimit (extra ones are ignored), ignorable elements
anywhere; then, from the first ApplicationParameters on, no critical element. The parameters are
that element and the following ones, except repeated ApplicationParameters and HopLimit. -/
def InterestGrammar (es : List Raw) (f : IFields) : Prop :=
  ∃ n pre tail, es = n :: (pre ++ tail) ∧ NameReads n f.name ∧ f.name ≠ [] ∧
    (digests f.name).length ≤ 1 ∧
    (∀ e ∈ pre, e.type ≠ 36) ∧ (∀ e ∈ tail.head?, e.type = 36) ∧
    (∀ e ∈ pre, Known e ∨ Ignorable e) ∧
    (∃ ts k, (pre.filter (fun e => Known e)).map Raw.type = ts ++ List.replicate k 34 ∧
      ts.Sublist [33, 18, 30, 10, 12]) ∧
    (∀ e ∈ pre, e.type = 33 ∨ e.type = 18 → e.value = []) ∧
    f.canBePrefix = (pick 33 pre).isSome ∧
    f.mustBeFresh = (pick 18 pre).isSome ∧
    (match pick 30 pre with | none => f.hint = [] | some e => HintReads e f.hint) ∧
    (∀ e ∈ pick 10 pre, e.value.length = 4) ∧
    f.nonce = (pick 10 pre).map Raw.value ∧
    (match pick 12 pre with
      | none => f.lifetime = 4000
      | some e => Tlv.Spec.NniForm e.value f.lifetime) ∧
    (match pick 34 pre with
      | none => f.hopLimit = none
      | some e => ∃ h, e.value = [h] ∧ f.hopLimit = some h) ∧
    (∀ e ∈ tail, Ignorable e) ∧
    f.params = tail.take 1 ++ (tail.drop 1).filter (fun e => e.type ≠ 34 ∧ e.type ≠ 36)

/-- Field values an Interest can be given and which the library can encode. -/
structure InterestWF (H : Bytes → Bytes) (f : IFields) : Prop where
  name : NameWF f.name
  nonempty : f.name ≠ []
  digest : DigestOk H f.name f.params
  hint : ∀ n ∈ f.hint, NameWF n
  nonce : ∃ n, f.nonce = some n ∧ n.length = 4
  lifetime : f.lifetime < 2 ^ 64
  params : ∀ b ∈ f.params, RawWF b ∧ Ignorable b
  params0 : ∀ b ∈ f.params.head?, b.type = 36
  params1 : ∀ b ∈ f.params.tail, b.type ≠ 34 ∧ b.type ≠ 36
  size : f.encode.length < 2 ^ 64

end Ndn.Interest.Spec
