import Verif.Mgmt.Dispatcher
import Verif.Mgmt.DatasetSpec
/-
What a dispatcher does in terms of its past: the events so far, each with what was observed. Nothing here looks at the
dispatcher's state.
-/
namespace Ndn.Mgmt
open Tlv Block Name Packet

abbrev Log := List (Ev × List Out)

/-- One is a prefix of the other. -/
def Overlap (x y : List Comp) : Prop := x <+: y ∨ y <+: x

/-- The top-level prefix has been added and not removed since. -/
def TopLive (l : Log) (t : List Comp) : Prop :=
  ∃ a b, l = a ++ (Ev.addTop t, []) :: b ∧ ∀ e ∈ b, e.1 ≠ .removeTop t

/-- A handler has been registered. -/
def HasHandler (l : Log) (rel : List Comp) (h : Handler) : Prop := (Ev.addHandler rel h, []) ∈ l

/-- The handler is responsible for the name under the top-level prefix. -/
def Responsible (l : Log) (t rel : List Comp) (h : Handler) (name : List Comp) : Prop :=
  TopLive l t ∧ HasHandler l rel h ∧ t ++ rel <+: name

/-- All observations, in order. -/
def outs (l : Log) : List Out := l.flatMap (·.2)

/-- The requests handed to an authorization function: top-level prefix, name, parameters. -/
def requests (l : Log) : List (List Comp × List Comp × Option Params) :=
  (outs l).filterMap fun | .authorize t n p => some (t, n, p) | _ => none

/-- The names of the commands that were handed to a command handler. -/
def handled (l : Log) : List (List Comp) :=
  (outs l).filterMap fun | .handle _ n _ => some n | _ => none

/-- The packets put into the storage. -/
def storedBy (l : Log) : List OutData :=
  (outs l).filterMap fun | .store x => some x | _ => none

/-- The parameters carried by a name component, if it is well formed. -/
def paramsIn (c : Comp) : Option Params := (blockFromValue c.value).bind Params.decode

/-- What is observed when a handler gets an Interest. Commands are parsed and authorized, and ignored if malformed.
Datasets and streams are answered from the storage; a dataset request that is not there is authorized, unless it asks for a
particular version or segment. -/
def Served (s : Settings) (l : Log) (t rel : List Comp) (h : Handler) (name : List Comp) (hit : Option Nat)
    (os : List Out) : Prop :=
  match h with
  | .command _ =>
    (∀ c p, name[t.length + 2]? = some c → paramsIn c = some p → os = [.authorize t name (some p)]) ∧
    ((∀ c p, name[t.length + 2]? = some c → paramsIn c ≠ some p) → os = [])
  | .oldCommand _ =>
    (name.length = t.length + rel.length → os = [.ub]) ∧
    (∀ c, name[t.length + rel.length]? = some c →
      (∀ p, paramsIn c = some p → os = [.authorize t name (some p)]) ∧ (paramsIn c = none → os = []))
  | .dataset =>
    (∀ i x, hit = some i → (storedBy l)[i]? = some x → os = [.put x]) ∧
    ((∀ i, hit = some i → (storedBy l)[i]? = none) →
      ((∃ c, name.getLast? = some c ∧ (Conv.version.is s c = true ∨ Conv.segment.is s c = true)) → os = []) ∧
      ((∀ c, name.getLast? = some c → Conv.version.is s c = false ∧ Conv.segment.is s c = false) →
        os = [.authorize t name none]))
  | .stream =>
    (∀ i x, hit = some i → (storedBy l)[i]? = some x → os = [.put x]) ∧
    ((∀ i, hit = some i → (storedBy l)[i]? = none) → os = [])

/-- The parameters after the validator has accepted them any number of times. -/
inductive Normalised (v : Params → Option Params) : Params → Params → Prop
  | refl (p) : Normalised v p p
  | step (p q r) : Normalised v p q → v q = some r → Normalised v p r

/-- A response is a Data packet with the name of the Interest. -/
def Answer (name : List Comp) (code : Nat) (os : List Out) : Prop :=
  ∃ x, os = [.put x] ∧ x.name = name ∧ x.nack = false ∧ x.final = none ∧ ∃ text, x.content = .resp ⟨code, text, none⟩

/-- The packets of a dataset: each is stored, and the one numbered 0 is sent too; the final one has its own number as
FinalBlockId. A rejection is a response of type Nack. -/
def Dataset (s : Settings) (name : List Comp) : List Sent → List Out → Prop
  | [], os => os = []
  | .nack code :: rest, os =>
    ∃ x os', os = .put x :: os' ∧ x.name = name ∧ x.nack = true ∧ x.content = .resp ⟨code, [], none⟩ ∧ Dataset s name rest os'
  | .data n content final :: rest, os =>
    ∃ x l k os', x.name = n ∧ n.getLast? = some l ∧ Conv.segment.to s l = some k ∧ x.content = .bytes content ∧
      x.nack = false ∧ (x.final = if final then some l else none) ∧
      os = (if k = 0 then [.store x, .put x] else [.store x]) ++ os' ∧ Dataset s name rest os'

/-- What is observed when the authorization of a request is accepted. -/
def Accepted (s : Settings) (h : Handler) (t name : List Comp) (params : Option Params) (calls : List CtxOp) (version : Nat)
    (os : List Out) : Prop :=
  match h, params with
  | .command c, some p =>
    (c.validateRequest p = .accept → os = [.handle t name (c.applyDefaults p)]) ∧
    (c.validateRequest p ≠ .accept → Answer name 400 os)
  | .oldCommand v, some p =>
    ∃ q, Normalised v p q ∧ (∀ r, v q = some r → os = [.handle t name r]) ∧ (v q = none → Answer name 400 os)
  | .dataset, none =>
    (∀ c, Ctx.make s name version = some c → ∃ rest, os = .serve t name :: rest ∧
      Dataset s name (Ctx.run s calls c).2.out rest) ∧
    (Ctx.make s name version = none → os = [.threw])
  | _, _ => False

/-- What is observed at an event, given the past. -/
def Expected (s : Settings) (l : Log) : Ev → List Out → Prop
  | .addTop p, os =>
    ((∃ t, TopLive l t ∧ Overlap t p) → os = [.outOfRange]) ∧ ((∀ t, TopLive l t → ¬ Overlap t p) → os = [])
  | .removeTop _, os => os = []
  | .addHandler rel _, os =>
    ((∃ t, TopLive l t) → os = [.domainError]) ∧
    ((∀ t, ¬ TopLive l t) →
      ((∃ r h, HasHandler l r h ∧ Overlap r rel) → os = [.outOfRange]) ∧
      ((∀ r h, HasHandler l r h → ¬ Overlap r rel) → os = []))
  | .interest name hit, os =>
    (∀ t rel h, Responsible l t rel h name → Served s l t rel h name hit os) ∧
    ((∀ t rel h, ¬ Responsible l t rel h name) → os = [])
  | .accept i calls v, os =>
    (∀ t name p, (requests l)[i]? = some (t, name, p) →
      ∃ rel h, HasHandler l rel h ∧ t ++ rel <+: name ∧ Accepted s h t name p calls v os) ∧
    ((requests l)[i]? = none → os = [])
  | .reject i status403, os =>
    (∀ t name p, (requests l)[i]? = some (t, name, p) →
      (status403 = true → Answer name 403 os) ∧ (status403 = false → os = [])) ∧
    ((requests l)[i]? = none → os = [])
  | .done j r, os =>
    (∀ name, (handled l)[j]? = some name →
      ∃ x, os = [.put x] ∧ x.name = name ∧ x.content = .resp r ∧ x.nack = false ∧ x.final = none) ∧
    ((handled l)[j]? = none → os = [])
  | .post rel b, os =>
    (∀ t, TopLive l t → (∀ t', TopLive l t' → t' = t) →
      ∃ x n, os = [.store x, .put x] ∧ x.name = t ++ rel ++ [Spec.convComp s.encodeMarker .sequence n] ∧ x.content = .bytes b ∧
        x.nack = false ∧ x.final = none) ∧
    ((∀ t, ¬ TopLive l t) → os = []) ∧
    ((∃ t t', TopLive l t ∧ TopLive l t' ∧ t ≠ t') → os = [])

/-- The names of the notifications posted in the stream, in order. -/
def notifications (stream : List Comp) (l : Log) : List (List Comp) :=
  l.filterMap fun e =>
    match e with
    | (.post _ _, .store x :: _) => if x.name.dropLast = stream then some x.name else none
    | _ => none

end Ndn.Mgmt
