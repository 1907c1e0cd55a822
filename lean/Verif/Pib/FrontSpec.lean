import Verif.Pib.Spec
import Verif.Pib.Front
/-
What a user of `Pib`, `Identity` and `Key` sees: the view of the PIB, and handles. A handle is obtained from a call,
stands for one identity or key, and expires when that is removed or, for a key, replaced. Written from the
documentation in security/pib/{pib,identity,key}.hpp.
-/
namespace Ndn.Pib.Spec
open Ndn.Name

/-- What a handle stands for. -/
inductive Ref where
  | ident (n : PName)
  | key (n : PName)
  deriving DecidableEq, Repr

/-- A handle: not given out yet, valid, expired. -/
inductive HState where
  | unused
  | alive (r : Ref)
  | dead
  deriving DecidableEq, Repr

structure World where
  v : View
  hs : Nat → HState

def World.init : World := ⟨View.empty, fun _ => .unused⟩

/-- A handle for `r` may be given out as `h`: the one that stands for it, if there is one, or a new one. -/
def Issued (hs : Nat → HState) (h : Nat) (r : Ref) : Prop :=
  (hs h = .alive r ∨ hs h = .unused) ∧ ∀ x, hs x = .alive r → x = h

def issue (hs : Nat → HState) (h : Nat) (r : Ref) : Nat → HState := fun x => if x = h then .alive r else hs x

/-- The handles expire whose object is removed. -/
def kill (hs : Nat → HState) (p : Ref → Bool) : Nat → HState := fun x =>
  match hs x with
  | .alive r => if p r then .dead else .alive r
  | s => s

/-- An identity and its keys. -/
def below (i : PName) : Ref → Bool
  | .ident n => decide (n = i)
  | .key k => isKeyOf i k

def theKey (k : PName) (r : Ref) : Bool := decide (r = .key k)

/-- A call on a handle that is not one of a valid identity, or key, fails. -/
def onIdent (w : World) (h : Nat) (out : Out) (w' : World) (f : PName → Prop) : Prop :=
  match w.hs h with
  | .alive (.ident i) => f i
  | _ => out = .dead ∧ w' = w

def onKey (w : World) (h : Nat) (out : Out) (w' : World) (f : PName → Prop) : Prop :=
  match w.hs h with
  | .alive (.key k) => f k
  | _ => out = .dead ∧ w' = w

/-- `out` is a handle for `r`, and the world is then `w'`. -/
def GivesIdent (v : View) (hs : Nat → HState) (n : PName) (out : Out) (w' : World) : Prop :=
  ∃ h, out = .ident h ∧ Issued hs h (.ident n) ∧ w' = ⟨v, issue hs h (.ident n)⟩

def GivesKey (v : View) (hs : Nat → HState) (k : PName) (out : Out) (w' : World) : Prop :=
  ∃ h, out = .key h ∧ Issued hs h (.key k) ∧ w' = ⟨v, issue hs h (.key k)⟩

def GivesNames (p : PName → Prop) (out : Out) : Prop := ∃ l, out = .names l ∧ ∀ n, n ∈ l ↔ p n

/-- The identity is there already, or it is added. -/
def withIdent (v : View) (n : PName) : View := if v.ident n then v else v.addIdent n

open Classical in
/-- The allowed outcomes of a call. -/
def Step (w : World) (op : FOp) (out : Out) (w' : World) : Prop :=
  match op with
  | .addIdentity n => GivesIdent (withIdent w.v n) w.hs n out w'
  | .removeIdentity n => out = .done ∧ w' = ⟨w.v.removeIdent n, kill w.hs (below n)⟩
  | .getIdentity n => if w.v.ident n = true then GivesIdent w.v w.hs n out w' else out = .refused ∧ w' = w
  | .identities => GivesNames (fun n => w.v.ident n = true) out ∧ w' = w
  | .setDefaultIdentity n => GivesIdent { withIdent w.v n with defIdent := some n } w.hs n out w'
  | .getDefaultIdentity =>
    match w.v.defIdent with
    | some n => GivesIdent w.v w.hs n out w'
    | none => out = .refused ∧ w' = w
  | .identName h => onIdent w h out w' fun i => out = .names [i] ∧ w' = w
  | .addKey h bits k => onIdent w h out w' fun i =>
    if KeyName i k then GivesKey (w.v.addKey i k bits) (kill w.hs (theKey k)) k out w' else out = .invalid ∧ w' = w
  | .removeKey h k => onIdent w h out w' fun i =>
    if KeyName i k then out = .done ∧ w' = ⟨w.v.removeKey k, kill w.hs (theKey k)⟩ else out = .invalid ∧ w' = w
  | .getKey h k => onIdent w h out w' fun i =>
    if KeyName i k then
      if (w.v.key k).isSome then GivesKey w.v w.hs k out w' else out = .refused ∧ w' = w
    else out = .invalid ∧ w' = w
  | .keys h => onIdent w h out w' fun i => GivesNames (fun k => KeyName i k ∧ (w.v.key k).isSome) out ∧ w' = w
  | .setDefaultKey h k => onIdent w h out w' fun i =>
    if KeyName i k then
      if (w.v.key k).isSome then GivesKey { w.v with defKey := upd w.v.defKey i (some k) } w.hs k out w'
      else out = .refused ∧ w' = w
    else out = .invalid ∧ w' = w
  | .setDefaultNewKey h bits k => onIdent w h out w' fun i =>
    if KeyName i k then
      GivesKey { w.v.addKey i k bits with defKey := upd w.v.defKey i (some k) } (kill w.hs (theKey k)) k out w'
    else out = .invalid ∧ w' = w
  | .getDefaultKey h => onIdent w h out w' fun i =>
    match w.v.defKey i with
    | some k => GivesKey w.v w.hs k out w'
    | none => out = .refused ∧ w' = w
  | .keyName h => onKey w h out w' fun k => out = .names [k] ∧ w' = w
  | .keyBits h => onKey w h out w' fun k => (∃ b, w.v.key k = some b ∧ out = .bits b) ∧ w' = w
  | .addCert h c => onKey w h out w' fun k =>
    if CertName k c.name ∧ w.v.key k = some c.pub then out = .done ∧ w' = ⟨w.v.addCert c, w.hs⟩
    else out = .invalid ∧ w' = w
  | .removeCert h c => onKey w h out w' fun k =>
    if CertName k c then out = .done ∧ w' = ⟨w.v.removeCert c, w.hs⟩ else out = .invalid ∧ w' = w
  | .getCert h c => onKey w h out w' fun k =>
    if CertName k c then
      match w.v.cert c with
      | some x => out = .cert x ∧ w' = w
      | none => out = .refused ∧ w' = w
    else out = .invalid ∧ w' = w
  | .certs h => onKey w h out w' fun k => GivesNames (fun c => CertName k c ∧ (w.v.cert c).isSome) out ∧ w' = w
  | .setDefaultCert h c => onKey w h out w' fun k =>
    if CertName k c then
      match w.v.cert c with
      | some x => out = .cert x ∧ w' = ⟨{ w.v with defCert := upd w.v.defCert k (some c) }, w.hs⟩
      | none => out = .refused ∧ w' = w
    else out = .invalid ∧ w' = w
  | .setDefaultNewCert h c => onKey w h out w' fun k =>
    if CertName k c.name ∧ w.v.key k = some c.pub then
      out = .done ∧ w' = ⟨{ w.v.addCert c with defCert := upd w.v.defCert k (some c.name) }, w.hs⟩
    else out = .invalid ∧ w' = w
  | .getDefaultCert h => onKey w h out w' fun k =>
    match (w.v.defCert k).bind w.v.cert with
    | some x => out = .cert x ∧ w' = w
    | none => out = .refused ∧ w' = w
  | .reset => out = .done ∧ w' = ⟨View.empty, kill w.hs (fun _ => true)⟩

/-- The outcomes are allowed, one after the other, as long as the calls meet `P`. -/
def Conforms (P : World → FOp → Prop) : World → List FOp → List Out → Prop
  | _, [], [] => True
  | w, op :: ops, out :: outs => P w op → ∃ w', Step w op out w' ∧ Conforms P w' ops outs
  | _, _, _ => False

/-- A certificate object has the name of a certificate. -/
def Real : FOp → Prop
  | .addCert _ c => ∃ k, CertName k c.name
  | .setDefaultNewCert _ c => ∃ k, CertName k c.name
  | _ => True

/-- The calls that work as documented: a certificate made default has the public key of the key, and the default
certificate is not replaced by another of the same name. -/
def Fits (w : World) : FOp → Prop
  | .addCert h c => ∀ k, w.hs h = .alive (.key k) → CertName k c.name ∧ w.v.defCert k = some c.name → w.v.cert c.name = some c
  | .setDefaultNewCert h c => ∀ k, w.hs h = .alive (.key k) → CertName k c.name → w.v.key k = some c.pub
  | _ => True

/-- The same, and keys removed are the default key of their identity, or there is none. -/
def FitsMemory (w : World) (op : FOp) : Prop :=
  Fits w op ∧ match op with
    | .removeKey _ k => DropsDefault w.v (.removeKey k)
    | _ => True

end Ndn.Pib.Spec
