import Verif.Dial.Model
import Verif.Net.Spec
/-
Which forwarder the environment and the configuration file ask for.
-/
namespace Ndn.Dial.Spec
open Ndn.Net Ndn.Dial

/-- The file that counts: the first of the three places where there is anything at all. -/
def Counts (e : Env) (f : At) : Prop :=
  f ≠ .absent ∧
    (e.home = some f ∨
     ((e.home = none ∨ e.home = some .absent) ∧ e.sysconf = some f) ∨
     ((e.home = none ∨ e.home = some .absent) ∧ (e.sysconf = none ∨ e.sysconf = some .absent) ∧ e.etc = f))

/-- There is no file at all. -/
def NoFile (e : Env) : Prop :=
  (e.home = none ∨ e.home = some .absent) ∧ (e.sysconf = none ∨ e.sysconf = some .absent) ∧ e.etc = .absent

/-- The URI asked for, the empty one if there is none: what the environment says comes first. -/
inductive Asked (e : Env) : Bytes → Prop
  | env (uri : Bytes) : e.transport = some uri → Asked e uri
  | entry (get : Bytes → Option Bytes) (uri : Bytes) : e.transport = none → Counts e (.entries get) → get transportKey = some uri → Asked e uri
  | noEntry (get : Bytes → Option Bytes) : e.transport = none → Counts e (.entries get) → get transportKey = none → Asked e []
  | noFile : e.transport = none → NoFile e → Asked e []

/-- What a URI leads to. -/
inductive LeadsTo : Bytes → Peer → Prop
  | nothing : LeadsTo [] (.unix nfdSock)
  | unix (uri : Bytes) (f : FaceUri) : Net.Spec.UriForm uri f → f.scheme = unixText → f.path ≠ [] → LeadsTo uri (.unix f.path)
  | unixDefault (uri : Bytes) (f : FaceUri) : Net.Spec.UriForm uri f → f.scheme = unixText → f.path = [] → LeadsTo uri (.unix nfdSock)
  | tcp (uri : Bytes) (f : FaceUri) (host port : Bytes) : Net.Spec.UriForm uri f → f.scheme = tcpText ∨ f.scheme = tcp4Text ∨ f.scheme = tcp6Text →
      (f.host ≠ [] ∧ host = f.host ∨ f.host = [] ∧ host = localhost) → (f.port ≠ [] ∧ port = f.port ∨ f.port = [] ∧ port = ndnPort) →
      LeadsTo uri (.tcp host port)

end Ndn.Dial.Spec
