import Verif.Cert.CacheModel
/-
Model of `Validator` (security/validator.{hpp,cpp}), `ValidationState` (security/validation-state.{hpp,cpp}),
`CertificateStorage` (security/certificate-storage.cpp) and `CertificateFetcher` with its network version
(security/certificate-fetcher.cpp, security/certificate-fetcher-from-network.cpp).

A machine: packets to validate, answers of the network to the Interests for certificates, changes of the clock
and calls that change the trusted certificates arrive in any order; any number of validations are in progress.
The policy, the verification of signatures and the matching of certificates to Interests are parameters. The
policy is a function of the packet and answers at once; callbacks do not call the validator (a call from a
callback is like one made just after the outcome, except that the chain is not yet cached).
-/
namespace Ndn.Validator
open Ndn.Name Ndn.Cert

/-- What `checkPolicy` does with a packet: calls `state->fail`, calls `continueValidation` with a null request
or with a request for the certificate named, or returns without doing anything. -/
inductive Decision where
  | fail
  | bypass
  | request (n : List Comp)
  | silent
  deriving DecidableEq, Repr

/-- The world around a validator, for packets of a type `P`. -/
structure Env (P : Type) where
  /-- `checkPolicy(Data)`, `checkPolicy(Interest)`; for an Interest with a malformed signature element
  `Validator::validate` itself fails (validator.cpp 67-74): `fail`. -/
  policy : P → Decision
  /-- `checkPolicy(Certificate)`. -/
  policyCert : Crt → Decision
  /-- `verifySignature(packet, certificate)`, verification-helpers.cpp 196-230. -/
  verify : P → Crt → Bool
  /-- `verifySignature(packet, nullopt)`: a correct SHA-256 digest. -/
  digestOk : P → Bool
  /-- `verifySignature(certificate, certificate)`. -/
  verifyCert : Crt → Crt → Bool
  /-- Whether the certificate has a well-formed ValidityPeriod; without one `getValidityPeriod` throws. -/
  hasPeriod : Crt → Bool
  /-- Beginning of the validity period, in nanoseconds. -/
  notBefore : Crt → Int
  /-- `interest.matchesData(cert)` for the Interest of a request. -/
  isMatch : List Comp → Crt → Bool
  /-- `SigningInfo::getDigestSha256Identity()`. -/
  digestName : List Comp
  /-- `CertificateFetcherOffline`. -/
  offline : Bool

/-- Error codes passed to the failure callback, validation-error.hpp. -/
inductive Code where
  | policy | expired | exceededDepth | invalidSignature | loop | cannotRetrieve | malformedCert | implementation
  deriving DecidableEq, Repr

/-- What can be observed. `clock`, `loaded`, `userCached`, `received` record the inputs. -/
inductive Obs (P : Type) where
  | started (id : Nat) (p : P)
  | success (id : Nat) (p : P)
  | failure (id : Nat) (c : Code)
  /-- An Interest for a certificate sent. -/
  | interest (id : Nat) (n : List Comp)
  /-- An exception leaves the validator. -/
  | threw (id : Nat)
  | clock (t : Int)
  | loaded (c : Crt)
  | userCached (c : Crt)
  | received (c : Crt)
  | anchorsReset
  | verifiedReset
  /-- The recursion bound of the model was reached (it never is). -/
  | fuel

/-- Where a validation is: an Interest is out, or will be sent again, or the outcome is known. -/
inductive Phase where
  | fetching (n : List Comp) (left : Nat)
  | backoff (n : List Comp) (left : Nat)
  | done
  deriving DecidableEq, Repr

/-- A `ValidationState`: `chain` is `m_certificateChain`, newest first; `throwsOk`, `throwsFail` say whether
the callbacks throw, the first time they are called. (A validation that waited for the network is kept by the face
after such an exception; in the model it ends.) -/
structure V (P : Type) where
  id : Nat
  pkt : P
  chain : List Crt
  seen : List (List Comp)
  phase : Phase
  throwsOk : Bool
  throwsFail : Bool

/-- A validator. The clock is that of both caches. -/
structure St (P : Type) where
  maxDepth : Nat
  anchors : List Entry
  verified : Cache
  unverified : Cache
  vals : List (V P)

/-- `CertificateStorage()`, certificate-storage.cpp 26-30: lifetimes of one hour and five minutes. -/
def verifiedLife : Int := 3600000000000
def unverifiedLife : Int := 300000000000

def St.init (P : Type) (now : Int) : St P := ⟨25, [], Cache.init now, Cache.init now, []⟩

variable {P : Type}

/-- `CertificateStorage::findTrustedCert`, certificate-storage.cpp 32-39, with `TrustAnchorContainer::find`,
trust-anchor-container.cpp 90-103 (static anchors only). -/
def findTrusted (E : Env P) (s : St P) (n : List Comp) : St P × Option Crt :=
  match scan n (E.isMatch n) (lowerBound s.anchors n) with
  | some c => (s, some c)
  | none =>
    let r := s.verified.findInterest n (E.isMatch n)
    ({ s with verified := r.1 }, r.2)

/-- `verifyCertificateChain`, validation-state.cpp 52-69: the certificates that verified, and the one to verify
the packet with, if all did. -/
def verifyChain (E : Env P) (signer : Crt) : List Crt → List Crt × Option Crt
  | [] => ([], some signer)
  | c :: cs =>
    if E.verifyCert c signer then
      let r := verifyChain E c cs
      (c :: r.1, r.2)
    else ([], none)

/-- `fail`, validation-state.cpp 115-122: when the callback throws, the outcome is not recorded and the
destructor (84-90) calls it again. -/
def failed (v : V P) (c : Code) : V P × List (Obs P) :=
  ({ v with phase := .done },
   .failure v.id c :: (if v.throwsFail then [.threw v.id, .failure v.id .implementation] else []))

/-- The success callback, 92-113: when it throws, the destructor calls the failure callback. -/
def succeeded (v : V P) : V P × List (Obs P) :=
  ({ v with phase := .done },
   .success v.id v.pkt :: (if v.throwsOk then [.threw v.id, .failure v.id .implementation] else []))

/-- Caching of the verified chain, validator.cpp 149-153. -/
def cacheAll (s : St P) : List Crt → St P
  | [] => s
  | c :: cs => cacheAll { s with verified := s.verified.insert verifiedLife c } cs

/-- Whether the outcome's callback threw, so that `requestCertificate` was left. -/
def left (v : V P) (ok : Bool) : Bool := if ok then v.throwsOk else v.throwsFail

/-- A trusted certificate was found, validator.cpp 142-155. -/
def conclude (E : Env P) (s : St P) (v : V P) (root : Crt) : St P × V P × List (Obs P) :=
  let r := verifyChain E root v.chain
  match r.2 with
  | some c =>
    let ok := E.verify v.pkt c
    let o := if ok then succeeded v else failed v .invalidSignature
    (if left v ok then s else cacheAll s r.1, o)
  | none => (if left v false then s else cacheAll s r.1, failed v .invalidSignature)

/-- What is to be done next in a validation. -/
inductive Task where
  /-- `requestCertificate`. -/
  | request (n : List Comp)
  /-- `CertificateFetcher::fetch` with the given number of retries left. -/
  | fetch (n : List Comp) (left : Nat)
  /-- `validate(cert, state)`. -/
  | cert (c : Crt)

/-- `Validator::requestCertificate` (validator.cpp 120-160), `CertificateFetcher::fetch`
(certificate-fetcher.cpp 47-65) and `Validator::validate(Certificate)` (validator.cpp 81-103), which call each
other. -/
def go (E : Env P) : Nat → St P → V P → Task → St P × V P × List (Obs P)
  | 0, s, v, _ => (s, { v with phase := .done }, [.fuel])
  | fuel + 1, s, v, .request n =>
    if v.chain.length ≥ s.maxDepth then (s, failed v .exceededDepth)
    else if n = E.digestName then
      (s, if E.digestOk v.pkt then succeeded v else failed v .invalidSignature)
    else if v.seen.contains n then (s, failed v .loop)
    else
      let v : V P := { v with seen := n :: v.seen }
      match findTrusted E s n with
      | (s, some root) => conclude E s v root
      | (s, none) => go E fuel s v (.fetch n 3)
  | fuel + 1, s, v, .fetch n left =>
    let r := s.unverified.findInterest n (E.isMatch n)
    let s : St P := { s with unverified := r.1 }
    match r.2 with
    | some c => go E fuel s v (.cert c)
    | none =>
      if E.offline then (s, failed v .cannotRetrieve)
      else (s, { v with phase := .fetching n left }, [.interest v.id n])
  | fuel + 1, s, v, .cert c =>
    if ¬ (E.notBefore c ≤ s.verified.now ∧ s.verified.now ≤ c.notAfter) then (s, failed v .expired)
    else match E.policyCert c with
      | .fail => (s, failed v .policy)
      | .silent => (s, failed v .implementation)
      | .bypass => (s, failed v .policy)
      | .request n => go E fuel s { v with chain := c :: v.chain } (.request n)

/-- Enough for any chain. -/
def bound (s : St P) (v : V P) : Nat := 3 * (s.maxDepth - v.chain.length) + 4

/-- Inputs. -/
inductive Op (P : Type) where
  | validate (id : Nat) (p : P) (throwsOk throwsFail : Bool)
  /-- Data arrives for the Interest of the validation, and is a certificate. -/
  | data (id : Nat) (c : Crt)
  /-- Data arrives that is not a certificate. -/
  | badData (id : Nat)
  | nack (id : Nat)
  | timeout (id : Nat)
  /-- The wait after a Nack is over. -/
  | retry (id : Nat)
  | loadAnchor (c : Crt)
  | resetAnchors
  | cacheVerified (c : Crt)
  | resetVerified
  | setClock (t : Int)
  | setMaxDepth (d : Nat)

/-- Replaces a validation. -/
def put (l : List (V P)) (v : V P) : List (V P) := l.map (fun x => if x.id = v.id then v else x)

def find (l : List (V P)) (id : Nat) : Option (V P) := l.find? (fun v => v.id = id)

/-- The result of working on a validation that is already in the list. -/
def back (r : St P × V P × List (Obs P)) : St P × List (Obs P) :=
  ({ r.1 with vals := put r.1.vals r.2.1 }, r.2.2)

/-- One input. -/
def step (E : Env P) (s : St P) : Op P → St P × List (Obs P)
  /- validator.cpp 46-79 and 105-118; validations are numbered by the caller, numbers are not reused. -/
  | .validate id p throwsOk throwsFail =>
    match find s.vals id with
    | some _ => (s, [])
    | none =>
      let v : V P := ⟨id, p, [], [], .done, throwsOk, throwsFail⟩
      let r : St P × V P × List (Obs P) := match E.policy p with
        | .fail => (s, failed v .policy)
        | .silent => (s, failed v .implementation)
        | .bypass => (s, succeeded v)
        | .request n => go E (bound s v) s v (.request n)
      ({ r.1 with vals := r.2.1 :: r.1.vals }, .started id p :: r.2.2)
  /- `dataCallback`, certificate-fetcher-from-network.cpp 59-75, and certificate-fetcher.cpp 60-64. The face
  delivers only Data that matches. When the certificate has no validity period, caching it throws; the face
  then keeps the Interest (see C47_throw_counterexample). -/
  | .data id c =>
    match find s.vals id with
    | some v =>
      match v.phase with
      | .fetching n _ =>
        if E.isMatch n c && n.isPrefixOf c.name then
          if E.hasPeriod c then
            let s : St P := { s with unverified := s.unverified.insert unverifiedLife c }
            let r := back (go E (bound s v) s v (.cert c))
            (r.1, .received c :: r.2)
          else (s, [.threw id])
        else (s, [])
      | _ => (s, [])
    | none => (s, [])
  | .badData id =>
    match find s.vals id with
    | some v =>
      match v.phase with
      | .fetching _ _ => back (s, failed v .malformedCert)
      | _ => (s, [])
    | none => (s, [])
  /- `nackCallback`, 96-113. -/
  | .nack id =>
    match find s.vals id with
    | some v =>
      match v.phase with
      | .fetching n (k + 1) => back (s, { v with phase := .backoff n k }, [])
      | .fetching _ 0 => back (s, failed v .cannotRetrieve)
      | _ => (s, [])
    | none => (s, [])
  /- `timeoutCallback`, 115-131. -/
  | .timeout id =>
    match find s.vals id with
    | some v =>
      match v.phase with
      | .fetching n (k + 1) => back (go E (bound s v) s v (.fetch n k))
      | .fetching _ 0 => back (s, failed v .cannotRetrieve)
      | _ => (s, [])
    | none => (s, [])
  | .retry id =>
    match find s.vals id with
    | some v =>
      match v.phase with
      | .backoff n k => back (go E (bound s v) s v (.fetch n k))
      | _ => (s, [])
    | none => (s, [])
  /- validator.cpp 168-197; the anchors are a set by name (trust-anchor-container.hpp). -/
  | .loadAnchor c => ({ s with anchors := insertByName ⟨c, 0⟩ s.anchors }, [.loaded c])
  | .resetAnchors => ({ s with anchors := [] }, [.anchorsReset])
  | .cacheVerified c =>
    if E.hasPeriod c then ({ s with verified := s.verified.insert verifiedLife c }, [.userCached c]) else (s, [])
  | .resetVerified => ({ s with verified := { s.verified with certs := [] } }, [.verifiedReset])
  | .setClock t => ({ s with verified := { s.verified with now := t }, unverified := { s.unverified with now := t } }, [.clock t])
  | .setMaxDepth d => ({ s with maxDepth := d }, [])

/-- The state and what was observed, after some inputs. -/
def run (E : Env P) : St P × List (Obs P) → List (Op P) → St P × List (Obs P)
  | x, [] => x
  | x, op :: ops => let r := step E x.1 op; run E (r.1, x.2 ++ r.2) ops

/-- From a new validator with the clock at `t`. -/
def start (P : Type) (t : Int) : St P × List (Obs P) := (St.init P t, [.clock t])

end Ndn.Validator
