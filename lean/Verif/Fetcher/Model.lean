import Verif.Cert.CacheModel
/-
Model of the certificate fetchers: `CertificateFetcher::fetch` (security/certificate-fetcher.cpp),
`CertificateBundleFetcher` (security/certificate-bundle-fetcher.cpp), `CertificateFetcherFromNetwork`,
`CertificateFetcherDirectFetch` and `CertificateFetcherOffline`.

One validation is followed: it asks for certificates one after the other; the network answers; other validations put
certificates into the cache; the clock changes. The bundle fetcher may be there or not, in front of any of the other three.
Data packets are given by what the fetchers look at. `toSegment` is taken with both naming conventions accepted when
decoding (the default) and `fromSegment` with the typed one (the default).
-/
namespace Ndn.Fetcher
open Ndn.Name Ndn.Cert Ndn.Ims

/-- The naming conventions in force by default, name-component.cpp 31-32. -/
def conv : Settings := ⟨false, true, true⟩

/-- A Data packet: its name, its FinalBlockId, the elements of its content (`none`: the content is not a sequence of
elements), each a certificate or not, and the packet itself as a certificate, if it is one. -/
structure Pkt where
  name : List Comp
  final : Option Comp
  elems : Option (List (Option Crt))
  asCert : Option Crt
  deriving DecidableEq, Repr

/-- The fetcher behind the bundle fetcher. `faceId` is the IncomingFaceId tag of the packet validated, 0 if it has none. -/
inductive Inner where
  | network
  | direct (only : Bool) (faceId : Nat)
  | offline
  deriving DecidableEq, Repr

/-- What does not change during a validation. -/
structure Env where
  /-- A bundle fetcher is in front. -/
  bundle : Bool
  /-- The name of the Data packet validated; `none`: an Interest is validated. -/
  data : Option (List Comp)
  inner : Inner
  /-- `interest.matchesData(cert)` for the Interest of a request. -/
  isMatch : List Comp → Crt → Bool
  /-- Whether the certificate has a well-formed ValidityPeriod; without one it cannot be cached: an exception. -/
  hasPeriod : Crt → Bool

/-- A certificate request: name, `nRetriesLeft`, `waitAfterNack` in milliseconds; certificate-request.hpp 33-58. -/
structure Req where
  name : List Comp
  left : Nat
  wait : Nat
  deriving DecidableEq, Repr

def Req.new (n : List Comp) : Req := ⟨n, 3, 500⟩

/-- What the validation waits for. -/
inductive Phase where
  | idle
  /-- The first bundle Interest, for this prefix, is out. -/
  | first (r : Req) (p : List Comp)
  /-- The Interest for the bundle segment of this name is out. -/
  | segment (r : Req) (n : List Comp)
  /-- The Interest for the certificate is out. -/
  | inner (r : Req)
  /-- That Interest will be sent again. -/
  | backoff (r : Req)
  /-- Undefined behaviour: a null pointer was dereferenced. -/
  | undefined
  deriving DecidableEq, Repr

/-- What can be observed. -/
inductive Obs where
  /-- The validation asks for a certificate. -/
  | asked (n : List Comp)
  /-- An Interest for a bundle; `pfx`: CanBePrefix and MustBeFresh. -/
  | bundle (n : List Comp) (pfx : Bool)
  /-- An Interest for a certificate, with a NextHopFaceId tag or not; `heard`: with callbacks. -/
  | interest (n : List Comp) (nextHop : Option Nat) (heard : Bool)
  /-- `continueValidation` is called. -/
  | continued (n : List Comp) (c : Crt)
  /-- `state->fail`. -/
  | failed (n : List Comp)
  /-- The next attempt is scheduled. -/
  | wait (ms : Nat)
  /-- An exception leaves the callback. -/
  | threw
  | undefined
  deriving DecidableEq, Repr

/-- `tag` and `final` are the tags of the `ValidationState`, certificate-bundle-fetcher.cpp 35-36. -/
structure St where
  tag : Option (List Comp)
  final : Option Comp
  cache : Cache
  phase : Phase

def St.init (now : Int) : St := ⟨none, none, Cache.init now, .idle⟩

/-- `CertificateStorage`: certificates not verified are kept for five minutes, certificate-storage.cpp 26-30. -/
def life : Int := 300000000000

def appendNumber0 : Comp := ⟨8, [0]⟩

/-- "_BUNDLE" as a GenericNameComponent. -/
def bundleComp : Comp := ⟨8, [95, 66, 85, 78, 68, 76, 69]⟩

/-- `deriveBundleName`, 214-236; the name is not empty. -/
def deriveBundleName (n : List Comp) : List Comp :=
  let base := match n.getLast? with
    | none => n
    | some c =>
      if c.type = 1 && c.value.length = 32 then
        match n.dropLast.getLast? with
        | some d => if Conv.segment.is conv d then n.dropLast.dropLast else n.dropLast
        | none => n.dropLast
      else if Conv.segment.is conv c then n.dropLast
      else n
  base ++ [bundleComp, appendNumber0]

/-- `continueValidation` as wrapped by `fetch`, certificate-fetcher.cpp 60-64: the certificate is cached first. When that
throws the face keeps the Interest (see C47_throw_counterexample). -/
def goOn (E : Env) (s : St) (r : Req) (c : Crt) : St × List Obs :=
  if E.hasPeriod c then ({ s with cache := s.cache.insert life c, phase := .idle }, [.continued r.name c]) else (s, [.threw])

/-- `doFetch` of the inner fetcher: certificate-fetcher-from-network.cpp 43-60, certificate-fetcher-direct-fetch.cpp 41-93,
certificate-fetcher-offline.cpp 27-34. -/
def innerDoFetch (E : Env) (s : St) (r : Req) : St × List Obs :=
  match E.inner with
  | .offline => ({ s with phase := .idle }, [.failed r.name])
  | .network => ({ s with phase := .inner r }, [.interest r.name none true])
  | .direct false f =>
    if f ≠ 0 then ({ s with phase := .inner r }, [.interest r.name (some f) false, .interest r.name none true])
    else ({ s with phase := .inner r }, [.interest r.name none true])
  | .direct true f =>
    if f ≠ 0 then ({ s with phase := .inner r }, [.interest r.name (some f) true])
    else ({ s with phase := .idle }, [.failed r.name])

/-- `fetch` of the inner fetcher, certificate-fetcher.cpp 47-65. -/
def innerFetch (E : Env) (s : St) (r : Req) : St × List Obs :=
  let f := s.cache.findInterest r.name (E.isMatch r.name)
  let s : St := { s with cache := f.1 }
  match f.2 with
  | some c => goOn E s r c
  | none => innerDoFetch E s r

/-- `fetchFirstBundleSegment`, certificate-bundle-fetcher.cpp 81-102. -/
def fetchFirst (s : St) (r : Req) (p : List Comp) : St × List Obs := ({ s with phase := .first r p }, [.bundle p true])

/-- `fetchNextBundleSegment`, 104-132; `full` is the name of a segment and `seg` the one to fetch. -/
def fetchNext (E : Env) (s : St) (r : Req) (full : List Comp) (seg : Comp) : St × List Obs :=
  let beyond := match s.final with
    | some f => compLt f seg
    | none => false
  if beyond then innerFetch E s r
  else ({ s with phase := .segment r (full.dropLast ++ [seg]) }, [.bundle (full.dropLast ++ [seg]) false])

/-- `CertificateBundleFetcher::doFetch`, 53-79; without a bundle fetcher that of the inner one. -/
def doFetch (E : Env) (s : St) (r : Req) : St × List Obs :=
  if E.bundle then
    match E.data with
    | none => innerFetch E s r
    | some dn =>
      match s.tag with
      | none => if dn.isEmpty then innerFetch E s r else fetchFirst s r (deriveBundleName dn)
      | some full => match full.getLast? with
        | some c => fetchNext E s r full c.successor
        | none => innerFetch E s r
  else innerDoFetch E s r

/-- `CertificateFetcher::fetch`, certificate-fetcher.cpp 47-65, called by the validator. -/
def fetch (E : Env) (s : St) (r : Req) : St × List Obs :=
  let f := s.cache.findInterest r.name (E.isMatch r.name)
  let s : St := { s with cache := f.1 }
  match f.2 with
  | some c => ({ s with phase := .idle }, [.continued r.name c])
  | none => doFetch E s r

/-- The loop of `dataCallback`, certificate-bundle-fetcher.cpp 164-166: `false` if `Certificate(block)` or the cache throws. -/
def storeAll (E : Env) (cache : Cache) : List (Option Crt) → Cache × Bool
  | [] => (cache, true)
  | none :: _ => (cache, false)
  | some c :: cs => if E.hasPeriod c then storeAll E (cache.insert life c) cs else (cache, false)

/-- `dataCallback`, 134-171. -/
def bundleData (E : Env) (s : St) (r : Req) (zeroExpected : Bool) (d : Pkt) : St × List Obs :=
  match d.name.getLast? with
  | none => (s, [.threw])
  | some cur =>
    if !Conv.segment.is conv cur then innerFetch E s r
    else if zeroExpected && Conv.segment.to conv cur ≠ some 0 then
      fetchNext E s r d.name ((Conv.segment.from conv 0).getD ⟨8, []⟩)
    else
      let s : St := { s with tag := some d.name, final := if d.final.isSome then d.final else s.final }
      match d.elems with
      | none => (s, [.threw])
      | some es =>
        let a := storeAll E s.cache es
        let s : St := { s with cache := a.1 }
        if a.2 then
          let f := s.cache.findInterest r.name (E.isMatch r.name)
          let s : St := { s with cache := f.1 }
          match f.2 with
          | some c => goOn E s r c
          | none => ({ s with phase := .undefined }, [.undefined])
        else (s, [.threw])

/-- Inputs. -/
inductive Op where
  /-- The validator asks for a certificate; it waits for one at a time. -/
  | fetch (n : List Comp)
  /-- Data arrives for the Interest that is out. The face delivers only what matches. -/
  | data (d : Pkt)
  | nack
  | timeout
  /-- The wait after a Nack is over. -/
  | retry
  /-- Another validation caches a certificate. -/
  | other (c : Crt)
  | setClock (t : Int)

def step (E : Env) (s : St) : Op → St × List Obs
  | .fetch n =>
    match s.phase with
    | .idle => let r := fetch E s (.new n); (r.1, .asked n :: r.2)
    | _ => (s, [])
  | .data d =>
    match s.phase with
    | .first r p => if p.isPrefixOf d.name then bundleData E s r true d else (s, [])
    | .segment r n => if n = d.name then bundleData E s r false d else (s, [])
    /- `dataCallback`, certificate-fetcher-from-network.cpp 62-77. -/
    | .inner r => match d.asCert with
      | some c => if E.isMatch r.name c && r.name.isPrefixOf c.name then goOn E s r c else (s, [])
      | none => if r.name.isPrefixOf d.name then ({ s with phase := .idle }, [.failed r.name]) else (s, [])
    | _ => (s, [])
  /- `nackCallback`, certificate-bundle-fetcher.cpp 173-185; certificate-fetcher-from-network.cpp 79-98. -/
  | .nack =>
    match s.phase with
    | .first r _ => innerFetch E s r
    | .segment r _ => innerFetch E s r
    | .inner r => match r.left with
      | 0 => ({ s with phase := .idle }, [.failed r.name])
      | k + 1 => ({ s with phase := .backoff ⟨r.name, k, r.wait * 2⟩ }, [.wait r.wait])
    | _ => (s, [])
  /- `timeoutCallback`, certificate-bundle-fetcher.cpp 185-194; certificate-fetcher-from-network.cpp 98-113. -/
  | .timeout =>
    match s.phase with
    | .first r _ => innerFetch E s r
    | .segment r _ => innerFetch E s r
    | .inner r => match r.left with
      | 0 => ({ s with phase := .idle }, [.failed r.name])
      | k + 1 => innerFetch E s ⟨r.name, k, r.wait⟩
    | _ => (s, [])
  | .retry =>
    match s.phase with
    | .backoff r => innerFetch E s r
    | _ => (s, [])
  | .other c => if E.hasPeriod c then ({ s with cache := s.cache.insert life c }, []) else (s, [])
  | .setClock t => ({ s with cache := { s.cache with now := t } }, [])

/-- The state and what was observed, after some inputs. -/
def run (E : Env) : St × List Obs → List Op → St × List Obs
  | x, [] => x
  | x, op :: ops => let r := step E x.1 op; run E (r.1, x.2 ++ r.2) ops

end Ndn.Fetcher
