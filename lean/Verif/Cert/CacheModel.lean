import Verif.Cert.Model
import Verif.Ims.Model
/-
Model of `CertificateCache` (security/certificate-cache.{hpp,cpp}). The wall clock is part of the state.
-/
namespace Ndn.Cert
open Ndn.Name Ndn.Ims

/-- What the cache looks at in a certificate: its name, the end of its validity period in nanoseconds, and
the rest of the packet. -/
structure Crt where
  name : List Comp
  notAfter : Int
  body : Nat
  deriving DecidableEq, Repr

/-- `CertificateCache::Entry`, certificate-cache.hpp 90-104. -/
structure Entry where
  cert : Crt
  removal : Int
  deriving DecidableEq, Repr

/-- A certificate cache and the clock. `certs` is `m_certs` in the order of its index by name; `undefined` is
set when a sum of instants overflowed. -/
structure Cache where
  now : Int
  certs : List Entry
  undefined : Bool
  deriving DecidableEq, Repr

def Cache.init (now : Int) : Cache := ⟨now, [], false⟩

/-- `m_certs.insert`: the index by name is unique, so nothing happens when the name is there. -/
def insertByName (e : Entry) : List Entry → List Entry
  | [] => [e]
  | x :: xs =>
    if nameLt e.cert.name x.cert.name then e :: x :: xs
    else if e.cert.name = x.cert.name then x :: xs
    else x :: insertByName e xs

/-- `insert`, certificate-cache.cpp 37-51. -/
def Cache.insert (life : Int) (s : Cache) (c : Crt) : Cache :=
  if c.notAfter < s.now then s
  else if int64 (s.now + life) then { s with certs := insertByName ⟨c, min c.notAfter (s.now + life)⟩ s.certs }
  else { s with undefined := true }

/-- `refresh`, 95-104: removes from the front of the index by removal time while that is past. -/
def Cache.refresh (s : Cache) : Cache := { s with certs := s.certs.filter (fun e => !decide (e.removal < s.now)) }

/-- `m_certsByName.lower_bound` to the end. -/
def lowerBound (l : List Entry) (n : List Comp) : List Entry := l.dropWhile (fun e => nameLt e.cert.name n)

/-- `find(Name)`, 59-70. -/
def Cache.find (s : Cache) (n : List Comp) : Cache × Option Crt :=
  let s : Cache := s.refresh
  match lowerBound s.certs n with
  | [] => (s, none)
  | e :: _ => (s, if n.isPrefixOf e.cert.name then some e.cert else none)

/-- The loop of `find(Interest)`, 80-87; `matches` is `interest.matchesData`. -/
def scan (n : List Comp) (matches' : Crt → Bool) : List Entry → Option Crt
  | [] => none
  | e :: es =>
    if n.isPrefixOf e.cert.name then
      if matches' e.cert then some e.cert else scan n matches' es
    else none

/-- `find(Interest)`, 72-89. -/
def Cache.findInterest (s : Cache) (n : List Comp) (matches' : Crt → Bool) : Cache × Option Crt :=
  let s : Cache := s.refresh
  (s, scan n matches' (lowerBound s.certs n))

/-- Calls on a cache, and changes of the clock. -/
inductive COp where
  | insert (c : Crt)
  | clear
  | find (n : List Comp)
  | findInterest (n : List Comp) (matches' : Crt → Bool)
  | setClock (t : Int)

def Cache.step (life : Int) (s : Cache) : COp → Cache
  | .insert c => s.insert life c
  | .clear => { s with certs := [] }
  | .find n => (s.find n).1
  | .findInterest n m => (s.findInterest n m).1
  | .setClock t => { s with now := t }

def Cache.run (life : Int) (s : Cache) (ops : List COp) : Cache := ops.foldl (Cache.step life) s

end Ndn.Cert
