import Verif.Cert.CacheModel
/-
Model of `TrustAnchorContainer` (security/trust-anchor-container.cpp) and its groups
(security/trust-anchor-group.cpp).

Simplifications:
* The file system is an argument of each operation that reads it: which certificates reading a path gives, in
  order, and whether reading then fails with an exception (`std::filesystem::filesystem_error`). Files that are not
  certificates are skipped by `io::load`, so they do not appear.
* The clock (nanoseconds) is an argument too; the two readings in `refresh` are one.
* The groups are a hash table; the order in which `find` refreshes them is an argument.
* Exceeding 64 bits in `now + refreshPeriod` is the outcome `ub`.
-/
namespace Ndn.Anchors
open Ndn.Name Ndn.Cert

/-- How reading a path ends. -/
structure Listing where
  certs : List Crt
  fails : Bool

/-- What a path contains: a file, or (second argument) a directory. -/
abbrev Files := Bytes → Bool → Listing

/-- A `StaticTrustAnchorGroup` or a `DynamicTrustAnchorGroup`, trust-anchor-group.hpp 49-162. -/
inductive Kind where
  | static
  | dynamic (path : Bytes) (isDir : Bool) (period expire : Int)
  deriving DecidableEq, Repr

structure Group where
  id : Bytes
  kind : Kind
  names : List (List Comp)

/-- `m_groups` and `m_anchors`, trust-anchor-container.hpp 167-170; certificates are in the order of names. -/
structure St where
  groups : List Group
  anchors : List Entry

def St.init : St := ⟨[], []⟩

inductive Out where
  | ok | refused | fails | ub
  deriving DecidableEq, Repr

/-- `AnchorContainer::add`, trust-anchor-container.cpp 26-30: a set by name. -/
def add (c : Crt) (l : List Entry) : List Entry := insertByName ⟨c, 0⟩ l

/-- `AnchorContainer::remove`, trust-anchor-container.cpp 32-36. -/
def remove (n : List Comp) (l : List Entry) : List Entry := l.filter fun e => e.cert.name ≠ n

/-- `loadCert` in `DynamicTrustAnchorGroup::refresh`, trust-anchor-group.cpp 113-125, for each certificate in turn:
the names of the group, the names not seen again, the anchors. -/
def loadCerts : List Crt → List (List Comp) → List (List Comp) → List Entry → List (List Comp) × List (List Comp) × List Entry
  | [], names, old, l => (names, old, l)
  | c :: cs, names, old, l =>
    if c.name ∈ names then loadCerts cs names (old.filter (· ≠ c.name)) l
    else loadCerts cs (c.name :: names) old (add c l)

/-- Removing the names not seen again, trust-anchor-group.cpp 132-136. -/
def dropOld : List (List Comp) → List (List Comp) → List Entry → List (List Comp) × List Entry
  | [], names, l => (names, l)
  | n :: ns, names, l => dropOld ns (names.filter (· ≠ n)) (remove n l)

/-- `DynamicTrustAnchorGroup::refresh`, trust-anchor-group.cpp 99-137: the outcome, the group and the anchors. -/
def Group.refresh (now : Int) (fs : Files) (g : Group) (l : List Entry) : Out × Group × List Entry :=
  match g.kind with
  | .static => (.ok, g, l)
  | .dynamic path isDir period expire =>
    if now < expire then (.ok, g, l)
    else if now + period > 2 ^ 63 - 1 then (.ub, g, l)
    else
      let x := fs path isDir
      let r := loadCerts x.certs g.names g.names l
      if x.fails then (.fails, ⟨g.id, .dynamic path isDir period (now + period), r.1⟩, r.2.2)
      else
        let d := dropOld r.2.1 r.1 r.2.2
        (.ok, ⟨g.id, .dynamic path isDir period (now + period), d.1⟩, d.2)

def St.group (s : St) (id : Bytes) : Option Group := s.groups.find? (·.id = id)

def St.setGroup (s : St) (g : Group) : List Group := s.groups.map fun h => if h.id = g.id then g else h

/-- `TrustAnchorContainer::insert(groupId, cert)`, trust-anchor-container.cpp 44-57, and `StaticTrustAnchorGroup::add`,
trust-anchor-group.cpp 60-69. -/
def St.insert (s : St) (id : Bytes) (c : Crt) : Out × St :=
  match s.group id with
  | none => (.ok, ⟨s.groups ++ [⟨id, .static, [c.name]⟩], add c s.anchors⟩)
  | some g =>
    match g.kind with
    | .dynamic .. => (.refused, s)
    | .static =>
      if c.name ∈ g.names then (.ok, s)
      else (.ok, ⟨s.setGroup ⟨id, .static, c.name :: g.names⟩, add c s.anchors⟩)

/-- `TrustAnchorContainer::insert(groupId, path, ...)`, trust-anchor-container.cpp 59-69, and the constructor of
`DynamicTrustAnchorGroup`, trust-anchor-group.cpp 80-99. A group whose constructor fails is not inserted. -/
def St.insertPath (now : Int) (fs : Files) (s : St) (id path : Bytes) (period : Int) (isDir : Bool) : Out × St :=
  if (s.group id).isSome then (.refused, s)
  else if period ≤ 0 then (.refused, s)
  else
    let r := Group.refresh now fs ⟨id, .dynamic path isDir period 0, []⟩ s.anchors
    match r.1 with
    | .ok => (.ok, ⟨s.groups ++ [r.2.1], r.2.2⟩)
    | o => (o, ⟨s.groups, r.2.2⟩)

/-- `StaticTrustAnchorGroup::remove`, trust-anchor-group.cpp 71-76, of a group obtained with `getGroup`,
trust-anchor-container.cpp 105-113. -/
def St.removeCert (s : St) (id : Bytes) (n : List Comp) : Out × St :=
  match s.group id with
  | none => (.refused, s)
  | some g =>
    match g.kind with
    | .dynamic .. => (.refused, s)
    | .static => (.ok, ⟨s.setGroup ⟨id, .static, g.names.filter (· ≠ n)⟩, remove n s.anchors⟩)

/-- `getGroup(id).refresh()`. -/
def St.refreshGroup (now : Int) (fs : Files) (s : St) (id : Bytes) : Out × St :=
  match s.group id with
  | none => (.refused, s)
  | some g => let r := g.refresh now fs s.anchors; (r.1, ⟨s.setGroup r.2.1, r.2.2⟩)

/-- The loop of `TrustAnchorContainer::refresh`, trust-anchor-container.cpp 121-127; an exception leaves it. -/
def St.refreshAll (now : Int) (fs : Files) : List Bytes → St → Out × St
  | [], s => (.ok, s)
  | id :: ids, s =>
    let r := s.refreshGroup now fs id
    if r.1 = .fails ∨ r.1 = .ub then r else St.refreshAll now fs ids r.2

inductive Op where
  | insert (id : Bytes) (c : Crt)
  | insertPath (now : Int) (fs : Files) (id path : Bytes) (period : Int) (isDir : Bool)
  | remove (id : Bytes) (n : List Comp)
  | refresh (now : Int) (fs : Files) (id : Bytes)
  | find (now : Int) (fs : Files) (order : List Bytes)
  | clear

/-- One call. `find` refreshes the groups in the given order, and then any that are not in it (refreshing a group
again does nothing). `clear`: trust-anchor-container.cpp 71-76. -/
def step (s : St) : Op → Out × St
  | .insert id c => s.insert id c
  | .insertPath now fs id path period isDir => s.insertPath now fs id path period isDir
  | .remove id n => s.removeCert id n
  | .refresh now fs id => s.refreshGroup now fs id
  | .find now fs order => s.refreshAll now fs (order ++ s.groups.map (·.id))
  | .clear => (.ok, St.init)

/-- The outcomes of the calls and the state after them. -/
def run : St → List Op → List Out × St
  | s, [] => ([], s)
  | s, o :: os => let r := step s o; let x := run r.2 os; (r.1 :: x.1, x.2)

/-- What `find(Name)` returns after refreshing, trust-anchor-container.cpp 83-88. -/
def St.lookup (s : St) (n : List Comp) : Option Crt :=
  match lowerBound s.anchors n with
  | [] => none
  | e :: _ => if n.isPrefixOf e.cert.name then some e.cert else none

/-- What `find(Interest)` returns after refreshing, trust-anchor-container.cpp 95-105. -/
def St.lookupInterest (s : St) (n : List Comp) (matches' : Crt → Bool) : Option Crt := scan n matches' (lowerBound s.anchors n)

end Ndn.Anchors
