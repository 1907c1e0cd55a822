import Verif.Config.Model
import Verif.Regex.Spec
/-
Specification: what a configuration says (`Filter`, `Checker`, `Rule` below, written with the expressions and
languages of `Regex.Spec`), which property trees say it, and what is to be decided about a packet.
-/
namespace Ndn.Config.Spec
open Ndn.Name Ndn.Packet

/-! ### Names -/

/-- The three relations between names. -/
def Rel : Relation → List Comp → List Comp → Prop
  | .equal, a, b => a = b
  | .isPrefixOf, a, b => ∃ t, b = a ++ t
  | .isStrictPrefixOf, a, b => ∃ c t, b = a ++ c :: t

/-- The identity in a key locator name: what precedes the last `KEY`, which is one of the last four components
(`/<identity>/KEY`, `/<identity>/KEY/<key id>`, ..., `/<identity>/KEY/<key id>/<issuer>/<version>`). The two reserved
names are identities themselves. -/
def Identity (kl id : List Comp) : Prop :=
  if kl = digestIdentity ∨ kl = hmacIdentity then id = kl
  else ∃ rest, kl = id ++ keyComp :: rest ∧ rest.length ≤ 3 ∧ keyComp ∉ rest

/-- The identity the hierarchical checker finds: as above, but `KEY` is not the last component, and is the last but
the last component does not count. -/
def HierIdentity (kl id : List Comp) : Prop :=
  ∃ mid x, kl = id ++ keyComp :: (mid ++ [x]) ∧ mid.length ≤ 2 ∧ keyComp ∉ mid

/-! ### Packets -/

/-- The key locator of a signature: a name, or the reserved name for digests. -/
def Locates (info : SigInfo) (kl : List Comp) : Prop :=
  (info.type = some 0 ∧ kl = digestIdentity) ∨ (info.type ≠ some 0 ∧ info.keyLocator = some (.name kl))

/-- The signature information of a packet. -/
inductive Signed : Pkt → SigInfo → Prop
  | data (n : List Comp) (i : SigInfo) : Signed (.data n i) i
  | v03 (n : List Comp) (i : SigInfo) : Signed (.interest n (.v03 i)) i
  /-- Packet format v0.2: the element encoded in the last but one component. -/
  | v02 (n : List Comp) (c d : Comp) (b : Block.Raw) (i : SigInfo) :
      Block.blockFromValue c.value = some b → SigInfo.wireDecode b 22 = (true, i) → Signed (.interest (n ++ [c, d]) .v02) i

/-- The name that rules look at: without the components that belong to the signature. -/
inductive Subject : Pkt → List Comp → Prop
  | data (n : List Comp) (i : SigInfo) : Subject (.data n i) n
  | v03 (n : List Comp) (c : Comp) (i : SigInfo) : c.type = 2 → Subject (.interest (n ++ [c]) (.v03 i)) n
  | v02 (n : List Comp) (c d : Comp) : Subject (.interest (n ++ [c, d]) .v02) n

def Pkt.isInterest : Pkt → Bool
  | .data _ _ => false
  | .interest _ _ => true

def Pkt.name : Pkt → List Comp
  | .data n _ => n
  | .interest n _ => n

/-! ### Configurations -/

abbrev Pattern := Regex.Spec.Top
abbrev Item := Regex.Spec.Item

inductive Filter where
  | relation (name : List Comp) (r : Relation)
  | regex (t : Pattern)

/-- The conditions on the key locator. -/
inductive Kind where
  | plain
  | relation (name : List Comp) (r : Relation)
  | regex (t : Pattern)
  | hyper (p : Pattern) (pExpand : Bytes) (k : Pattern) (kExpand : Bytes) (r : Relation)
  | hierarchical

structure Checker where
  sigType : Nat
  kind : Kind

structure Rule where
  filters : List Filter
  checkers : List Checker

/-- A packet satisfies a filter. -/
def Filter.Holds (env : REnv) (x : Pkt) (f : Filter) : Prop :=
  ∃ n, Subject x n ∧
    match f with
    | .relation m r => Rel r m n
    | .regex t => t.Lang env n

/-- A rule captures a packet if it has no filters or the packet satisfies one of them. -/
def Rule.Captures (env : REnv) (x : Pkt) (r : Rule) : Prop := r.filters = [] ∨ ∃ f ∈ r.filters, f.Holds env x

/-- What the documentation says (docs/tutorials/security-validator-config.rst): all filters are satisfied. -/
def Rule.CapturesAll (env : REnv) (x : Pkt) (r : Rule) : Prop := ∀ f ∈ r.filters, f.Holds env x

/-- The expansions `e` may have after `w` was matched with `t`: the concatenation of the values of its items, `\i`
being what group `i` captured in a way of matching `w` (anything, if the group took no part in it). `none`: the
template is in error, as are those that end with a literal. -/
def Expands (env : REnv) (t : Pattern) (w : List Comp) (e : Bytes) (v : Option (List Comp)) : Prop :=
  ∃ x y z a cap, w = x ++ y ++ z ∧ (t.start = true → x = []) ∧ (t.fin = true → z = []) ∧ Regex.Spec.Way env t.pat 0 y a ∧
    (∀ r c, Regex.Spec.captured a r = some c → cap r = c) ∧
    ∀ is : List Item, (∀ i ∈ is, i.WF) → e = is.flatMap Regex.Spec.Item.print →
      ((∃ u, is.getLast? = some (.lit u)) → v = none) ∧
      ((∀ u, is.getLast? ≠ some (.lit u)) → v = (is.mapM (Regex.Spec.Item.value env (t.pat.groups env) cap w)).map List.flatten)

/-- The answers a condition may give about the subject name `n` and the key locator `kl`: `some b`, or `none` for an
exception. -/
inductive Answer (env : REnv) (n kl : List Comp) : Kind → Option Bool → Prop
  | plain : Answer env n kl .plain (some true)
  | relation (m : List Comp) (r : Relation) (id : List Comp) (b : Bool) : Identity kl id → (b = true ↔ Rel r m id) →
      Answer env n kl (.relation m r) (some b)
  | noIdentity (m : List Comp) (r : Relation) : (∀ id, ¬ Identity kl id) → Answer env n kl (.relation m r) none
  | regex (t : Pattern) (b : Bool) : (b = true ↔ t.Lang env kl) → Answer env n kl (.regex t) (some b)
  | noMatchP (p : Pattern) (pe : Bytes) (k : Pattern) (ke : Bytes) (r : Relation) : ¬ p.Lang env n →
      Answer env n kl (.hyper p pe k ke r) (some false)
  | noMatchK (p : Pattern) (pe : Bytes) (k : Pattern) (ke : Bytes) (r : Relation) : ¬ k.Lang env kl →
      Answer env n kl (.hyper p pe k ke r) (some false)
  | hyper (p : Pattern) (pe : Bytes) (k : Pattern) (ke : Bytes) (r : Relation) (a c : List Comp) (b : Bool) :
      p.Lang env n → k.Lang env kl → Expands env k kl ke (some a) → Expands env p n pe (some c) → (b = true ↔ Rel r a c) →
      Answer env n kl (.hyper p pe k ke r) (some b)
  | badTemplate (p : Pattern) (pe : Bytes) (k : Pattern) (ke : Bytes) (r : Relation) :
      p.Lang env n → k.Lang env kl → Expands env k kl ke none ∨ Expands env p n pe none →
      Answer env n kl (.hyper p pe k ke r) none
  | hierarchical (b : Bool) : (b = true ↔ ∃ id, HierIdentity kl id ∧ ∃ t, n = id ++ t) → Answer env n kl .hierarchical (some b)

/-- The answers a checker may give about a packet: a checker for another signature type refuses, as does one
that is given an Interest whose name is too short or has no digest component. -/
def Checker.Answers (env : REnv) (x : Pkt) (info : SigInfo) (kl : List Comp) (c : Checker) (a : Option Bool) : Prop :=
  if info.type = some c.sigType then
    (∃ n, Subject x n ∧ Answer env n kl c.kind a) ∨ ((∀ n, ¬ Subject x n) ∧ a = some false)
  else a = some false

/-- What may be decided: refuse; ask for the certificate named by the key locator; an exception. -/
inductive Verdict where
  | refuse | allow | exception
  deriving DecidableEq, Repr

/-- A rule's verdict: the first checker that does not refuse decides; if all refuse, the packet is refused. -/
inductive Rule.Verdict (env : REnv) (x : Pkt) (info : SigInfo) (kl : List Comp) (r : Rule) : Spec.Verdict → Prop
  | allow (pre : List Checker) (c : Checker) (post : List Checker) : r.checkers = pre ++ c :: post →
      (∀ d ∈ pre, d.Answers env x info kl (some false)) → c.Answers env x info kl (some true) → Rule.Verdict env x info kl r .allow
  | exception (pre : List Checker) (c : Checker) (post : List Checker) : r.checkers = pre ++ c :: post →
      (∀ d ∈ pre, d.Answers env x info kl (some false)) → c.Answers env x info kl none → Rule.Verdict env x info kl r .exception
  | refuse : (∀ c ∈ r.checkers, c.Answers env x info kl (some false)) → Rule.Verdict env x info kl r .refuse

/-- The verdict of a list of rules: that of the first rule that captures the packet; refused, if none does. -/
inductive Decides (env : REnv) (x : Pkt) (info : SigInfo) (kl : List Comp) (rs : List Rule) : Verdict → Prop
  | rule (pre : List Rule) (r : Rule) (post : List Rule) (v : Verdict) : rs = pre ++ r :: post →
      (∀ q ∈ pre, ¬ q.Captures env x) → r.Captures env x → r.Verdict env x info kl v → Decides env x info kl rs v
  | none : (∀ r ∈ rs, ¬ r.Captures env x) → Decides env x info kl rs .refuse

/-! ### Property trees that say it -/

/-- A word of the configuration language, in any mixture of upper and lower case. -/
def Is (w k : Bytes) : Prop := k.map lower = w

inductive SaysRelation : Bytes → Relation → Prop
  | equal (s : Bytes) : Is wEqual s → SaysRelation s .equal
  | isPrefixOf (s : Bytes) : Is wIsPrefix s → SaysRelation s .isPrefixOf
  | isStrictPrefixOf (s : Bytes) : Is wIsStrict s → SaysRelation s .isStrictPrefixOf

/-- A regular expression that is well formed, and its text. -/
def Writes (env : REnv) (s : Bytes) (t : Pattern) : Prop := s = t.print ∧ s ≠ [] ∧ t.pat.WF env

/-- `type name`, then `name` and `relation`, or `regex`. -/
inductive SaysFilter (env : REnv) : List (Bytes × Sec) → Filter → Prop
  | relation (k1 k2 k3 : Bytes) (s1 s2 s3 : Sec) (n : List Comp) (r : Relation) :
      Is wType k1 → Is wName s1.data → Is wName k2 → fromUri s2.data = some n → Is wRelation k3 → SaysRelation s3.data r →
      SaysFilter env [(k1, s1), (k2, s2), (k3, s3)] (.relation n r)
  | regex (k1 k2 : Bytes) (s1 s2 : Sec) (t : Pattern) :
      Is wType k1 → Is wName s1.data → Is wRegex k2 → Writes env s2.data t →
      SaysFilter env [(k1, s1), (k2, s2)] (.regex t)

/-- `type name`, then `name` and `relation`, or `regex`, or `hyper-relation` with its five properties (further properties
after it are ignored). -/
inductive SaysKind (env : REnv) : List (Bytes × Sec) → Kind → Prop
  | relation (k1 k2 k3 : Bytes) (s1 s2 s3 : Sec) (n : List Comp) (r : Relation) :
      Is wType k1 → Is wName s1.data → Is wName k2 → fromUri s2.data = some n → Is wRelation k3 → SaysRelation s3.data r →
      SaysKind env [(k1, s1), (k2, s2), (k3, s3)] (.relation n r)
  | regex (k1 k2 : Bytes) (s1 s2 : Sec) (t : Pattern) :
      Is wType k1 → Is wName s1.data → Is wRegex k2 → Writes env s2.data t →
      SaysKind env [(k1, s1), (k2, s2)] (.regex t)
  | hyper (k1 k2 h1 h2 h3 h4 h5 : Bytes) (s1 s2 t1 t2 t3 t4 t5 : Sec) (rest : List (Bytes × Sec)) (p k : Pattern) (r : Relation) :
      Is wType k1 → Is wName s1.data → Is wHyper k2 → s2.kids = [(h1, t1), (h2, t2), (h3, t3), (h4, t4), (h5, t5)] →
      Is wKRegex h1 → Is wKExpand h2 → Is wHRelation h3 → Is wPRegex h4 → Is wPExpand h5 →
      Writes env t1.data k → SaysRelation t3.data r → Writes env t4.data p →
      SaysKind env ((k1, s1) :: (k2, s2) :: rest) (.hyper p t5.data k t2.data r)

/-- The optional `sig-type`; ECDSA if there is none. -/
inductive SaysSigType : List (Bytes × Sec) → Nat → Prop
  | default : SaysSigType [] 3
  | rsa (k : Bytes) (s : Sec) : Is wSigType k → Is wRsa s.data → SaysSigType [(k, s)] 1
  | ecdsa (k : Bytes) (s : Sec) : Is wSigType k → Is wEcdsa s.data → SaysSigType [(k, s)] 3
  | sha (k : Bytes) (s : Sec) : Is wSigType k → Is wSha s.data → SaysSigType [(k, s)] 0

/-- `type customized`, optionally `sig-type`, `key-locator`; or no key locator for `sha256` (whatever else there is); or `type hierarchical` and
optionally `sig-type`. -/
inductive SaysChecker (env : REnv) : List (Bytes × Sec) → Checker → Prop
  | customized (k1 : Bytes) (s1 : Sec) (sig : List (Bytes × Sec)) (t : Nat) (k2 : Bytes) (s2 : Sec) (x : Kind) :
      Is wType k1 → Is wCustomized s1.data → SaysSigType sig t → Is wKeyLocator k2 → SaysKind env s2.kids x →
      SaysChecker env ((k1, s1) :: (sig ++ [(k2, s2)])) ⟨t, x⟩
  | digest (k1 : Bytes) (s1 : Sec) (sig rest : List (Bytes × Sec)) :
      Is wType k1 → Is wCustomized s1.data → SaysSigType sig 0 → (∀ k s, rest.head? = some (k, s) → ¬ Is wKeyLocator k) →
      SaysChecker env ((k1, s1) :: (sig ++ rest)) ⟨0, .plain⟩
  | hierarchical (k1 : Bytes) (s1 : Sec) (sig : List (Bytes × Sec)) (t : Nat) :
      Is wType k1 → Is wHierarchical s1.data → SaysSigType sig t →
      SaysChecker env ((k1, s1) :: sig) ⟨t, .hierarchical⟩

/-- Pointwise. -/
inductive All {α β : Type} (R : α → β → Prop) : List α → List β → Prop
  | nil : All R [] []
  | cons {a b as bs} : R a b → All R as bs → All R (a :: as) (b :: bs)

/-- `id`, `for`, filters, and at least one checker. -/
inductive SaysRule (env : REnv) : List (Bytes × Sec) → Bool → Rule → Prop
  | mk (k1 k2 : Bytes) (s1 s2 : Sec) (isInterest : Bool) (fs cs : List (Bytes × Sec)) (filters : List Filter) (checkers : List Checker) :
      Is wId k1 → Is wFor k2 → (if isInterest then Is wInterest s2.data else Is wData s2.data) →
      All (fun s f => Is wFilter s.1 ∧ SaysFilter env s.2.kids f) fs filters →
      All (fun s c => Is wChecker s.1 ∧ SaysChecker env s.2.kids c) cs checkers → checkers ≠ [] →
      SaysRule env ((k1, s1) :: (k2, s2) :: (fs ++ cs)) isInterest ⟨filters, checkers⟩

/-- An integer of 32 bits: digits, with an optional sign. -/
inductive SaysInt : Bytes → Int → Prop
  | plain (ds : Bytes) : ds ≠ [] → (∀ c ∈ ds, 48 ≤ c ∧ c ≤ 57) → Regex.number ds < 2 ^ 31 → SaysInt ds (Regex.number ds)
  | plus (ds : Bytes) : ds ≠ [] → (∀ c ∈ ds, 48 ≤ c ∧ c ≤ 57) → Regex.number ds < 2 ^ 31 → SaysInt (43 :: ds) (Regex.number ds)
  | minus (ds : Bytes) : ds ≠ [] → (∀ c ∈ ds, 48 ≤ c ∧ c ≤ 57) → Regex.number ds ≤ 2 ^ 31 → SaysInt (45 :: ds) (-(Regex.number ds))

/-- A unit of time, in nanoseconds: `h`, `m`, `s`. -/
inductive TimeUnit : UInt8 → Int → Prop
  | hours : TimeUnit 104 3600000000000
  | minutes : TimeUnit 109 60000000000
  | seconds : TimeUnit 115 1000000000

/-- The optional `refresh`: a positive number and a unit; zero, whatever the unit, means one hour. If it is missing,
the anchors are not refreshed. -/
inductive SaysRefresh : List (Bytes × Sec) → Int → Prop
  | never : SaysRefresh [] (2 ^ 63 - 1)
  | default (k : Bytes) (s : Sec) (num : Bytes) (unit : UInt8) : Is wRefresh k → s.data = num ++ [unit] → SaysInt num 0 →
      SaysRefresh [(k, s)] 3600000000000
  | period (k : Bytes) (s : Sec) (num : Bytes) (unit : UInt8) (n u : Int) : Is wRefresh k → s.data = num ++ [unit] → SaysInt num n →
      0 < n → TimeUnit unit u → n * u < 2 ^ 63 → SaysRefresh [(k, s)] (n * u)

/-- `type file` with `file-name`, or `type dir` with `dir`, and optionally `refresh`; `type base64` with
`base64-string`; `type any`. -/
inductive SaysAnchor (isCert : Bytes → Bool) : List (Bytes × Sec) → AnchorSec → Prop
  | file (k1 k2 : Bytes) (s1 s2 : Sec) (rest : List (Bytes × Sec)) (p : Int) :
      Is wType k1 → Is wFile s1.data → Is wFileName k2 → SaysRefresh rest p →
      SaysAnchor isCert ((k1, s1) :: (k2, s2) :: rest) (.group ⟨s2.data, some (p, false)⟩)
  | dir (k1 k2 : Bytes) (s1 s2 : Sec) (rest : List (Bytes × Sec)) (p : Int) :
      Is wType k1 → Is wDir s1.data → Is wDir k2 → SaysRefresh rest p →
      SaysAnchor isCert ((k1, s1) :: (k2, s2) :: rest) (.group ⟨s2.data, some (p, true)⟩)
  | base64 (k1 k2 : Bytes) (s1 s2 : Sec) : Is wType k1 → Is wBase64 s1.data → Is wBase64String k2 → isCert s2.data = true →
      SaysAnchor isCert [(k1, s1), (k2, s2)] (.group ⟨[], none⟩)
  | any (k1 : Bytes) (s1 : Sec) (rest : List (Bytes × Sec)) : Is wType k1 → Is wAny s1.data → SaysAnchor isCert ((k1, s1) :: rest) .any

/-- What a section of a configuration says. -/
inductive Sect where
  | rule (isInterest : Bool) (r : Rule)
  | anchor (a : AnchorSec)

inductive SaysSect (env : REnv) (isCert : Bytes → Bool) : Bytes × Sec → Sect → Prop
  | rule (k : Bytes) (s : Sec) (i : Bool) (r : Rule) : Is wRule k → SaysRule env s.kids i r → SaysSect env isCert (k, s) (.rule i r)
  | anchor (k : Bytes) (s : Sec) (a : AnchorSec) : Is wTrustAnchor k → SaysAnchor isCert s.kids a → SaysSect env isCert (k, s) (.anchor a)

/-- The rules for Data, or those for Interests, in order. -/
def rules (isInterest : Bool) : List Sect → List Rule
  | [] => []
  | .rule i r :: xs => if i = isInterest then r :: rules isInterest xs else rules isInterest xs
  | .anchor _ :: xs => rules isInterest xs

/-- The groups of trust anchors, in order. -/
def groups : List Sect → List Anchor
  | [] => []
  | .anchor (.group a) :: xs => a :: groups xs
  | _ :: xs => groups xs

/-- Groups that may stand together: only groups given in the configuration itself share an identifier. -/
def Distinct (as : List Anchor) : Prop := as.Pairwise fun a b => a.id = b.id → a.fromPath = none ∧ b.fromPath = none

/-- A configuration. -/
def SaysConfig (env : REnv) (isCert : Bytes → Bool) (secs : List (Bytes × Sec)) (xs : List Sect) : Prop :=
  All (SaysSect env isCert) secs xs ∧ Distinct (groups xs)

/-- The patterns of a configuration. -/
def Filter.patterns : Filter → List Pattern
  | .relation _ _ => []
  | .regex t => [t]

def Kind.patterns : Kind → List Pattern
  | .regex t => [t]
  | .hyper p _ k _ _ => [p, k]
  | _ => []

def Rule.patterns (r : Rule) : List Pattern := r.filters.flatMap Filter.patterns ++ r.checkers.flatMap fun c => c.kind.patterns

/-- The result of a check and the verdict it stands for. -/
inductive Gives (kl : List Comp) : Out Validator.Decision → Verdict → Prop
  | refuse : Gives kl (.ok .fail) .refuse
  | allow : Gives kl (.ok (.request kl)) .allow
  | exception : Gives kl .throws .exception

/-- What a policy with this configuration may answer: an Interest with a malformed signature is refused; with the
anchor `any` all else is accepted; otherwise a packet without signature or key locator name is refused, and the
rules for its type decide about all others. -/
inductive Outcome (env : REnv) (xs : List Sect) : Pkt → Out Validator.Decision → Prop
  | malformed (n : List Comp) : Outcome env xs (.interest n .malformed) (.ok .fail)
  | any (x : Pkt) : (∀ n, x ≠ .interest n .malformed) → .anchor .any ∈ xs → Outcome env xs x (.ok .bypass)
  | unlocated (x : Pkt) : .anchor .any ∉ xs → (∀ info kl, Signed x info → ¬ Locates info kl) → Outcome env xs x (.ok .fail)
  | rules (x : Pkt) (info : SigInfo) (kl : List Comp) (v : Verdict) (o : Out Validator.Decision) : .anchor .any ∉ xs →
      Signed x info → Locates info kl → Decides env x info kl (rules (Pkt.isInterest x) xs) v → Gives kl o v → Outcome env xs x o

/-- The calls of a policy: a configuration is loaded, then packets are checked. -/
def history (before : List Op) (secs : List (Bytes × Sec)) (checks : List (Nat × Pkt)) : List Op :=
  before ++ .load secs :: checks.map fun c => .check c.1 c.2

end Ndn.Config.Spec
