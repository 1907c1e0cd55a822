import Verif.Packet.Model
import Verif.Regex.Model
import Verif.Validator.Model
/-
Model of `ValidationPolicyConfig` (security/validation-policy-config.cpp), its rules, filters and checkers
(security/validator-config/*.cpp), `ValidationPolicySimpleHierarchy`
(security/validation-policy-simple-hierarchy.cpp) and the helpers of security/validation-policy.cpp.

Simplifications:
* A configuration is a property tree (what `boost::property_tree::read_info` gives); reading the text is not
  modelled. Exceptions of any type are one outcome (`throws`), undefined behaviour another (`ub`).
* Regular expressions are those of the model `Regex`, with its environment and its fuel; a match that does not
  end is the outcome `hang`.
* `state->fail` and `continueValidation` are the result of a check (`Validator.Decision`); error codes and
  messages are left out.
* Of the trust anchors the policy loads only the groups are kept (`Anchor`); whether a text is a certificate
  is a parameter.
* Names are lists of components; wire formats do not matter (C10).
-/
namespace Ndn.Config
open Ndn.Name Ndn.Packet Ndn.Block
open Ndn.Validator (Decision)

/-! ### Words of the configuration language -/

/-- `rule` -/
def wRule : Bytes := [114, 117, 108, 101]
/-- `trust-anchor` -/
def wTrustAnchor : Bytes := [116, 114, 117, 115, 116, 45, 97, 110, 99, 104, 111, 114]
/-- `id` -/
def wId : Bytes := [105, 100]
/-- `for` -/
def wFor : Bytes := [102, 111, 114]
/-- `data` -/
def wData : Bytes := [100, 97, 116, 97]
/-- `interest` -/
def wInterest : Bytes := [105, 110, 116, 101, 114, 101, 115, 116]
/-- `filter` -/
def wFilter : Bytes := [102, 105, 108, 116, 101, 114]
/-- `checker` -/
def wChecker : Bytes := [99, 104, 101, 99, 107, 101, 114]
/-- `type` -/
def wType : Bytes := [116, 121, 112, 101]
/-- `name` -/
def wName : Bytes := [110, 97, 109, 101]
/-- `relation` -/
def wRelation : Bytes := [114, 101, 108, 97, 116, 105, 111, 110]
/-- `regex` -/
def wRegex : Bytes := [114, 101, 103, 101, 120]
/-- `customized` -/
def wCustomized : Bytes := [99, 117, 115, 116, 111, 109, 105, 122, 101, 100]
/-- `hierarchical` -/
def wHierarchical : Bytes := [104, 105, 101, 114, 97, 114, 99, 104, 105, 99, 97, 108]
/-- `sig-type` -/
def wSigType : Bytes := [115, 105, 103, 45, 116, 121, 112, 101]
/-- `key-locator` -/
def wKeyLocator : Bytes := [107, 101, 121, 45, 108, 111, 99, 97, 116, 111, 114]
/-- `hyper-relation` -/
def wHyper : Bytes := [104, 121, 112, 101, 114, 45, 114, 101, 108, 97, 116, 105, 111, 110]
/-- `k-regex` -/
def wKRegex : Bytes := [107, 45, 114, 101, 103, 101, 120]
/-- `k-expand` -/
def wKExpand : Bytes := [107, 45, 101, 120, 112, 97, 110, 100]
/-- `h-relation` -/
def wHRelation : Bytes := [104, 45, 114, 101, 108, 97, 116, 105, 111, 110]
/-- `p-regex` -/
def wPRegex : Bytes := [112, 45, 114, 101, 103, 101, 120]
/-- `p-expand` -/
def wPExpand : Bytes := [112, 45, 101, 120, 112, 97, 110, 100]
/-- `rsa-sha256` -/
def wRsa : Bytes := [114, 115, 97, 45, 115, 104, 97, 50, 53, 54]
/-- `ecdsa-sha256` -/
def wEcdsa : Bytes := [101, 99, 100, 115, 97, 45, 115, 104, 97, 50, 53, 54]
/-- `sha256` -/
def wSha : Bytes := [115, 104, 97, 50, 53, 54]
/-- `equal` -/
def wEqual : Bytes := [101, 113, 117, 97, 108]
/-- `is-prefix-of` -/
def wIsPrefix : Bytes := [105, 115, 45, 112, 114, 101, 102, 105, 120, 45, 111, 102]
/-- `is-strict-prefix-of` -/
def wIsStrict : Bytes := [105, 115, 45, 115, 116, 114, 105, 99, 116, 45, 112, 114, 101, 102, 105, 120, 45, 111, 102]
/-- `file` -/
def wFile : Bytes := [102, 105, 108, 101]
/-- `file-name` -/
def wFileName : Bytes := [102, 105, 108, 101, 45, 110, 97, 109, 101]
/-- `base64` -/
def wBase64 : Bytes := [98, 97, 115, 101, 54, 52]
/-- `base64-string` -/
def wBase64String : Bytes := [98, 97, 115, 101, 54, 52, 45, 115, 116, 114, 105, 110, 103]
/-- `dir` -/
def wDir : Bytes := [100, 105, 114]
/-- `any` -/
def wAny : Bytes := [97, 110, 121]
/-- `refresh` -/
def wRefresh : Bytes := [114, 101, 102, 114, 101, 115, 104]

/-- `boost::iequals`, in the classic locale. -/
def lower (c : UInt8) : UInt8 := if 65 ≤ c ∧ c ≤ 90 then c + 32 else c

def iequals (a b : Bytes) : Bool := a.map lower == b.map lower

/-- A property tree: the data of a node and its children in order. -/
inductive Sec where
  | mk (data : Bytes) (kids : List (Bytes × Sec))

def Sec.data : Sec → Bytes
  | .mk d _ => d

def Sec.kids : Sec → List (Bytes × Sec)
  | .mk _ k => k

/-! ### Names -/

inductive Relation where
  | equal | isPrefixOf | isStrictPrefixOf
  deriving DecidableEq, Repr

/-- `checkNameRelation`, name-relation.cpp 42-54. -/
def checkNameRelation : Relation → List Comp → List Comp → Bool
  | .equal, a, b => a == b
  | .isPrefixOf, a, b => a.isPrefixOf b
  | .isStrictPrefixOf, a, b => a.isPrefixOf b && decide (a.length < b.length)

/-- `getNameRelationFromString`, name-relation.cpp 56-71; `none`: an exception. -/
def relationOf (s : Bytes) : Option Relation :=
  if iequals s wEqual then some .equal
  else if iequals s wIsPrefix then some .isPrefixOf
  else if iequals s wIsStrict then some .isStrictPrefixOf
  else none

/-- `Certificate::KEY_COMPONENT`, certificate.hpp 158: `KEY`. -/
def keyComp : Comp := ⟨8, [75, 69, 89]⟩

/-- `SigningInfo::getDigestSha256Identity`, signing-info.cpp 31-36: `/localhost/identity/digest-sha256`. -/
def digestIdentity : List Comp := [⟨8, [108, 111, 99, 97, 108, 104, 111, 115, 116]⟩, ⟨8, [105, 100, 101, 110, 116, 105, 116, 121]⟩, ⟨8, [100, 105, 103, 101, 115, 116, 45, 115, 104, 97, 50, 53, 54]⟩]

/-- `SigningInfo::getHmacIdentity`, signing-info.cpp 38-43: `/localhost/identity/hmac`. -/
def hmacIdentity : List Comp := [⟨8, [108, 111, 99, 97, 108, 104, 111, 115, 116]⟩, ⟨8, [105, 100, 101, 110, 116, 105, 116, 121]⟩, ⟨8, [104, 109, 97, 99]⟩]

/-- The loop of `extractIdentityNameFromKeyLocator`, validation-policy.cpp 121-125; the argument is `i + 1`. -/
def searchKey (kl : List Comp) (lowerBound : Nat) : Nat → Option (List Comp)
  | 0 => none
  | i + 1 =>
    if i < lowerBound then none
    else if kl[i]? = some keyComp then some (kl.take i)
    else searchKey kl lowerBound i

/-- `extractIdentityNameFromKeyLocator`, validation-policy.cpp 109-131; `none`: `KeyLocator::Error`.
`lowerBound` is `max(len - 4, 0)`. -/
def extractIdentity (kl : List Comp) : Option (List Comp) :=
  if kl = digestIdentity ∨ kl = hmacIdentity then some kl
  else searchKey kl (kl.length - 4) kl.length

/-! ### Packets -/

/-- How an Interest is signed: an InterestSignatureInfo element that is malformed, or well formed (packet
format v0.3), or none (v0.2: the signature is in the name). -/
inductive ISig where
  | malformed
  | v03 (info : SigInfo)
  | v02

inductive Pkt where
  | data (name : List Comp) (info : SigInfo)
  | interest (name : List Comp) (sig : ISig)

/-- `getKeyLocatorName`, validation-policy.cpp 61-80; `none`: `state.fail`. -/
def keyLocatorName (si : SigInfo) : Option (List Comp) :=
  if si.type = some 0 then some digestIdentity
  else match si.keyLocator with
    | some (.name n) => some n
    | _ => none

/-- `getSignatureInfo`, validation-policy.cpp 82-109; `none`: `state.fail`. -/
def signatureInfo (name : List Comp) : ISig → Option SigInfo
  | .malformed => none
  | .v03 info => some info
  | .v02 =>
    if name.length < 2 then none
    else match at' name (-2) with
      | none => none
      | some c =>
        match blockFromValue c.value with
        | none => none
        | some b => let r := SigInfo.wireDecode b 22; if r.1 then some r.2 else none

/-- The name that filters and checkers look at: `Filter::match`, filter.cpp 34-63, and `Checker::check`,
checker.cpp 76-99; `none`: does not match. `getPrefix` with a negative argument drops components at the end (C18). -/
def strippedName (name : List Comp) : Option ISig → Option (List Comp)
  | none => some name
  | some (.v03 _) =>
    match at' name (-1) with
    | none => none
    | some c => if c.type ≠ 2 then none else some (name.take (name.length - 1))
  | some _ => if name.length < 2 then none else some (name.take (name.length - 2))

/-! ### Filters, checkers and rules -/

/-- The result of an operation that may throw or not end. -/
inductive Out (β : Type) where
  | hang
  | throws
  | ok (b : β)
  deriving DecidableEq, Repr

abbrev TS := Regex.TS Comp
abbrev REnv := Regex.Env Comp

/-- A `Filter`: `RelationNameFilter` or `RegexNameFilter`, with the state of the matcher. -/
inductive Filter where
  | relation (name : List Comp) (r : Relation)
  | regex (t : Regex.Top) (s : TS)

/-- `matchName`, filter.cpp 70-74, 81-85. -/
def Filter.matchName (env : REnv) (fuel : Nat) (n : List Comp) : Filter → Out Bool × Filter
  | .relation m r => (.ok (checkNameRelation r m n), .relation m r)
  | .regex t s =>
    match t.match env fuel n s with
    | none => (.hang, .regex t s)
    | some (b, s') => (.ok b, .regex t s')

/-- `Filter::match`, filter.cpp 34-63. -/
def Filter.match (env : REnv) (fuel : Nat) (n : Option (List Comp)) (f : Filter) : Out Bool × Filter :=
  match n with
  | none => (.ok false, f)
  | some n => f.matchName env fuel n

/-- What a `Checker` checks: `Checker` itself, `NameRelationChecker`, `RegexChecker`, `HyperRelationChecker`. -/
inductive Kind where
  | plain
  | relation (name : List Comp) (r : Relation)
  | regex (t : Regex.Top) (s : TS)
  | hyper (p : Regex.Top) (pExpand : Bytes) (k : Regex.Top) (kExpand : Bytes) (r : Relation) (ps ks : TS)

structure Checker where
  sigType : Nat
  kind : Kind

/-- `checkNames`, checker.cpp 102-173. -/
def Kind.checkNames (env : REnv) (fuel : Nat) (n kl : List Comp) : Kind → Out Bool × Kind
  | .plain => (.ok true, .plain)
  | .relation m r =>
    match extractIdentity kl with
    | none => (.throws, .relation m r)
    | some id => (.ok (checkNameRelation r m id), .relation m r)
  | .regex t s =>
    match t.match env fuel kl s with
    | none => (.hang, .regex t s)
    | some (b, s') => (.ok b, .regex t s')
  | .hyper p pe k ke r ps ks =>
    match p.match env fuel n ps with
    | none => (.hang, .hyper p pe k ke r ps ks)
    | some (false, ps') => (.ok false, .hyper p pe k ke r ps' ks)
    | some (true, ps') =>
      match k.match env fuel kl ks with
      | none => (.hang, .hyper p pe k ke r ps' ks)
      | some (false, ks') => (.ok false, .hyper p pe k ke r ps' ks')
      | some (true, ks') =>
        match k.expand env ks' ke with
        | none => (.throws, .hyper p pe k ke r ps' ks')
        | some a =>
          match p.expand env ps' pe with
          | none => (.throws, .hyper p pe k ke r ps' ks')
          | some b => (.ok (checkNameRelation r a b), .hyper p pe k ke r ps' ks')

/-- `Checker::check`, checker.cpp 67-100. -/
def Checker.check (env : REnv) (fuel : Nat) (sigType : Option Nat) (n : Option (List Comp)) (kl : List Comp) (c : Checker) : Out Bool × Checker :=
  if sigType ≠ some c.sigType then (.ok false, c)
  else match n with
    | none => (.ok false, c)
    | some n => let r := c.kind.checkNames env fuel n kl; (r.1, ⟨c.sigType, r.2⟩)

structure Rule where
  filters : List Filter
  checkers : List Checker

/-- Try each in turn until one says yes (or throws, or hangs). -/
def firstYes {α : Type} (f : α → Out Bool × α) : List α → Out Bool × List α
  | [] => (.ok false, [])
  | x :: xs =>
    match f x with
    | (.ok false, x') => let r := firstYes f xs; (r.1, x' :: r.2)
    | (o, x') => (o, x' :: xs)

/-- `Rule::match`, rule.cpp 50-71. (The rules of the other packet type are kept in another list, so the packet
type is always right.) -/
def Rule.match (env : REnv) (fuel : Nat) (n : Option (List Comp)) (r : Rule) : Out Bool × Rule :=
  if r.filters = [] then (.ok true, r)
  else let x := firstYes (Filter.match env fuel n) r.filters; (x.1, ⟨x.2, r.checkers⟩)

/-- `Rule::check`, rule.cpp 73-101. -/
def Rule.check (env : REnv) (fuel : Nat) (sigType : Option Nat) (n : Option (List Comp)) (kl : List Comp) (r : Rule) : Out Bool × Rule :=
  let x := firstYes (Checker.check env fuel sigType n kl) r.checkers
  (x.1, ⟨r.filters, x.2⟩)

/-- The loop over rules of `checkPolicy`, validation-policy-config.cpp 244-253, 281-290, and what follows it. -/
def decide (env : REnv) (fuel : Nat) (sigType : Option Nat) (n : Option (List Comp)) (kl : List Comp) : List Rule → Out Decision × List Rule
  | [] => (.ok .fail, [])
  | r :: rs =>
    match r.match env fuel n with
    | (.ok false, r') => let x := decide env fuel sigType n kl rs; (x.1, r' :: x.2)
    | (.ok true, r') =>
      match r'.check env fuel sigType n kl with
      | (.ok true, r'') => (.ok (.request kl), r'' :: rs)
      | (.ok false, r'') => (.ok .fail, r'' :: rs)
      | (.throws, r'') => (.throws, r'' :: rs)
      | (.hang, r'') => (.hang, r'' :: rs)
    | (.throws, r') => (.throws, r' :: rs)
    | (.hang, r') => (.hang, r' :: rs)

/-! ### Reading rules -/

open Regex (Result)

def Out.isOk {β : Type} : Out β → Bool
  | .ok _ => true
  | _ => false

/-- Continue with the value of a result. -/
def bind {β γ : Type} (r : Result β) (f : β → Result γ) : Result γ :=
  match r with
  | .ub => .ub
  | .throws => .throws
  | .ok b => f b

/-- A value, or an exception. -/
def need {β : Type} : Option β → Result β
  | none => .throws
  | some b => .ok b

/-- The next property must have this name: its node, and the properties after it. -/
def expect (w : Bytes) : List (Bytes × Sec) → Result (Sec × List (Bytes × Sec))
  | (k, s) :: rest => if iequals k w then .ok (s, rest) else .throws
  | [] => .throws

/-- No property is left. -/
def finished {β : Type} (b : β) : List (Bytes × Sec) → Result β
  | [] => .ok b
  | _ :: _ => .throws

/-- `Filter::create`, `Filter::createNameFilter`, filter.cpp 87-156. -/
def createFilter (env : REnv) (s : Sec) : Result Filter :=
  bind (expect wType s.kids) fun (ty, rest) =>
  if iequals ty.data wName then
    match rest with
    | [] => .throws
    | (k, v) :: rest =>
      if iequals k wName then
        bind (need (fromUri v.data)) fun n =>
        bind (expect wRelation rest) fun (rel, rest) =>
        bind (need (relationOf rel.data)) fun r =>
        finished (.relation n r) rest
      else if iequals k wRegex then
        bind (finished () rest) fun _ =>
        bind (Regex.compileTop env v.data) fun t => .ok (.regex t Regex.TS.init)
      else .throws
  else .throws

/-- `parseSigType`, checker.cpp 198-217. -/
def sigTypeOf (s : Bytes) : Option Nat :=
  if iequals s wRsa then some 1
  else if iequals s wEcdsa then some 3
  else if iequals s wSha then some 0
  else none

/-- The optional `sig-type` property, checker.cpp 226-232, 258-264. -/
def readSigType : List (Bytes × Sec) → Result (Nat × List (Bytes × Sec))
  | (k, s) :: rest => if iequals k wSigType then bind (need (sigTypeOf s.data)) fun t => .ok (t, rest) else .ok (3, (k, s) :: rest)
  | [] => .ok (3, [])

/-- A `HyperRelationChecker`, checker.cpp 143-153: the expression for packet names is compiled first. -/
def makeHyper (env : REnv) (p pe k ke : Bytes) (r : Relation) : Result Kind :=
  bind (Regex.compileTop env p) fun p =>
  bind (Regex.compileTop env k) fun k =>
  .ok (.hyper p pe k ke r Regex.TS.init Regex.TS.init)

/-- `createKeyLocatorChecker`, `createKeyLocatorNameChecker`, checker.cpp 292-400. -/
def createKind (env : REnv) (s : Sec) : Result Kind :=
  bind (expect wType s.kids) fun (ty, rest) =>
  if iequals ty.data wName then
    match rest with
    | [] => .throws
    | (k, v) :: rest =>
      if iequals k wName then
        bind (need (fromUri v.data)) fun n =>
        bind (expect wRelation rest) fun (rel, rest) =>
        bind (need (relationOf rel.data)) fun r =>
        finished (.relation n r) rest
      else if iequals k wRegex then
        bind (finished () rest) fun _ =>
        bind (Regex.compileTop env v.data) fun t => .ok (.regex t Regex.TS.init)
      else if iequals k wHyper then
        bind (expect wKRegex v.kids) fun (kr, rest) =>
        bind (expect wKExpand rest) fun (ke, rest) =>
        bind (expect wHRelation rest) fun (hr, rest) =>
        bind (expect wPRegex rest) fun (pr, rest) =>
        bind (expect wPExpand rest) fun (pe, rest) =>
        bind (finished () rest) fun _ =>
        bind (need (relationOf hr.data)) fun r =>
        makeHyper env pr.data pe.data kr.data ke.data r
      else .throws
  else .throws

/-- `^(<>*)$` -/
def hierP : Bytes := [94, 40, 60, 62, 42, 41, 36]
/-- `^(<>*)<KEY><>{1,3}$` -/
def hierK : Bytes := [94, 40, 60, 62, 42, 41, 60, 75, 69, 89, 62, 60, 62, 123, 49, 44, 51, 125, 36]
/-- `\1` -/
def hierExpand : Bytes := [92, 49]

/-- `Checker::create`, `createCustomizedChecker`, `createHierarchicalChecker`, checker.cpp 176-273. -/
def createChecker (env : REnv) (s : Sec) : Result Checker :=
  bind (expect wType s.kids) fun (ty, rest) =>
  if iequals ty.data wCustomized then
    bind (readSigType rest) fun (t, rest) =>
    match rest with
    | [] => if t = 0 then .ok ⟨t, .plain⟩ else .throws
    | (k, v) :: rest =>
      if iequals k wKeyLocator then
        bind (createKind env v) fun x => finished ⟨t, x⟩ rest
      else if t = 0 then .ok ⟨t, .plain⟩ else .throws
  else if iequals ty.data wHierarchical then
    bind (readSigType rest) fun (t, rest) =>
    bind (finished () rest) fun _ =>
    bind (makeHyper env hierP hierExpand hierK hierExpand .isPrefixOf) fun x => .ok ⟨t, x⟩
  else .throws

/-- The checkers of a rule, rule.cpp 149-158. -/
def readCheckers (env : REnv) : List (Bytes × Sec) → Result (List Checker)
  | [] => .ok []
  | (k, s) :: rest =>
    if iequals k wChecker then
      bind (createChecker env s) fun c =>
      bind (readCheckers env rest) fun cs => .ok (c :: cs)
    else .throws

/-- The filters and checkers of a rule, rule.cpp 137-158. -/
def readFilters (env : REnv) : List (Bytes × Sec) → Result (List Filter × List Checker)
  | [] => .ok ([], [])
  | (k, s) :: rest =>
    if iequals k wFilter then
      bind (createFilter env s) fun f =>
      bind (readFilters env rest) fun x => .ok (f :: x.1, x.2)
    else if iequals k wChecker then
      bind (readCheckers env ((k, s) :: rest)) fun cs => .ok ([], cs)
    else .throws

/-- `Rule::create`, rule.cpp 103-168: whether the rule is for Interests, and the rule. -/
def createRule (env : REnv) (s : Sec) : Result (Bool × Rule) :=
  bind (expect wId s.kids) fun (_, rest) =>
  bind (expect wFor rest) fun (usage, rest) =>
  bind (if iequals usage.data wData then .ok false else if iequals usage.data wInterest then .ok true else .throws) fun isInterest =>
  bind (readFilters env rest) fun x =>
  if x.2 = [] then .throws else .ok (isInterest, ⟨x.1, x.2⟩)

/-! ### Trust anchors -/

/-- A group of trust anchors: certificates given in the configuration, or a file or directory with the period
of its refresh (in nanoseconds). -/
structure Anchor where
  id : Bytes
  fromPath : Option (Int × Bool)
  deriving DecidableEq, Repr

/-- `boost::lexical_cast<int32_t>`: an optional sign and decimal digits. -/
def digits (ds : Bytes) : Option Nat := if ds ≠ [] ∧ ds.all Regex.isDigit then some (Regex.number ds) else none

def toInt32 (s : Bytes) : Option Int :=
  match s with
  | 45 :: ds => (digits ds).bind fun n => if n ≤ 2 ^ 31 then some (-(n : Int)) else none
  | 43 :: ds => (digits ds).bind fun n => if n < 2 ^ 31 then some (n : Int) else none
  | ds => (digits ds).bind fun n => if n < 2 ^ 31 then some (n : Int) else none

/-- A number of units in nanoseconds; undefined if it exceeds 64 bits. -/
def inNanoseconds (n unit : Int) : Result Int := if n * unit ≤ 2 ^ 63 - 1 then .ok (n * unit) else .ub

/-- `getRefreshPeriod`, validation-policy-config.cpp 176-225: the period and the properties after it. An empty
value is read at index -1. -/
def refreshPeriod : List (Bytes × Sec) → Result (Int × List (Bytes × Sec))
  | [] => .ok (2 ^ 63 - 1, [])
  | (k, s) :: rest =>
    if iequals k wRefresh then
      match s.data.getLast? with
      | none => .ub
      | some unit =>
        match toInt32 s.data.dropLast with
        | none => .throws
        | some n =>
          if n < 0 then .throws
          else if n = 0 then .ok (3600000000000, rest)
          else if unit = 104 then bind (inNanoseconds n 3600000000000) fun p => .ok (p, rest)
          else if unit = 109 then bind (inNanoseconds n 60000000000) fun p => .ok (p, rest)
          else if unit = 115 then bind (inNanoseconds n 1000000000) fun p => .ok (p, rest)
          else .throws
    else .throws

/-- What a `trust-anchor` section says: packets are not to be validated, or a group of anchors. -/
inductive AnchorSec where
  | any
  | group (a : Anchor)
  deriving DecidableEq, Repr

/-- The path named by the next property, with its refresh period, validation-policy-config.cpp 121-134,
154-165. -/
def readPath (w : Bytes) (isDir : Bool) (rest : List (Bytes × Sec)) : Result AnchorSec :=
  bind (expect w rest) fun (s, rest) =>
  bind (refreshPeriod rest) fun (p, rest) =>
  finished (.group ⟨s.data, some (p, isDir)⟩) rest

/-- `processConfigTrustAnchor`, validation-policy-config.cpp 106-174, except for the calls of `loadAnchor`.
`isCert` says whether `io::load<Certificate>` accepts a text. -/
def readAnchor (isCert : Bytes → Bool) (s : Sec) : Result AnchorSec :=
  bind (expect wType s.kids) fun (ty, rest) =>
  if iequals ty.data wFile then readPath wFileName false rest
  else if iequals ty.data wBase64 then
    bind (expect wBase64String rest) fun (x, rest) =>
    bind (finished () rest) fun _ =>
    if isCert x.data then .ok (.group ⟨[], none⟩) else .throws
  else if iequals ty.data wDir then readPath wDir true rest
  else if iequals ty.data wAny then .ok .any
  else .throws

/-- `Validator::loadAnchor`, validator.cpp 167-179, with `TrustAnchorContainer::insert`,
trust-anchor-container.cpp 43-68: whether it is accepted. -/
def canLoad (groups : List Anchor) (a : Anchor) : Bool :=
  match a.fromPath with
  | none => groups.all fun g => g.id != a.id || g.fromPath.isNone
  | some _ => groups.all fun g => g.id != a.id

/-! ### The policy -/

/-- A `ValidationPolicyConfig` and the trust anchors of its validator. -/
structure Policy where
  bypass : Bool
  configured : Bool
  dataRules : List Rule
  interestRules : List Rule
  anchors : List Anchor

def Policy.init : Policy := ⟨false, false, [], [], []⟩

/-- One section, validation-policy-config.cpp 83-103. -/
def loadSection (env : REnv) (isCert : Bytes → Bool) (p : Policy) (k : Bytes) (s : Sec) : Result Policy :=
  if iequals k wRule then
    bind (createRule env s) fun x =>
    .ok (if x.1 then { p with interestRules := p.interestRules ++ [x.2] } else { p with dataRules := p.dataRules ++ [x.2] })
  else if iequals k wTrustAnchor then
    bind (readAnchor isCert s) fun
      | .any => .ok { p with bypass := true }
      | .group a => if canLoad p.anchors a then .ok { p with anchors := p.anchors ++ [a] } else .throws
  else .throws

/-- The loop over sections: how the call ends, and the policy then. -/
def loadSections (env : REnv) (isCert : Bytes → Bool) : Policy → List (Bytes × Sec) → Result Unit × Policy
  | p, [] => (.ok (), p)
  | p, (k, s) :: rest =>
    match loadSection env isCert p k s with
    | .ok p' => loadSections env isCert p' rest
    | .throws => (.throws, p)
    | .ub => (.ub, p)

/-- `load`, validation-policy-config.cpp 66-104: an earlier configuration is discarded first. (The verified
certificates, which are discarded too, are not part of this model.) -/
def Policy.load (env : REnv) (isCert : Bytes → Bool) (p : Policy) (secs : List (Bytes × Sec)) : Result Unit × Policy :=
  loadSections env isCert { (if p.configured then Policy.init else p) with configured := true } secs

/-- `checkPolicy(Data)`, validation-policy-config.cpp 227-256, and `Validator::validate(Interest)`, validator.cpp
58-80, with `checkPolicy(Interest)`, validation-policy-config.cpp 258-292. -/
def Policy.check (env : REnv) (fuel : Nat) (p : Policy) : Pkt → Out Decision × Policy
  | .data name info =>
    if p.bypass then (.ok .bypass, p)
    else match keyLocatorName info with
      | none => (.ok .fail, p)
      | some kl =>
        let r := decide env fuel info.type (strippedName name none) kl p.dataRules
        (r.1, { p with dataRules := r.2 })
  | .interest name sig =>
    match sig with
    | .malformed => (.ok .fail, p)
    | sig =>
      if p.bypass then (.ok .bypass, p)
      else match signatureInfo name sig with
        | none => (.ok .fail, p)
        | some info =>
          match keyLocatorName info with
          | none => (.ok .fail, p)
          | some kl =>
            let r := decide env fuel info.type (strippedName name (some sig)) kl p.interestRules
            (r.1, { p with interestRules := r.2 })

/-- Calls of a policy. -/
inductive Op where
  | load (secs : List (Bytes × Sec))
  | check (fuel : Nat) (x : Pkt)

def step (env : REnv) (isCert : Bytes → Bool) (p : Policy) : Op → Policy
  | .load secs => (p.load env isCert secs).2
  | .check fuel x => (p.check env fuel x).2

def run (env : REnv) (isCert : Bytes → Bool) : Policy → List Op → Policy
  | p, [] => p
  | p, o :: os => run env isCert (step env isCert p o) os

/-! ### ValidationPolicySimpleHierarchy -/

/-- What both `checkPolicy` do once the key locator is known, validation-policy-simple-hierarchy.cpp 34-50,
66-81. -/
def hierarchy (name kl : List Comp) : Decision :=
  match extractIdentity kl with
  | none => .fail
  | some id => if id.isPrefixOf name then .request kl else .fail

/-- `checkPolicy`, validation-policy-simple-hierarchy.cpp 26-82. -/
def simpleHierarchy : Pkt → Decision
  | .data name info =>
    match keyLocatorName info with
    | none => .fail
    | some kl => hierarchy name kl
  | .interest name sig =>
    match signatureInfo name sig with
    | none => .fail
    | some info =>
      match keyLocatorName info with
      | none => .fail
      | some kl => hierarchy name kl

end Ndn.Config
