import Verif.Name.Model
/-
Model of ndn-cxx/util/regex/* (`Regex`, the regular expressions over names).

Simplifications:
* `std::regex` is a parameter (`Env`): the number of groups of a component expression (or an
  exception), and the matching of a component's URI with the texts of the groups. The conversion of a
  string to a component and the parsing of a URI are parameters too.
* A matcher's position in a name (offset and length) is given by the components at that position.
* Exceptions of any type are one outcome; an empty expression (read at index -1) is undefined.
* `MAX_REPETITIONS` is no bound: a recursion of depth 2^64 is regarded as not terminating. Recursion
  carries fuel; running out of fuel is an outcome of its own (the stack of the program is not modelled).
* Characters: 36 `$`, 40 `(`, 41 `)`, 42 `*`, 43 `+`, 44 `,`, 46 `.`, 60 `<`, 62 `>`, 63 `?`, 91 `[`,
  92 `\`, 93 `]`, 94 `^`, 123 `{`, 125 `}`.
-/
namespace Ndn.Regex

structure Env (α : Type) where
  /-- `Component::toUri`. -/
  uri : α → Bytes
  /-- `Component(string_view)`: the generic component with these octets. -/
  lit : Bytes → α
  /-- `Name(string)`: parse a URI. -/
  parse : Bytes → Option (List α)
  /-- `std::regex::assign` and `mark_count`. -/
  marks : Bytes → Option Nat
  /-- `std::regex_match`: the groups. -/
  eval : Bytes → Bytes → Option (List Bytes)

/-- `RegexComponentMatcher`; the matchers of its groups have references `base`, `base + 1`, ... -/
structure CM where
  expr : Bytes
  base : Nat
  marks : Nat
  deriving DecidableEq, Repr

/-- Compiled matchers. A `RegexPatternListMatcher` is a `cons`/`nil` chain; `group` is a
`RegexBackrefMatcher` (with its place in the list of references), `rep` a `RegexRepeatMatcher`, `set` a
`RegexComponentSetMatcher`. -/
inductive M where
  | set (incl : Bool) (cs : List CM)
  | nil
  | cons (m rest : M)
  | group (ref : Nat) (m : M)
  | rep (m : M) (min : Nat) (max : Option Nat)
  deriving DecidableEq, Repr

/-! ### Compilation -/

/-- `extractSubPattern`, regex-pattern-list-matcher.cpp 101-121 (also regex-component-set-matcher.cpp
123-142): the text up to the bracket that closes (not included), and what follows. `d` is
`lcount - rcount`. -/
def sub (l r : UInt8) : Nat → Bytes → Option (Bytes × Bytes)
  | _, [] => none
  | d, c :: s =>
    if c = l then (sub l r (d + 1) s).map fun x => (c :: x.1, x.2)
    else if c = r then (if d = 1 then some ([], s) else (sub l r (d - 1) s).map fun x => (c :: x.1, x.2))
    else (sub l r d s).map fun x => (c :: x.1, x.2)

/-- The text up to the first closing brace, included. -/
def toBrace : Bytes → Option (Bytes × Bytes)
  | [] => none
  | c :: s => if c = 125 then some ([c], s) else (toBrace s).map fun x => (c :: x.1, x.2)

/-- `extractRepetition`, regex-pattern-list-matcher.cpp 123-152. -/
def extractRep : Bytes → Option (Bytes × Bytes)
  | [] => some ([], [])
  | c :: s =>
    if c = 43 ∨ c = 63 ∨ c = 42 then some ([c], s)
    else if c = 123 then (toBrace s).map fun x => (c :: x.1, x.2)
    else some ([], c :: s)

def isDigit (c : UInt8) : Bool := 48 ≤ c && c ≤ 57

def number (ds : Bytes) : Nat := ds.foldl (fun n c => n * 10 + (c.toNat - 48)) 0

/-- `std::stoul` of a sequence of digits. -/
def stoul (ds : Bytes) : Option Nat := if number ds < 2 ^ 64 then some (number ds) else none

/-- The text between the braces: digits, the rest. -/
def braces (t : Bytes) : Option (Nat × Option Nat) :=
  let a := t.takeWhile isDigit
  match t.dropWhile isDigit with
  | [] => if a = [] then none else (stoul a).map fun n => (n, some n)
  | c :: b =>
    if c = 44 ∧ b.all isDigit then
      if a = [] then (if b = [] then none else (stoul b).map fun m => (0, some m))
      else if b = [] then (stoul a).map fun n => (n, none)
      else
        match stoul a, stoul b with
        | some n, some m => if n > m then none else some (n, some m)
        | _, _ => none
    else none

/-- `parseRepetition`, regex-repeat-matcher.cpp 59-123. -/
def parseRep : Bytes → Option (Nat × Option Nat)
  | [] => some (1, some 1)
  | [c] => if c = 63 then some (0, some 1) else if c = 43 then some (1, none) else if c = 42 then some (0, none) else none
  | _ :: t => braces t.dropLast

variable {α : Type}

/-- `RegexComponentMatcher::compile`, regex-component-matcher.cpp 37-50; `n` references exist. A NUL
character ends the expression in regex-component-set-matcher.cpp 136. -/
def component (env : Env α) (n : Nat) (e : Bytes) : Option (CM × Nat) :=
  if 0 ∈ e then none else (env.marks e).map fun k => (⟨e, n, k⟩, n + k)

/-- `compileMultipleComponents`, regex-component-set-matcher.cpp 76-94. -/
def components (env : Env α) : Nat → Nat → Bytes → Option (List CM × Nat)
  | _, n, [] => some ([], n)
  | 0, _, _ => none
  | fuel + 1, n, c :: s =>
    if c ≠ 60 then none
    else
      match sub 60 62 1 s with
      | none => none
      | some (e, rest) =>
        match component env n e with
        | none => none
        | some (m, n) => (components env fuel n rest).map fun x => (m :: x.1, x.2)

/-- `RegexComponentSetMatcher::compile`, regex-component-set-matcher.cpp 37-74, of a set in brackets. -/
def setOf (env : Env α) (n : Nat) (s : Bytes) : Option (M × Nat) :=
  match s with
  | 94 :: t => (components env t.length n t).map fun x => (.set false x.1, x.2)
  | t => (components env t.length n t).map fun x => (.set true x.1, x.2)

/-- A repetition around a matcher, `RegexRepeatMatcher`, regex-repeat-matcher.cpp 32-57. -/
def repeated (q : Bytes) (x : M × Nat) : Option (M × Nat) := (parseRep q).map fun r => (.rep x.1 r.1 r.2, x.2)

/-- `RegexPatternListMatcher::compile` and `extractPattern`, regex-pattern-list-matcher.cpp 52-102;
`RegexBackrefMatcher::compile`, regex-backref-matcher.cpp 35-50 (a group is numbered before the groups in it). -/
def compile (env : Env α) : Nat → Nat → Bytes → Option (M × Nat)
  | _, n, [] => some (.nil, n)
  | 0, _, _ => none
  | fuel + 1, n, c :: s =>
    let item : Option ((M × Nat) × Bytes) :=
      if c = 40 then
        match sub 40 41 1 s with
        | none => none
        | some (inner, rest) =>
          match extractRep rest with
          | none => none
          | some (q, rest) =>
            match compile env fuel (n + 1) inner with
            | none => none
            | some (m, n') =>
              if q = [] then some ((.group n m, n'), rest) else (repeated q (.group n m, n')).map fun x => (x, rest)
      else if c = 60 then
        match sub 60 62 1 s with
        | none => none
        | some (e, rest) =>
          match extractRep rest with
          | none => none
          | some (q, rest) =>
            match component env n e with
            | none => none
            | some (m, n') => (repeated q (.set true [m], n')).map fun x => (x, rest)
      else if c = 91 then
        match sub 91 93 1 s with
        | none => none
        | some (t, rest) =>
          match extractRep rest with
          | none => none
          | some (q, rest) =>
            match setOf env n t with
            | none => none
            | some x => (repeated q x).map fun x => (x, rest)
      else none
    match item with
    | none => none
    | some ((m, n'), rest) => (compile env fuel n' rest).map fun x => (.cons m x.1, x.2)

def compileList (env : Env α) (s : Bytes) : Option (M × Nat) := compile env s.length 0 s

/-- `<.*>*`. -/
def anything : Bytes := [60, 46, 42, 62, 42]

structure Top where
  primary : M × Nat
  secondary : Option (M × Nat)
  deriving DecidableEq, Repr

inductive Result (β : Type) where
  | ub
  | throws
  | ok (b : β)
  deriving DecidableEq, Repr

/-- `RegexTopMatcher::compile`, regex-top-matcher.cpp 42-62. -/
def compileTop (env : Env α) (e : Bytes) : Result Top :=
  match e.getLast? with
  | none => .ub
  | some c =>
    let e := if c ≠ 36 then e ++ anything else e.dropLast
    match e with
    | 94 :: t =>
      match compileList env t with
      | some p => .ok ⟨p, none⟩
      | none => .throws
    | t =>
      match compileList env (anything ++ t), compileList env t with
      | some s, some p => .ok ⟨p, some s⟩
      | _, _ => .throws

/-! ### Matching -/

/-- The results of the matchers in the list of references. -/
abbrev Store (α : Type) := Nat → List α

abbrev Res (α : Type) := Option (Bool × Store α)

def Store.put (s : Store α) (r : Nat) (x : List α) : Store α := fun i => if i = r then x else s i

/-- The groups of a component, regex-component-matcher.cpp 66-69. -/
def putAll (env : Env α) : Nat → List Bytes → Store α → Store α
  | _, [], s => s
  | r, x :: xs, s => putAll env (r + 1) xs (s.put r [env.lit x])

/-- `RegexComponentMatcher::match`, regex-component-matcher.cpp 52-77. -/
def CM.match (env : Env α) (m : CM) (c : α) (s : Store α) : Bool × Store α :=
  if m.expr = [] then (true, s)
  else
    match env.eval m.expr (env.uri c) with
    | none => (false, s)
    | some gs => (true, putAll env m.base (gs.take m.marks) s)

/-- The loop of `RegexComponentSetMatcher::match`, regex-component-set-matcher.cpp 103-109. -/
def anyMatch (env : Env α) (c : α) : List CM → Store α → Bool × Store α
  | [], s => (false, s)
  | m :: ms, s =>
    let x := m.match env c s
    if x.1 then (true, x.2) else anyMatch env c ms x.2

/-- The loop of `recursiveMatch`, regex-matcher.cpp 56-69, regex-repeat-matcher.cpp 158-167: the
longest part first. -/
def tryLen (f g : List α → Store α → Res α) : Nat → List α → Store α → Res α
  | tried, w, s =>
    match f (w.take tried) s with
    | none => none
    | some (b, s) =>
      match (if b then g (w.drop tried) s else some (false, s)) with
      | none => none
      | some (true, s) => some (true, s)
      | some (false, s) =>
        match tried with
        | 0 => some (false, s)
        | t + 1 => tryLen f g t w s

/-- `repeat >= m_repeatMax`. -/
def full (max : Option Nat) (k : Nat) : Bool :=
  match max with
  | some m => m ≤ k
  | none => false

/-- `RegexRepeatMatcher::recursiveMatch`, regex-repeat-matcher.cpp 144-170. -/
def repMatch (f : List α → Store α → Res α) (min : Nat) (max : Option Nat) : Nat → Nat → List α → Store α → Res α
  | 0, _, _, _ => none
  | fuel + 1, k, w, s =>
    if w ≠ [] ∧ full max k = true then some (false, s)
    else if w = [] then some (decide (min ≤ k), s)
    else tryLen f (repMatch f min max fuel (k + 1)) w.length w s

/-- `match` of the matchers: regex-matcher.cpp 41-72 (`cons`, `nil`, `group`),
regex-component-set-matcher.cpp 96-121, regex-repeat-matcher.cpp 125-142. -/
def matchM (env : Env α) (fuel : Nat) : M → List α → Store α → Res α
  | .set incl cs, w, s =>
    match w with
    | [c] =>
      let x := anyMatch env c cs s
      some (if incl then x.1 else !x.1, x.2)
    | _ => some (false, s)
  | .nil, w, s => some (w.isEmpty, s)
  | .cons m r, w, s => tryLen (fun w s => matchM env fuel m w s) (fun w s => matchM env fuel r w s) w.length w s
  | .group ref m, w, s =>
    match tryLen (fun w s => matchM env fuel m w s) (fun w s => some (w.isEmpty, s)) w.length w (s.put ref []) with
    | none => none
    | some (true, s) => some (true, s.put ref w)
    | some (false, s) => some (false, s)
  | .rep m min max, w, s =>
    if min = 0 ∧ w = [] then some (true, s) else repMatch (fun w s => matchM env fuel m w s) min max fuel 0 w s

/-- The changing part of a `RegexTopMatcher`. -/
structure TS (α : Type) where
  primary : Store α
  secondary : Store α
  result : List α
  secondaryUsed : Bool

def TS.init : TS α := ⟨fun _ => [], fun _ => [], [], false⟩

/-- `RegexTopMatcher::match`, regex-top-matcher.cpp 64-83. -/
def Top.match (env : Env α) (fuel : Nat) (t : Top) (w : List α) (s : TS α) : Option (Bool × TS α) :=
  match matchM env fuel t.primary.1 w s.primary with
  | none => none
  | some (true, p) => some (true, { s with primary := p, result := w, secondaryUsed := false })
  | some (false, p) =>
    match t.secondary with
    | none => some (false, { s with primary := p, result := [], secondaryUsed := false })
    | some m =>
      match matchM env fuel m.1 w s.secondary with
      | none => none
      | some (true, q) => some (true, { primary := p, secondary := q, result := w, secondaryUsed := true })
      | some (false, q) => some (false, { primary := p, secondary := q, result := [], secondaryUsed := false })

/-! ### Expansion -/

/-- `expand` and `getItemFromExpand`, regex-top-matcher.cpp 91-168; `none`: an exception. -/
def expandLoop (env : Env α) (refs : Nat) (store : Store α) (result : List α) : Nat → Bytes → Option (List α)
  | _, [] => some []
  | 0, _ => none
  | fuel + 1, c :: s =>
    if c = 92 then
      let ds := s.takeWhile isDigit
      if ds = [] then none
      else
        match stoul ds with
        | none => none
        | some i =>
          if i = 0 then (expandLoop env refs store result fuel (s.dropWhile isDigit)).map (result ++ ·)
          else if i ≤ refs then (expandLoop env refs store result fuel (s.dropWhile isDigit)).map (store (i - 1) ++ ·)
          else none
    else if c = 60 then
      match sub 60 62 1 s with
      | none => none
      | some (_, []) => none
      | some (x, y :: rest) =>
        match env.parse x with
        | none => none
        | some cs => (expandLoop env refs store result fuel (y :: rest)).map (cs ++ ·)
    else none

def Top.expand (env : Env α) (t : Top) (s : TS α) (e : Bytes) : Option (List α) :=
  if s.secondaryUsed then expandLoop env (t.secondary.map Prod.snd |>.getD 0) s.secondary s.result e.length e
  else expandLoop env t.primary.2 s.primary s.result e.length e

/-! ### Regular expressions for a name -/

/-- `convertSpecialChar`, regex-top-matcher.cpp 187-217. -/
def special (c : UInt8) : Bool := c ∈ [46, 91, 123, 125, 40, 41, 92, 42, 43, 63, 124, 94, 36]

def convert (s : Bytes) : Bytes := s.flatMap fun c => if special c then [92, c] else [c]

/-- `fromName`, regex-top-matcher.cpp 170-185: the expression. -/
def fromName (env : Env α) (w : List α) (anchor : Bool) : Bytes :=
  94 :: (w.flatMap fun c => 60 :: convert (env.uri c) ++ [62]) ++ (if anchor then [36] else [])

end Ndn.Regex
