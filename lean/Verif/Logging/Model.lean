import Verif.Tlv.Model
/-
Model of `Logging` (util/logging.{hpp,cpp}) and `Logger` (util/logger.{hpp,cpp}): which level each logger has. What is
written where (Boost.Log) is not modelled. Every call holds the mutex, so a history is a sequence of calls. Loggers live
until the program ends, as those of `NDN_LOG_INIT` do.
-/
namespace Ndn.Logging
open Ndn

/-- `LogLevel`, logger.hpp 43-52. -/
inductive Level where
  | fatal | none | error | warn | info | debug | trace | all
  deriving DecidableEq, Repr

/-- The values of the enumeration, logger.hpp 43-52. -/
def Level.val : Level → Int
  | .fatal => -1
  | .none => 0
  | .error => 1
  | .warn => 2
  | .info => 3
  | .debug => 4
  | .trace => 5
  | .all => 255

/-- `operator<<`, logger.cpp 27-50. -/
def Level.text : Level → Bytes
  | .fatal => [70, 65, 84, 65, 76]
  | .none => [78, 79, 78, 69]
  | .error => [69, 82, 82, 79, 82]
  | .warn => [87, 65, 82, 78]
  | .info => [73, 78, 70, 79]
  | .debug => [68, 69, 66, 85, 71]
  | .trace => [84, 82, 65, 67, 69]
  | .all => [65, 76, 76]

/-- `parseLogLevel`, logger.cpp 52-73; `none`: an exception. -/
def parseLevel (s : Bytes) : Option Level :=
  if s = [70, 65, 84, 65, 76] then some .fatal
  else if s = [78, 79, 78, 69] then some .none
  else if s = [69, 82, 82, 79, 82] then some .error
  else if s = [87, 65, 82, 78] then some .warn
  else if s = [73, 78, 70, 79] then some .info
  else if s = [68, 69, 66, 85, 71] then some .debug
  else if s = [84, 82, 65, 67, 69] then some .trace
  else if s = [65, 76, 76] then some .all
  else none

/-- `name.find("..") != npos`. -/
def hasDoubleDot : Bytes → Bool
  | a :: b :: l => (a == 46 && b == 46) || hasDoubleDot (b :: l)
  | _ => false

/-- The characters allowed, logger.cpp 83: letters, digits and `~#%_<>.-`. -/
def okChar (c : UInt8) : Bool :=
  (97 ≤ c && c ≤ 122) || (65 ≤ c && c ≤ 90) || (48 ≤ c && c ≤ 57) || c == 126 || c == 35 || c == 37 || c == 95 || c == 60 || c == 62 ||
    c == 46 || c == 45

/-- `isValidLoggerName`, logger.cpp 75-85. -/
def validName (n : Bytes) : Bool :=
  if n.isEmpty || n.head? == some 46 || n.getLast? == some 46 || hasDoubleDot n then false
  else n.all okChar

/-- `m_enabledLevel`, an unordered map. -/
abbrev Table := List (Bytes × Level)

def lookup (k : Bytes) : Table → Option Level
  | [] => none
  | (k', l) :: t => if k' = k then some l else lookup k t

/-- `m_enabledLevel[k] = l`. -/
def store (k : Bytes) (l : Level) (t : Table) : Table := (k, l) :: t.filter (fun e => e.1 ≠ k)

/-- `Logging`: the table, and the loggers with their names and levels, numbered as they were created; `names` are the
names registered without a logger. -/
structure St where
  table : Table := []
  loggers : List (Bytes × Level) := []
  names : List Bytes := []

/-- `find_last_of('.')`. -/
def lastDot : Bytes → Option Nat
  | [] => none
  | c :: s => match lastDot s with
    | some i => some (i + 1)
    | none => if c = 46 then some 0 else none

/-- The loop of `findLevel`, logging.cpp 140-163. -/
def findLoop (t : Table) : Nat → Bytes → Level
  | 0, _ => .none
  | fuel + 1, mn =>
    if mn.isEmpty then (lookup mn t).getD .none
    else match lookup mn t with
      | some l => l
      | none => match lastDot mn with
        | some pos =>
          if pos < mn.length - 1 then findLoop t fuel (mn.take (pos + 1))
          else match lastDot mn.dropLast with
            | some p => findLoop t fuel (mn.dropLast.take (p + 1))
            | none => findLoop t fuel []
        | none => findLoop t fuel []

/-- `findLevel`, logging.cpp 137-167. -/
def findLevel (t : Table) (mn : Bytes) : Level := findLoop t (mn.length + 1) mn

/-- `Logger(name)`, logger.cpp 87-96, with `addLoggerImpl`, logging.cpp 107-116. -/
def St.addLogger (s : St) (n : Bytes) : Bool × St :=
  if validName n then (true, { s with loggers := s.loggers ++ [(n, findLevel s.table n)] }) else (false, s)

/-- `registerModuleName`, logger.cpp 98-105, with `registerLoggerNameImpl`, logging.cpp 118-123. -/
def St.register (s : St) (n : Bytes) : Bool × St :=
  if validName n then (true, { s with names := s.names ++ [n] }) else (false, s)

/-- `setLevelImpl(prefix, level)`, logging.cpp 185-221. -/
def St.setLevel (s : St) (pat : Bytes) (l : Level) : St :=
  if pat.isEmpty || pat.getLast? == some 42 then
    let p := if pat.isEmpty then pat else pat.dropLast
    { s with
      table := store p l (s.table.filter (fun e => !p.isPrefixOf e.1))
      loggers := s.loggers.map (fun g => if p.isPrefixOf g.1 then (g.1, l) else g) }
  else
    { s with
      table := store pat l s.table
      loggers := s.loggers.map (fun g => if g.1 = pat then (g.1, l) else g) }

/-- `std::getline(ss, piece, ':')` until it fails: an end of the text right after a separator yields no piece. -/
def pieces (cur : Bytes) : Bytes → List Bytes
  | [] => if cur.isEmpty then [] else [cur]
  | c :: s => if c = 58 then cur :: pieces [] s else pieces (cur ++ [c]) s

/-- One piece, logging.cpp 229-236: the prefix and the level; `none`: an exception. -/
def parsePiece (s : Bytes) : Option (Bytes × Level) :=
  match s.findIdx? (· == 61) with
  | none => none
  | some i => match parseLevel (s.drop (i + 1)) with
    | none => none
    | some l => some (s.take i, l)

/-- The loop of `setLevelImpl(config)`, logging.cpp 223-238. -/
def setPieces (s : St) : List Bytes → Bool × St
  | [] => (true, s)
  | p :: ps => match parsePiece p with
    | none => (false, s)
    | some (pat, l) => setPieces (s.setLevel pat l) ps

def St.config (s : St) (text : Bytes) : Bool × St := setPieces s (pieces [] text)

/-- `getLoggerNamesImpl`, logging.cpp 125-133, as a list in any order. -/
def St.loggerNames (s : St) : List Bytes := s.loggers.map (·.1) ++ s.names

/-- `Logger::isLevelEnabled`, logger.hpp 99-103. -/
def enabled (current l : Level) : Bool := decide (l.val ≤ current.val)

/-- The calls. -/
inductive Op where
  | logger (n : Bytes)
  | register (n : Bytes)
  | set (pat : Bytes) (l : Level)
  | config (text : Bytes)

def St.step (s : St) : Op → Bool × St
  | .logger n => s.addLogger n
  | .register n => s.register n
  | .set pat l => (true, s.setLevel pat l)
  | .config text => s.config text

def St.run : St → List Op → St
  | s, [] => s
  | s, op :: ops => (s.step op).2.run ops

end Ndn.Logging
