import Mathlib.Data.List.Basic
import Mathlib.Algebra.Order.Group.Unbundled.Int

/-!
# The levels of the log

`/repo/include/utils/Logger.h` 12-60, 84-123 and `/repo/src/utils/Logger.cpp` 17-60, with the calls of the logger in
`/repo/src/exe/DAC_Test.cpp` 180, 208-230, 315-317 and `/repo/src/exe/LB_Experiments.cpp` 48-74.

Levels are integers: SILENT is 0, NORMAL 1, VERBOSE 2, PROLIX 3, and the LIVE levels are negative. Simplifications: the
lines are logged one after the other; the text of a line contains its indentation (see Model/LogIndent); standard output
and standard error are one stream.
-/
namespace Verif
namespace LogLevel

/-- `static_cast<Verbosity>`: the enumeration has the type `short`. (include/utils/Logger.h:45; src/exe/DAC_Test.cpp:230) -/
def toShort (v : Int) : Int := (v + 32768) % 65536 - 32768

/-- `Logger::abs`. (include/utils/Logger.h:55-57) -/
def vabs (v : Int) : Int := toShort |v|

/-- The logger and the text shown so far. -/
structure St where
  level : Int
  entries : List (Int × List Char)
  out : List Char

/-- A call of the logger: `LOG`, `VLOG` or `PLOG` (`viaMacro`) or `logContainer`, with its level and text. -/
structure Line where
  viaMacro : Bool
  k : Int
  text : List Char

/-- `setLogLevel`. (include/utils/Logger.h:67) -/
def setLevel (s : St) (v : Int) : St := { s with level := toShort v }

/-- `addLogEntry` and the output to the stream it returns. (src/utils/Logger.cpp:17-28) -/
def addEntry (s : St) (k : Int) (t : List Char) : St :=
  if s.level ≤ -1 then { s with out := s.out ++ t } else { s with entries := s.entries ++ [(k, t)] }

/-- The macros `LOG`, `VLOG`, `PLOG` and `logContainer`; with `NDEBUG` the macro `PLOG` does nothing.
(include/utils/Logger.h:16-39, 88-107) -/
def call (ndebug : Bool) (s : St) (l : Line) : St :=
  if l.viaMacro && l.k == 3 && ndebug then s
  else if l.k ≤ vabs s.level then addEntry s l.k l.text else s

/-- `printLog(out, level)`. (src/utils/Logger.cpp:34-47) -/
def printLog (s : St) (level : Int) : St :=
  if level = 0 then s
  else { s with out := s.out ++ (s.entries.filter (fun e => decide (e.1 ≤ level))).flatMap Prod.snd }

/-- The logger at the start of the program. (include/utils/Logger.h:117) -/
def start : St := ⟨1, [], []⟩

/-- `DAC_Test` with the value of its option: the level, the lines of the run, the log at the end.
(src/exe/DAC_Test.cpp:180, 208-230, 315-317) -/
def dacTest (ndebug : Bool) (option : Option Int) (lines : List Line) : List Char :=
  let s := setLevel start (option.getD (-1))
  let s := lines.foldl (call ndebug) s
  if 1 ≤ s.level then (printLog s s.level).out else s.out

/-- `LB_Experiments`: the level is set from the initial value of the variable, then the command line is parsed.
(src/exe/LB_Experiments.cpp:48-52, 60, 67-74) -/
def lbExperiments (ndebug : Bool) (option : Option Int) (valid : Bool) (lines : List Line) : List Char :=
  let verbosity := 1
  let s := setLevel start verbosity
  let _verbosity := option.getD verbosity
  let s := lines.foldl (call ndebug) s
  if valid then s.out else (printLog s s.level).out

/-- The loop over the elements of a container, `first` for the first of them. (include/utils/Logger.h:99-103) -/
def items (sep : List Char) : Bool → List (List Char) → List Char
  | _, [] => []
  | first, x :: xs => (if first then [] else sep) ++ x ++ items sep false xs

/-- The text of `logContainer`. (include/utils/Logger.h:94-104) -/
def containerText (pre sep : List Char) (xs : List (List Char)) : List Char :=
  (if pre ≠ [] then pre ++ sep else []) ++ items sep true xs ++ ['\n']

end LogLevel
end Verif
