import Verif.Model.Res

/-!
# Model of the descriptions of experiments

`/repo/include/utils/Timings.h` and `/repo/src/utils/Timings.cpp` (class `ExperimentRun`, traits only). Strings are lists of characters,
`size_t` has 64 bits. The host name and the revision that the constructor reads are parameters. Exceptions are `Res.ub`.
-/
namespace Verif
namespace Run

abbrev Str := List Char

/-- `std::string::npos`. (src/utils/Timings.cpp:31) -/
def npos : Nat := 2 ^ 64 - 1

/-- Addition and subtraction of `size_t`. (src/utils/Timings.cpp:33-34) -/
def add64 (a b : Nat) : Nat := (a + b) % 2 ^ 64
def sub64 (a b : Nat) : Nat := (a + 2 ^ 64 - b) % 2 ^ 64

/-- Position of the first occurrence of `sub` in `s`, counted from `pos`. (src/utils/Timings.cpp:27-28) -/
def findFrom (sub : Str) : Str → Nat → Nat
  | [], pos => if sub.isPrefixOf [] then pos else npos
  | c :: s, pos => if sub.isPrefixOf (c :: s) then pos else findFrom sub s (pos + 1)

/-- `std::string::find(sub, pos)` for `pos` up to the length. (src/utils/Timings.cpp:27-28) -/
def find (s sub : Str) (pos : Nat) : Nat := findFrom sub (s.drop pos) pos

/-- `std::string::substr(pos, len)`; throws if `pos` is beyond the end. (src/utils/Timings.cpp:33-34) -/
def substr (s : Str) (pos len : Nat) : Res Str := if s.length < pos then .ub else .done ((s.drop pos).take len)

/-- `m_traits`, a `std::map`: pairs of names and values with increasing names. (Timings.h:109) -/
abbrev Traits := List (Str × Str)

/-- The order of the map. (include/utils/Timings.h:109) -/
def less : Str → Str → Bool
  | _, [] => false
  | [], _ :: _ => true
  | a :: s, b :: t => if a = b then less s t else decide (a.toNat < b.toNat)

/-- `addTrait`: `emplace` does not replace an existing value. (Timings.h:36-38) -/
def addTrait (name value : Str) : Traits → Traits
  | [] => [(name, value)]
  | t :: ts => if name = t.1 then t :: ts else if less name t.1 then (name, value) :: t :: ts else t :: addTrait name value ts

/-- `updateTrait`. (Timings.h:63-65) -/
def updateTrait (name value : Str) : Traits → Traits
  | [] => [(name, value)]
  | t :: ts => if name = t.1 then (name, value) :: ts else if less name t.1 then (name, value) :: t :: ts else t :: updateTrait name value ts

/-- `getTrait`: `std::map::at`, throws if there is no such trait. (Timings.h:51-53) -/
def getTrait (m : Traits) (name : Str) : Res Str := match m.find? (fun t => t.1 == name) with
  | none => .ub
  | some t => .done t.2

/-- `c_ignored_fields`. (Timings.cpp:8-9) -/
def ignored : List Str := ["git-rev".toList, "start-time".toList, "end-time".toList, "run-number".toList, "host".toList]

/-- Constructor without arguments. (Timings.cpp:11-17) -/
def new (host rev : Str) : Traits := addTrait "git-rev".toList rev (addTrait "host".toList host [])

/-- Loop of the constructor from a string. (Timings.cpp:26-41) -/
def parseLoop (run tsep isep : Str) : Nat → Nat → Traits → Res Traits
  | 0, _, _ => .timeout
  | fuel + 1, cur, m =>
    if cur < run.length then
      let inner := find run isep cur
      let tr := find run tsep cur
      let tr := if tr ≠ npos then tr else run.length + 1
      (substr run cur (sub64 inner cur)).bind fun name =>
        (substr run (add64 inner isep.length) (sub64 tr (add64 inner isep.length))).bind fun value =>
          parseLoop run tsep isep fuel (add64 tr tsep.length) (if name ∈ ignored then m else addTrait name value m)
    else .done m

/-- Constructor from a string. (Timings.cpp:19-42) -/
def parse (host rev run tsep isep : Str) (fuel : Nat) : Res Traits := parseLoop run tsep isep fuel 0 (new host rev)

/-- Loop of `str`. (Timings.cpp:48-52) -/
def strLoop (tsep isep : Str) : Traits → Str → Str
  | [], _ => []
  | t :: ts, sep => sep ++ (t.1 ++ isep ++ t.2) ++ strLoop tsep isep ts tsep

/-- `str`, without measurements. (Timings.cpp:44-62) -/
def str (m : Traits) (tsep isep : Str) : Str := strLoop tsep isep m []

/-- The default separators. (Timings.h:34, 104) -/
def traitSep : Str := "   ".toList
def innerSep : Str := ": ".toList

/-- Loop of `operator==`. (Timings.cpp:83-94) -/
def eqLoop (o : Traits) : Traits → Bool → Bool
  | [], eq => eq
  | t :: ts, eq =>
    if t.1 ∈ ignored then eqLoop o ts eq
    else match o.find? (fun u => u.1 == t.1) with
      | none => false
      | some u => eqLoop o ts (if t.2 ≠ u.2 then false else eq)

/-- `operator==`. (Timings.cpp:77-99) -/
def eqOp (m o : Traits) : Bool := if m.length ≠ o.length then false else eqLoop o m true

end Run
end Verif
