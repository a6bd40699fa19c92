import Verif.Model.Res
import Verif.Model.Run
import Verif.Model.Report
import Mathlib.Data.Nat.Log

/-!
# Model of the generation of the experiments of the benchmark program

`/repo/src/exe/Benchmark.cpp` 134-272. The global lists of distributions, algorithms, splitters and occupancies (22-25,
353-377) are parameters, and so is the number of threads TBB finds. The traits of a run are a record; a trait that is not
added is `none`. `floor(log10(n))` is taken to be exact. The second part (36-131, 340-405) is about the execution of the
runs: their texts, the parameters read from them, and the order. A character is a byte; numbers are read from texts that
consist of digits, all other texts are `ub`. The triangulations and the measurements are not part of the model.
-/
namespace Verif
namespace Bench

/-- The traits of an `ExperimentRun`. (src/exe/Benchmark.cpp:161-165, 178-183, 194-201, 218-225) -/
structure Exp where
  dist : Nat
  n : Nat
  alg : Nat
  threads : Nat
  occupancy : Option Nat
  splitter : Option Nat
  parBase : Option Bool
  parEdge : Option Bool
  deriving DecidableEq, Repr

/-- The loop over the numbers of points: a `double` is added to an `uint`, the result must be below `2^32`. For 0 the
logarithm is minus infinity and the power 0. (src/exe/Benchmark.cpp:154) -/
def pointsLoop (maxN : Nat) : (fuel n : Nat) → Res (List Nat)
  | 0, _ => .timeout
  | fuel + 1, n =>
    if n ≤ maxN then
      if n + (if n = 0 then 0 else 10 ^ Nat.log 10 n) < 2 ^ 32 then
        (pointsLoop maxN fuel (n + (if n = 0 then 0 else 10 ^ Nat.log 10 n))).bind fun l => .done (n :: l)
      else .ub
    else .done []

/-- The loop over the numbers of threads; `maxT` is `(unsigned) maxThreads`. (src/exe/Benchmark.cpp:172) -/
def threadsLoop (maxT : Nat) : (fuel t : Nat) → Res (List Nat)
  | 0, _ => .timeout
  | fuel + 1, t =>
    if t ≤ maxT then (threadsLoop maxT fuel (t * 2 % 2 ^ 32)).bind fun l => .done (t :: l) else .done []

/-- `(unsigned) x` and the initialisation of an `uint` by an `int`. (src/exe/Benchmark.cpp:172) -/
def toUnsigned (x : Int) : Nat := (x % 2 ^ 32).toNat

/-- The runs with and without parallel edge triangulation; `none` is `TriState::INDEF`.
(src/exe/Benchmark.cpp:203-213, 227-237) -/
def edges (parEdge : Option Bool) (e : Exp) : List Exp :=
  match parEdge with
  | none => [{ e with parEdge := some false }, { e with parEdge := some true }]
  | some b => [{ e with parEdge := some b }]

/-- The loop over the occupancies. (src/exe/Benchmark.cpp:175-245) -/
def occLoop (splitters : List Nat) (parBase : Bool) (parEdge : Option Bool) (d n a t : Nat) :
    Bool → List Nat → List Exp
  | _, [] => []
  | first, occ :: l =>
    (if a = 'm'.toNat then [⟨d, n, a, t, some occ, none, none, none⟩]
    else splitters.flatMap fun s =>
      (if first then edges parEdge ⟨d, n, a, t, some 1, some s, some false, none⟩ else []) ++
      (if parBase then edges parEdge ⟨d, n, a, t, some occ, some s, some true, none⟩ else [])) ++
    occLoop splitters parBase parEdge d n a t false l

/-- The loop over the algorithms. (src/exe/Benchmark.cpp:157-248) -/
def algLoop (algs splitters occs : List Nat) (parBase : Bool) (parEdge : Option Bool) (d n : Nat) (threads : List Nat) :
    List Exp :=
  algs.flatMap fun a =>
    if a = 'c'.toNat then [⟨d, n, a, 1, none, none, none, none⟩]
    else threads.flatMap fun t => occLoop splitters parBase parEdge d n a t true occs

/-- `generateExperimentRuns`; `cores` is the default number of threads. The values of the inner loop over the numbers of
threads are computed once if the loop is reached. (src/exe/Benchmark.cpp:134-272) -/
def generate (dists algs splitters occs : List Nat) (cores : Int) (maxN minN : Nat) (maxT minT : Int) (parBase : Bool)
    (parEdge : Option Bool) (fuel : Nat) : Res (List Exp) :=
  let maxT := if maxT = -1 then cores else maxT
  let minT := if minT = -1 then maxT else minT
  if dists = [] then .done []
  else
    (pointsLoop maxN fuel minN).bind fun ns =>
    (if ns ≠ [] ∧ ∃ a ∈ algs, a ≠ 'c'.toNat then threadsLoop (toUnsigned maxT) fuel (toUnsigned minT)
      else .done []).bind fun ts =>
    .done (dists.flatMap fun d => ns.flatMap fun n => algLoop algs splitters occs parBase parEdge d n ts)

open Run (Str Traits addTrait getTrait)
open Report (nat)

/-- `ss << value` for `bool`. (include/utils/Timings.h:41-45) -/
def bit (b : Bool) : Str := if b then txt! "1" else txt! "0"

/-- `ss << value` for `unsigned char`. (include/utils/Timings.h:41-45) -/
def chr (c : Nat) : Str := [Char.ofNat c]

/-- `addTrait` if there is a value. (include/utils/Timings.h:36-45) -/
def addOpt {α : Type} (name : Str) (text : α → Str) (v : Option α) (m : Traits) : Traits :=
  match v with
  | none => m
  | some x => addTrait name (text x) m

/-- The traits of a run. `updateTrait` of `parallel-edge` replaces the value, so that the run is the one to which the
second value is added. (src/exe/Benchmark.cpp:161-165, 178-183, 194-213, 218-237) -/
def traits (host rev : Str) (e : Exp) : Traits :=
  addOpt (txt! "parallel-edge") bit e.parEdge <|
  addOpt (txt! "parallel-base") bit e.parBase <|
  addOpt (txt! "splitter") chr e.splitter <|
  addOpt (txt! "occupancy") nat e.occupancy <|
  addTrait (txt! "threads") (nat e.threads) <|
  addTrait (txt! "alg") (chr e.alg) <|
  addTrait (txt! "nP") (nat e.n) <|
  addTrait (txt! "dist") (chr e.dist) <|
  Run.new host rev

/-- White space of `operator>>`. (include/utils/Timings.h:56-61) -/
def isSpace (c : Char) : Bool := c == ' ' || (decide (9 ≤ c.toNat) && decide (c.toNat ≤ 13))

/-- The number written by digits. (include/utils/Timings.h:56-61) -/
def digits (s : Str) : Option Nat :=
  if s ≠ [] ∧ ∀ c ∈ s, 48 ≤ c.toNat ∧ c.toNat ≤ 57 then some (s.foldl (fun v c => 10 * v + (c.toNat - 48)) 0) else none

/-- `getTrait<uint>`. (include/utils/Timings.h:55-61) -/
def getUint (m : Traits) (name : Str) : Res Nat :=
  (getTrait m name).bind fun s =>
    match digits s with
    | some v => if v < 2 ^ 32 then .done v else .ub
    | none => .ub

/-- `getTrait<unsigned char>`: the first character that is no white space. (include/utils/Timings.h:55-61) -/
def getChar (m : Traits) (name : Str) : Res Nat :=
  (getTrait m name).bind fun s =>
    match s.dropWhile isSpace with
    | [] => .ub
    | c :: _ => .done c.toNat

/-- `getTrait<bool>`. (include/utils/Timings.h:55-61) -/
def getBool (m : Traits) (name : Str) : Res Bool :=
  (getTrait m name).bind fun s =>
    match digits s with
    | some v => .done (decide (v ≠ 0))
    | none => .ub

/-- The parameters with which `runExperiment` works. (src/exe/Benchmark.cpp:42-78) -/
def execute (m : Traits) : Res Exp :=
  (getChar m (txt! "dist")).bind fun d =>
  (getUint m (txt! "nP")).bind fun n =>
  (getChar m (txt! "alg")).bind fun a =>
  (if m.any fun t => t.1 == txt! "threads" then getUint m (txt! "threads") else .done 1).bind fun t =>
  if a = 'c'.toNat then .done ⟨d, n, a, t, none, none, none, none⟩
  else (getUint m (txt! "occupancy")).bind fun o =>
    if a = 'm'.toNat then .done ⟨d, n, a, t, some o, none, none, none⟩
    else (getChar m (txt! "splitter")).bind fun s =>
      (getBool m (txt! "parallel-base")).bind fun b =>
      (getBool m (txt! "parallel-edge")).bind fun p =>
      .done ⟨d, n, a, t, some o, some s, some b, some p⟩

/-- Loop of `runExperiments` over `n` runs; the numbers of the executed runs. (src/exe/Benchmark.cpp:116-129) -/
def runLoop (n : Nat) (reverse : Bool) : (fuel : Nat) → (i : Int) → Res (List Nat)
  | 0, _ => .timeout
  | fuel + 1, i =>
    if i = (if reverse then -1 else (n : Int)) then .done []
    else if 0 ≤ i ∧ i < n then
      (runLoop n reverse fuel (i + (if reverse then -1 else 1))).bind fun l => .done (i.toNat :: l)
    else .ub

/-- `runExperiments`. (src/exe/Benchmark.cpp:111-131) -/
def runExperiments (n : Nat) (reverse : Bool) (fuel : Nat) : Res (List Nat) :=
  runLoop n reverse fuel (if reverse then (n : Int) - 1 else 0)

end Bench
end Verif
