import Mathlib.Data.List.Basic

/-!
# Model of the report of an experiment

`/repo/include/load_balancing/Experiment.h` 63-137 (the text written to the output stream) and
`/repo/include/load_balancing/monitors/ComprehensiveMonitor.h`, `TimingMonitor.h` (the numbers in it). Strings are lists
of characters; in the code they are bytes. The clock, the triangulation and its verification are parameters.
-/
namespace Verif
namespace Report

open Lean in
/-- A string literal of the code as list of its characters; notation only, not modelled after a place in `/repo`. -/
macro:max "txt!" s:str : term => do
  let cs := s.getString.toList.toArray.map fun c => Syntax.mkCharLit c
  `([$cs,*])

/-- The digit of a number below 10, as written by `operator<<`. (include/load_balancing/Experiment.h:70-74) -/
def digit (n : Nat) : Char := Char.ofNat (48 + n % 10)

/-- `out << n` for an unsigned integer. (include/load_balancing/Experiment.h:72-74, 86, 97, 123-125) -/
def nat (n : Nat) : List Char := if n < 10 then [digit n] else nat (n / 10) ++ [digit n]
termination_by n

/-- `out << n` for a signed integer, the number of milliseconds. (include/load_balancing/Experiment.h:70-71) -/
def int : Int → List Char
  | .ofNat n => nat n
  | .negSucc n => '-' :: nat (n + 1)

/-- What the report takes from the setup. (include/load_balancing/Experiment.h:17-26, 33-38) -/
structure Setup where
  commit : List Char
  date : List Char
  args : List Char
  verify : Bool
  partitioner : List Char
  distribution : List Char
  points : Nat
  threads : Nat
  seed : Nat

/-- `ComprehensiveAccumulator`. (include/load_balancing/monitors/ComprehensiveMonitor.h:11-18; TimingMonitor.h:7-11) -/
structure Acc where
  partitionTime : Int
  triangulationTime : Int
  points : Nat
  sizes : List Nat
  base : List (Nat × List Char)
  sample : Nat

/-- The accumulator after the constructors; the times are set by the constructor of the monitor.
(include/load_balancing/monitors/ComprehensiveMonitor.h:11-25; TimingMonitor.h:15-19) -/
def Acc.new : Acc := ⟨0, 0, 0, [], [], 0⟩

/-- Calls of the monitor that change the accumulator. (include/load_balancing/monitors/ComprehensiveMonitor.h:27-47;
TimingMonitor.h:25-37) -/
inductive Event where
  /-- `registerBaseTriangulation`, `registerSampleTriangulation` -/
  | base (n : Nat) (provenance : List Char)
  /-- `registerPartition`: the sizes of the leaves, and the size of the sample if the partitioner has one -/
  | partition (sizes : List Nat) (sample : Option Nat)
  /-- `registerPartitionEnd` -/
  | partitionEnd (ms : Int)
  /-- `registerTriangulationEnd` -/
  | triangulationEnd (ms : Int)

/-- Effect of a call; the calls that threads make at the same time are ordered by the mutex.
(include/load_balancing/monitors/ComprehensiveMonitor.h:27-63; TimingMonitor.h:25-37) -/
def Acc.event (a : Acc) : Event → Acc
  | .base n p => { a with points := a.points + n, base := a.base ++ [(n, p)] }
  | .partition sizes sample => { a with sizes := a.sizes ++ sizes, sample := sample.getD a.sample }
  | .partitionEnd ms => { a with partitionTime := ms }
  | .triangulationEnd ms => { a with triangulationTime := ms }

/-- What happens in one run: the calls of the monitor, the number of simplices and the result of the verification.
(include/load_balancing/Experiment.h:64-78) -/
structure Run where
  events : List Event
  simplices : Nat
  valid : Bool

/-- `start`. (include/load_balancing/Experiment.h:114-127) -/
def start (s : Setup) : List Char :=
  txt! "{\n" ++
  (txt! "    \"commit\": \"" ++ s.commit ++ txt! "\",\n") ++
  (txt! "    \"date\": \"" ++ s.date ++ txt! "\",\n") ++
  (txt! "    \"args\": \"" ++ s.args ++ txt! "\",\n") ++
  txt! "    \"triangulator\": \"load balanced DC Triangulator\",\n" ++
  (txt! "    \"partitioner\": \"" ++ s.partitioner ++ txt! "\",\n") ++
  (txt! "    \"distribution\": \"" ++ s.distribution ++ txt! "\",\n") ++
  (txt! "    \"numpoints\": " ++ nat s.points ++ txt! ",\n") ++
  (txt! "    \"threads\": " ++ nat s.threads ++ txt! ",\n") ++
  (txt! "    \"seed\": " ++ nat s.seed ++ txt! ",\n") ++
  txt! "    \"results\": ["

/-- The loop over the partition sizes; `first`: `partitionCount == 0`. (include/load_balancing/Experiment.h:80-89) -/
def sizesLoop : Bool → List Nat → List Char
  | _, [] => []
  | first, n :: l =>
    ((if first then [] else txt! ",") ++ txt! " {\n" ++
      (txt! "                      \"size\": " ++ nat n ++ txt! "\n") ++
      txt! "                }") ++ sizesLoop false l

/-- The loop over the base triangulations; `first`: `baseCount == 0`. (include/load_balancing/Experiment.h:96-104) -/
def baseLoop : Bool → List (Nat × List Char) → List Char
  | _, [] => []
  | first, (n, p) :: l =>
    ((if first then [] else txt! ",") ++ txt! " {\n" ++
      (txt! "                        \"points\": " ++ nat n ++ txt! ",\n") ++
      (txt! "                        \"provenance\": \"" ++ p ++ txt! "\"\n") ++
      txt! "                }") ++ baseLoop false l

/-- The output of `runOnce`; `first`: `runs == 0`, `a`: the accumulator after the triangulation.
(include/load_balancing/Experiment.h:64-112) -/
def run (verify first : Bool) (a : Acc) (r : Run) : List Char :=
  (if first then [] else txt! ",") ++ txt! " {\n" ++
  (txt! "            \"partitiontime\": " ++ int a.partitionTime ++ txt! ",\n") ++
  (txt! "            \"triangulationtime\": " ++ int a.triangulationTime ++ txt! ",\n") ++
  (txt! "            \"triangulatedPoints\": " ++ nat a.points ++ txt! ",\n") ++
  (txt! "            \"simplices\": " ++ nat r.simplices ++ txt! ",\n") ++
  (txt! "            \"sampleSize\": " ++ nat a.sample ++ txt! ",\n") ++
  (if verify then
    txt! "            \"valid\": " ++ (if r.valid then txt! "true" else txt! "false") ++ txt! ",\n" else []) ++
  txt! "            \"partitions\": [" ++ sizesLoop true a.sizes ++ txt! "\n" ++
  txt! "            ],\n" ++
  txt! "            \"basetriangulations\": [" ++ baseLoop true a.base ++ txt! "\n" ++
  txt! "            ]\n" ++
  txt! "        }\n"

/-- The calls of `runOnce` one after the other; the accumulator is not reset.
(include/load_balancing/Experiment.h:64-112) -/
def runs (verify : Bool) : Bool → Acc → List Run → List Char
  | _, _, [] => []
  | first, a, r :: l =>
    run verify first (r.events.foldl Acc.event a) r ++ runs verify false (r.events.foldl Acc.event a) l

/-- `finish`. (include/load_balancing/Experiment.h:129-134) -/
def finish : List Char := txt! "    ]\n" ++ txt! "}\n"

/-- The text an experiment writes: constructor, runs, destructor. (include/load_balancing/Experiment.h:47-62, 64-134) -/
def experiment (s : Setup) (rs : List Run) : List Char := start s ++ runs s.verify true .new rs ++ finish

/-- `argString`: `argv` without the name of the program; `none`: `argv + 2` is beyond `argv + argc`, so that the loop of
`accumulate` leaves the array. (src/exe/LB_Experiments.cpp:101-104) -/
def argString : List (List Char) → Option (List Char)
  | [] => none
  | a :: l => some (l.foldl (fun acc e => acc ++ (' ' :: e)) a)

end Report
end Verif
