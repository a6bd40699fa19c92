import Verif.Model.Res

/-!
# Measurements of the profiler

`/repo/include/utils/Timings.h` (`ExperimentRun` and the macro `PROFILER_MEAS`), `/repo/src/utils/Timings.cpp` (`avgMeasurement`) and
the measurements taken in `/repo/src/lib/DCTriangulator.cpp`. The counters are in the model `Counter`.

Simplifications: one list of measurements, that is one name; `emplace_back` of the `tbb::concurrent_vector` is one step; a thread
is the list of the values it adds.
-/
namespace Verif
namespace Prof

/-- The sum of a `ulong`. (src/utils/Timings.cpp:69) -/
def add (a b : Nat) : Nat := (a + b) % 2 ^ 64

/-- `addMeasurement` by several threads: `emplace_back` of a `tbb::concurrent_vector`, one thread after the other.
(include/utils/Timings.h:76-78) -/
inductive Meas : List Nat × List (List Nat) → List Nat × List (List Nat) → Prop
  | refl (s) : Meas s s
  | push {ms v vs a b t} : Meas (ms ++ [v], a ++ vs :: b) t → Meas (ms, a ++ (v :: vs) :: b) t

/-- The loop of `avgMeasurement`. (src/utils/Timings.cpp:68-69) -/
def sumLoop : List Nat → Nat → Nat
  | [], avg => avg
  | m :: ms, avg => sumLoop ms (add avg m)

/-- `avgMeasurement`; `none` if there is no measurement of this name, then `at` throws. (src/utils/Timings.cpp:64-75) -/
def avg : Option (List Nat) → Res Nat
  | none => .ub
  | some ms =>
    let a := sumLoop ms 0
    .done (if 0 < ms.length then a / ms.length else a)

/-- The argument of `PROFILER_MEAS("edgePointsPerc", ..)` and of the two others: a division of `size_t`.
(src/lib/DCTriangulator.cpp:565, 569-574, 593-598) -/
def perc (part all : Nat) : Res Nat := if all = 0 then .ub else .done (part / all)

end Prof
end Verif
