import Mathlib.Algebra.Order.Floor.Semiring
import Mathlib.Algebra.Order.Ring.Rat
import Mathlib.Data.Rat.Floor

/-!
# The progress bar

`ProgressDisplay` of `/repo/include/utils/ProgressDisplay.h` 16-95. The operations on `double` round with an arbitrary
function `fl`. Simplifications: the counters are natural numbers, the leading strings are left out.
-/
namespace Verif
namespace Progress

/-- The members of the object and what was written after the scale. -/
structure St where
  count : Nat
  expected : Nat
  next : Nat
  tic : Nat
  out : List Char

/-- `restart`. (include/utils/ProgressDisplay.h:32-45) -/
def restart (n : Nat) : St := ⟨0, if n = 0 then 1 else n, 0, 0, []⟩

/-- The loop of `display_tic`: at least one star. (include/utils/ProgressDisplay.h:85-87) -/
def stars (needed tic : Nat) (out : List Char) : Nat × List Char :=
  let out := out ++ ['*']
  if tic + 1 < needed then stars needed (tic + 1) out else (tic + 1, out)
  termination_by needed - tic

/-- `tics_needed`. (include/utils/ProgressDisplay.h:83-84) -/
def needed (fl : ℚ → ℚ) (count expected : Nat) : Nat :=
  ⌊fl (fl ((count : ℚ) / expected) * 50)⌋₊

/-- The new value of `_next_tic_count`. (include/utils/ProgressDisplay.h:88-89) -/
def nextTic (fl : ℚ → ℚ) (tic expected : Nat) : Nat :=
  ⌊fl (fl ((tic : ℚ) / 50) * expected)⌋₊

/-- `display_tic`. (include/utils/ProgressDisplay.h:79-95) -/
def displayTic (fl : ℚ → ℚ) (s : St) : St :=
  let (tic, out) := stars (needed fl s.count s.expected) s.tic s.out
  let next := nextTic fl tic s.expected
  let out := if s.count = s.expected then (if tic < 51 then out ++ ['*'] else out) ++ ['\n'] else out
  { s with next := next, tic := tic, out := out }

/-- `operator+=`, between taking and releasing the lock. (include/utils/ProgressDisplay.h:54-56) -/
def add (fl : ℚ → ℚ) (s : St) (inc : Nat) : St :=
  let s := { s with count := s.count + inc }
  if s.next ≤ s.count then displayTic fl s else s

/-- The increments one after the other. -/
def run (fl : ℚ → ℚ) (n : Nat) (incs : List Nat) : St := incs.foldl (add fl) (restart n)

/-- Calls of `++` by several threads: the number of calls a thread has entered and left, and the results. In a step a
thread either increments the counter while it holds the lock, or reads the counter after it has released the lock.
(include/utils/ProgressDisplay.h:52-60) -/
structure Threads where
  count : Nat
  inside : List Nat
  results : List (Nat × Nat)

/-- A step of thread `t`. -/
def step (s : Threads) (t : Nat) : Threads :=
  if t ∈ s.inside then { s with inside := s.inside.erase t, results := s.results ++ [(t, s.count)] }
  else { s with count := s.count + 1, inside := t :: s.inside }

end Progress
end Verif
