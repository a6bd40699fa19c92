import Verif.Model.Conc

/-!
# Model of the profiling counters

`/repo/include/utils/Timings.h` (`incCounter`). The counters are values of a concurrent map; its `operator[]` inserts the value 0 and is safe
to call from many threads, so that the state is a function from names (numbers) to values. The addition to the value itself is an ordinary
load and an ordinary store. (Formally a data race; the model gives it the weakest plausible meaning, an interleaving of the accesses.)
-/
namespace Verif
namespace Counter

/-- A call of `incCounter`. (Timings.h:92-94) -/
structure Inc where
  name : Nat
  value : Nat
  deriving DecidableEq

/-- Program points of `m_counters[name] += value`. (include/utils/Timings.h:93) -/
inductive Loc where
  | load (i : Inc)
  | store (i : Inc) (old : Nat)
  deriving DecidableEq

/-- `m_counters[name] += value` on `ulong`. (Timings.h:93) -/
def step (s : Nat → Nat) : Loc → Option ((Nat → Nat) × (Loc ⊕ Unit))
  | .load i => some (s, .inl (.store i (s i.name)))
  | .store i old => some (fun x => if x = i.name then (old + i.value) % 2 ^ 64 else s x, .inr ())

/-- The profiler. (include/utils/Timings.h:92-94, 111) -/
def obj : Conc.Obj (Nat → Nat) Loc Inc Unit := ⟨.load, step⟩

end Counter
end Verif
