import Verif.Model.ConcMultiMap
import Verif.Model.Res

/-!
# Model of rehashing and merging concurrent multimaps

`/repo/include/datastructures/LP_MultiMap.hxx` lines 508-576 (`unsafe_rehash` and `unsafe_merge` of `Concurrent_LP_MultiMap`). As in
`MapMerge`, a parallel loop is the set of its calls, made by any number of threads in any order. The calls ignore what `insert` returns.
`_insert(key, value)` (601-626), called for the own entries in a merge, is `insert` without the test of `m_items`; it is modelled by `insert`,
and the test never fails (`C124_merge_partial`).
-/
namespace Verif
namespace ConcMultiMap
open Conc

/-- The contents of the occupied slots, in their order. A value that was never written is left out; the theorems are about multimaps whose
occupied slots have values. (include/datastructures/LP_MultiMap.hxx:518-520, 558-570) -/
def pairs (m : Shared) : List (Nat × Nat) :=
  (m.keys.zip m.vals).filterMap fun s => if s.1 = 0 then none else s.2.map fun v => (s.1, v)

/-- The calls of a loop. (include/datastructures/LP_MultiMap.hxx:518-521, 561-570) -/
def calls (l : List (Nat × Nat)) : List MOp := l.map fun x => .insert x.1 x.2

/-- The operations called in a history. -/
def called {n : Nat} (h : List (Ev n MOp MRet)) : List MOp :=
  h.filterMap fun e => match e with
    | .inv _ op => some op
    | .res .. => none

/-- States after `unsafe_rehash(newSize)` of `m`. (include/datastructures/LP_MultiMap.hxx:508-522) -/
def Rehash {n : Nat} (m : Shared) (newSize : Nat) (c : Config n Shared Loc MOp MRet) : Prop :=
  Reach (obj m.a) (fun op => op ∈ calls (pairs m)) (new m.a newSize) c ∧ c.quiescent ∧ (called c.hist).Perm (calls (pairs m))

/-- The loop that doubles the size until there is room. (include/datastructures/LP_MultiMap.hxx:542-543) -/
def roomLoop (items : Nat) : Nat → Nat → Res Nat
  | 0, _ => .timeout
  | fuel + 1, size => if items > size / 2 then roomLoop items fuel (size * 2) else .done size

/-- An empty table with a number of slots. (include/datastructures/LP_MultiMap.hxx:545-551, 590-593) -/
def fresh (a len : Nat) : Shared := { keys := List.replicate len 0, vals := List.replicate len none, items := 0, a := a }

/-- States after `unsafe_merge(other, filter)` with `size` slots. (include/datastructures/LP_MultiMap.hxx:535-576) -/
def Merge {n : Nat} (m other : Shared) (F : Nat → Bool) (size : Nat) (c : Config n Shared Loc MOp MRet) : Prop :=
  Returns (fun fuel => roomLoop (m.items + other.items) fuel (nextPow2 (m.items + other.items))) size ∧
  Reach (obj m.a) (fun op => op ∈ calls (pairs m ++ pairs other)) (fresh m.a size) c ∧ c.quiescent ∧
    (called c.hist).Perm (calls ((pairs m ++ pairs other).filter fun x => !F x.1))

end ConcMultiMap
end Verif
