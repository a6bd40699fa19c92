import Verif.Model.LpSet

/-!
# Model of the sequential linear probing multimap

`/repo/include/datastructures/LP_MultiMap.hxx` lines 5-84 (`filtered_iterator`) and 90-344
(LP_MultiMap).
-/
namespace Verif

/-- State of `LP_MultiMap<K, V>`, LP_MultiMap.hxx:335-342. `keys` is `m_keys` (0 = free), `vals` is
`m_values` (`none` until first written, "random init", line 304); `m_arraySize` is the length of both.
`m_rehashing` is true only inside `rehash` and is represented by `rehash` calling `insertRaw`. -/
structure LpMultiMap where
  keys : List Nat
  vals : List (Option Nat)
  items : Nat
  a : Nat
  deriving Repr, DecidableEq

namespace LpMultiMap

/-- `capacity()`, LP_MultiMap.hxx:222. -/
def capacity (m : LpMultiMap) : Nat := m.keys.length

/-- `size()`, LP_MultiMap.hxx:224. -/
def size (m : LpMultiMap) : Nat := m.items

/-- Constructor, LP_MultiMap.hxx:100-108, with `_allocate`, 302-305. -/
def new (a size : Nat) : LpMultiMap :=
  { keys := List.replicate (nextPow2 size) 0, vals := List.replicate (nextPow2 size) none,
    items := 0, a := a }

/-- Probe loop of `insert`, LP_MultiMap.hxx:137-152: returns the first free slot. -/
def freeLoop (keys : List Nat) : Nat → Nat → Res Nat
  | 0, _ => .timeout
  | fuel + 1, idx =>
    let i := maskIdx keys.length idx
    match keys[i]? with
    | none => .ub
    | some probed => if probed ≠ 0 then freeLoop keys fuel (i + 1) else .done i

/-- `insert` without the growth test (this is `insert` while `m_rehashing` is set),
LP_MultiMap.hxx:137-152. It always returns true. -/
def insertRaw (fuel : Nat) (m : LpMultiMap) (k v : Nat) : Res LpMultiMap :=
  (freeLoop m.keys fuel (hash64 m.a k)).bind fun i =>
    .done { m with keys := m.keys.set i k, vals := m.vals.set i (some v), items := m.items + 1 }

/-- The copy loop of `rehash`, LP_MultiMap.hxx:239-242. -/
def reinsertAll (fuel : Nat) : List (Nat × Option Nat) → LpMultiMap → Res LpMultiMap
  | [], m => .done m
  | (k, v) :: xs, m =>
    if k ≠ 0 then
      match v with
      | none => .ub   -- read of an uninitialised value
      | some v => (insertRaw fuel m k v).bind fun r => reinsertAll fuel xs r
    else reinsertAll fuel xs m

/-- `rehash(newSize)`, LP_MultiMap.hxx:226-246. -/
def rehash (fuel : Nat) (m : LpMultiMap) (newSize : Nat) : Res LpMultiMap :=
  reinsertAll fuel (m.keys.zip m.vals)
    { m with keys := List.replicate (nextPow2 newSize) 0,
             vals := List.replicate (nextPow2 newSize) none, items := 0 }

/-- `insert`, LP_MultiMap.hxx:130-153. The growth test (134) is `m_items / m_arraySize >= 0.5` with
an integer division. Division by zero is undefined. -/
protected def insert (fuel : Nat) (m : LpMultiMap) (k v : Nat) : Res LpMultiMap :=
  if m.capacity = 0 then .ub
  else if 1 ≤ m.items / m.capacity then
    (m.rehash fuel (m.capacity * 2)).bind fun m' => insertRaw fuel m' k v
  else insertRaw fuel m k v

/-- Loop of `get`, LP_MultiMap.hxx:165-189, with its variables `idx`, `firstIdx`, `lastIdx`. Returns
the start and end index of the filtered iterators (the second is also their bound). -/
def getLoop (k : Nat) (keys : List Nat) : Nat → Nat → Nat → Nat → Res (Nat × Nat)
  | 0, _, _, _ => .timeout
  | fuel + 1, idx, first, last =>
    let i := maskIdx keys.length idx
    match keys[i]? with
    | none => .ub
    | some probed =>
      if probed = 0 ∧ i = first then .done (keys.length, keys.length)
      else
        let first := if probed ≠ k ∧ i = first then maskIdx keys.length (first + 1) else first
        let last := maskIdx keys.length (last + 1)
        if probed = 0 then .done (first, last)
        else getLoop k keys fuel (i + 1) first last

/-- `get`, LP_MultiMap.hxx:159-191. -/
def get (fuel : Nat) (m : LpMultiMap) (k : Nat) : Res (Nat × Nat) :=
  let h := maskIdx m.keys.length (hash64 m.a k)
  getLoop k m.keys fuel h h h

/-- `filtered_iterator::operator++`, LP_MultiMap.hxx:24-29: the index after one increment. -/
def nextMatch (k : Nat) (keys : List Nat) (bound : Nat) : Nat → Nat → Res Nat
  | 0, _ => .timeout
  | fuel + 1, idx =>
    let i := maskIdx keys.length (idx + 1)
    if i = bound then .done i
    else match keys[i]? with
      | none => .ub
      | some probed => if probed = 0 ∨ probed ≠ k then nextMatch k keys bound fuel i else .done i

/-- The client loop `for (it = range.first; it != range.second; ++it) use((*it).second)` over the
result of `get`; `operator*` (71) is undefined outside the array and for an uninitialised value. -/
def collect (k : Nat) (m : LpMultiMap) (inner bound : Nat) : Nat → Nat → Res (List Nat)
  | 0, _ => .timeout
  | fuel + 1, idx =>
    if idx = bound then .done []
    else match m.vals[idx]? with
      | some (some v) => (nextMatch k m.keys bound inner idx).bind fun i =>
          (collect k m inner bound fuel i).bind fun vs => .done (v :: vs)
      | _ => .ub

/-- `get` followed by the client loop: the values the caller sees. (include/datastructures/LP_MultiMap.hxx:159-191) -/
def getAll (fuel : Nat) (m : LpMultiMap) (k : Nat) : Res (List Nat) :=
  (m.get fuel k).bind fun r => collect k m fuel r.2 fuel r.1

/-- Loop of `contains`, LP_MultiMap.hxx:196-203. -/
def contains (fuel : Nat) (m : LpMultiMap) (k : Nat) : Res Bool :=
  LpSet.containsLoop k m.keys fuel (hash64 m.a k)

/-- Insertion loop of `merge`, LP_MultiMap.hxx:252-255. -/
def insertAll (fuel : Nat) : List (Nat × Option Nat) → LpMultiMap → Res LpMultiMap
  | [], m => .done m
  | (k, v) :: xs, m =>
    if k ≠ 0 then
      match v with
      | none => .ub
      | some v => (LpMultiMap.insert fuel m k v).bind fun r => insertAll fuel xs r
    else insertAll fuel xs m

/-- `merge(other)`, LP_MultiMap.hxx:248-256. -/
def merge (fuel : Nat) (m other : LpMultiMap) : Res LpMultiMap :=
  (m.rehash fuel (m.capacity + other.capacity)).bind fun m' =>
    insertAll fuel (other.keys.zip other.vals) m'

/-- Copy loop of the filtered `rehash`, LP_MultiMap.hxx:272-275; `F` is an `LP_Set` filter. -/
def reinsertFiltered (fuel : Nat) (F : LpSet) : List (Nat × Option Nat) → LpMultiMap → Res LpMultiMap
  | [], m => .done m
  | (k, v) :: xs, m =>
    if k ≠ 0 then
      (F.contains fuel k).bind fun c =>
        if c then reinsertFiltered fuel F xs m
        else match v with
          | none => .ub
          | some v => (insertRaw fuel m k v).bind fun r => reinsertFiltered fuel F xs r
    else reinsertFiltered fuel F xs m

/-- `rehash(newSize, filter)`, LP_MultiMap.hxx:258-278. -/
def rehashFilter (fuel : Nat) (m : LpMultiMap) (newSize : Nat) (F : LpSet) : Res LpMultiMap :=
  reinsertFiltered fuel F (m.keys.zip m.vals)
    { m with keys := List.replicate (nextPow2 newSize) 0,
             vals := List.replicate (nextPow2 newSize) none, items := 0 }

/-- Insertion loop of the filtered `merge`, LP_MultiMap.hxx:284-287. -/
def insertFiltered (fuel : Nat) (F : LpSet) : List (Nat × Option Nat) → LpMultiMap → Res LpMultiMap
  | [], m => .done m
  | (k, v) :: xs, m =>
    if k ≠ 0 then
      (F.contains fuel k).bind fun c =>
        if c then insertFiltered fuel F xs m
        else match v with
          | none => .ub
          | some v => (LpMultiMap.insert fuel m k v).bind fun r => insertFiltered fuel F xs r
    else insertFiltered fuel F xs m

/-- `merge(other, filter)`, LP_MultiMap.hxx:280-288. -/
def mergeFilter (fuel : Nat) (m other : LpMultiMap) (F : LpSet) : Res LpMultiMap :=
  (m.rehashFilter fuel (m.capacity + other.capacity) F).bind fun m' =>
    insertFiltered fuel F (other.keys.zip other.vals) m'

end LpMultiMap
end Verif
