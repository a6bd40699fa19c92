import Verif.Model.LpSet

/-!
# Model of the sequential linear probing hash map

`/repo/include/datastructures/LP_Map.hxx` lines 10-241 (LP_Map).
-/
namespace Verif

/-- State of `LP_Map<K, V>`, LP_Map.hxx:232-239. `keys` is `m_keys` (0 = free), `vals` is
`m_values`; an element of `vals` is `none` until it is first written ("random init", line 185).
`m_arraySize` is the length of both. `m_rehashing` is true only inside `rehash` and is represented
by `rehash` calling `insertRaw` directly. Values are natural numbers, as `get` returns the integer 0
for a missing key. -/
structure LpMap where
  keys : List Nat
  vals : List (Option Nat)
  items : Nat
  a : Nat
  deriving Repr, DecidableEq

namespace LpMap

/-- `capacity()`, LP_Map.hxx:113. -/
def capacity (m : LpMap) : Nat := m.keys.length

/-- `size()`, LP_Map.hxx:115. -/
def size (m : LpMap) : Nat := m.items

/-- Constructor, LP_Map.hxx:16-23, with `_allocate`, 183-186. -/
def new (a size : Nat) : LpMap :=
  { keys := List.replicate (nextPow2 size) 0, vals := List.replicate (nextPow2 size) none,
    items := 0, a := a }

/-- The probe loop shared by `insert` (LP_Map.hxx:51-72) and `get` (82-89): both run until a slot
with the key or a free slot is read. Returns the slot and its content; an index outside the array is
undefined behaviour. -/
def probeLoop (k : Nat) (keys : List Nat) : Nat → Nat → Res (Nat × Nat)
  | 0, _ => .timeout
  | fuel + 1, idx =>
    let i := maskIdx keys.length idx
    match keys[i]? with
    | none => .ub
    | some probed =>
      if probed = k then .done (i, probed)
      else if probed ≠ 0 then probeLoop k keys fuel (i + 1)
      else .done (i, probed)

/-- `insert` without the growth test (this is `insert` while `m_rehashing` is set),
LP_Map.hxx:51-72. -/
def insertRaw (fuel : Nat) (m : LpMap) (k v : Nat) : Res (LpMap × Bool) :=
  (probeLoop k m.keys fuel (hash64 m.a k)).bind fun r =>
    if r.2 = k then .done ({ m with vals := m.vals.set r.1 (some v) }, false)
    else .done ({ m with keys := m.keys.set r.1 k, vals := m.vals.set r.1 (some v),
                         items := m.items + 1 }, true)

/-- The copy loop of `rehash`, LP_Map.hxx:130-133, over the old slots. -/
def reinsertAll (fuel : Nat) : List (Nat × Option Nat) → LpMap → Res LpMap
  | [], m => .done m
  | (k, v) :: xs, m =>
    if k ≠ 0 then
      match v with
      | none => .ub   -- read of an uninitialised value
      | some v => (insertRaw fuel m k v).bind fun r => reinsertAll fuel xs r.1
    else reinsertAll fuel xs m

/-- `rehash(newSize)`, LP_Map.hxx:117-137. -/
def rehash (fuel : Nat) (m : LpMap) (newSize : Nat) : Res LpMap :=
  reinsertAll fuel (m.keys.zip m.vals)
    { m with keys := List.replicate (nextPow2 newSize) 0,
             vals := List.replicate (nextPow2 newSize) none, items := 0 }

/-- `insert`, LP_Map.hxx:45-73. The growth test (48) is `m_items / m_arraySize >= 0.5` with an
integer division: it holds iff the quotient is at least 1. Division by zero is undefined. -/
protected def insert (fuel : Nat) (m : LpMap) (k v : Nat) : Res (LpMap × Bool) :=
  if m.capacity = 0 then .ub
  else if 1 ≤ m.items / m.capacity then
    (m.rehash fuel (m.capacity * 2)).bind fun m' => insertRaw fuel m' k v
  else insertRaw fuel m k v

/-- `get`, LP_Map.hxx:79-91. -/
def get (fuel : Nat) (m : LpMap) (k : Nat) : Res Nat :=
  (probeLoop k m.keys fuel (hash64 m.a k)).bind fun r =>
    if r.2 = k then
      match m.vals[r.1]? with
      | some (some v) => .done v
      | _ => .ub
    else .done 0

/-- `contains` (and `count`), LP_Map.hxx:93-99. -/
def contains (fuel : Nat) (m : LpMap) (k : Nat) : Res Bool :=
  (m.get fuel k).bind fun v => .done (decide (v ≠ 0))

/-- Insertion loop of `merge`, LP_Map.hxx:143-146. -/
def insertAll (fuel : Nat) : List (Nat × Option Nat) → LpMap → Res LpMap
  | [], m => .done m
  | (k, v) :: xs, m =>
    if k ≠ 0 then
      match v with
      | none => .ub
      | some v => (LpMap.insert fuel m k v).bind fun r => insertAll fuel xs r.1
    else insertAll fuel xs m

/-- `merge(other)`, LP_Map.hxx:139-147. -/
def merge (fuel : Nat) (m other : LpMap) : Res LpMap :=
  (m.rehash fuel ((m.capacity + other.capacity) * 2)).bind fun m' =>
    insertAll fuel (other.keys.zip other.vals) m'

/-- Copy loop of the filtered `rehash`, LP_Map.hxx:163-166; `F` is an `LP_Set` filter. -/
def reinsertFiltered (fuel : Nat) (F : LpSet) : List (Nat × Option Nat) → LpMap → Res LpMap
  | [], m => .done m
  | (k, v) :: xs, m =>
    if k ≠ 0 then
      (F.contains fuel k).bind fun c =>
        if c then reinsertFiltered fuel F xs m
        else match v with
          | none => .ub
          | some v => (insertRaw fuel m k v).bind fun r => reinsertFiltered fuel F xs r.1
    else reinsertFiltered fuel F xs m

/-- `rehash(newSize, filter)`, LP_Map.hxx:149-169. -/
def rehashFilter (fuel : Nat) (m : LpMap) (newSize : Nat) (F : LpSet) : Res LpMap :=
  reinsertFiltered fuel F (m.keys.zip m.vals)
    { m with keys := List.replicate (nextPow2 newSize) 0,
             vals := List.replicate (nextPow2 newSize) none, items := 0 }

/-- Insertion loop of the filtered `merge`, LP_Map.hxx:175-178. -/
def insertFiltered (fuel : Nat) (F : LpSet) : List (Nat × Option Nat) → LpMap → Res LpMap
  | [], m => .done m
  | (k, v) :: xs, m =>
    if k ≠ 0 then
      (F.contains fuel k).bind fun c =>
        if c then insertFiltered fuel F xs m
        else match v with
          | none => .ub
          | some v => (LpMap.insert fuel m k v).bind fun r => insertFiltered fuel F xs r.1
    else insertFiltered fuel F xs m

/-- `merge(other, filter)`, LP_Map.hxx:171-179. -/
def mergeFilter (fuel : Nat) (m other : LpMap) (F : LpSet) : Res LpMap :=
  (m.rehashFilter fuel ((m.capacity + other.capacity) * 2) F).bind fun m' =>
    insertFiltered fuel F (other.keys.zip other.vals) m'

/-- `save`, LP_Map.hxx:207-215. Uninitialised values are written as they are (`none`); the archive
is the sequence of the numbers written. -/
def save (m : LpMap) : List (Option Nat) :=
  some m.keys.length :: some m.items :: (m.keys.map some ++ m.vals ++ [some m.a])

/-- `load`, LP_Map.hxx:217-228. `none` if the archive is too short or a key is unreadable. -/
def load : List (Option Nat) → Option (LpMap × List (Option Nat))
  | some n :: some items :: rest =>
    if 2 * n ≤ rest.length then
      match (rest.take n).mapM id, rest.drop (2 * n) with
      | some ks, some a :: rest' =>
        some ({ keys := ks, vals := (rest.drop n).take n, items := items, a := a }, rest')
      | _, _ => none
    else none
  | _ => none

end LpMap
end Verif
