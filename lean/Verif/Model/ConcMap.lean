import Verif.Model.Conc
import Verif.Model.LpSet

/-!
# Model of the lock-free hash map

`/repo/include/datastructures/LP_Map.hxx` lines 243-512 (Concurrent_LP_Map), operations `insert` and
`get`. Every atomic access is one step; the relaxed stores of values are treated like sequentially
consistent ones (this can only hide, not add, behaviour).
-/
namespace Verif
namespace ConcMap

/-- Shared state, LP_Map.hxx:503-509. `vals` holds `none` until the slot is first written ("random
init", line 435). -/
structure Shared where
  keys : List Nat
  vals : List (Option Nat)
  items : Nat
  a : Nat

/-- Constructor, LP_Map.hxx:256-266, with `_allocate` (433-436). -/
def new (a size : Nat) : Shared :=
  { keys := List.replicate (nextPow2 size) 0, vals := List.replicate (nextPow2 size) none,
    items := 0, a := a }

/-- Operations `insert(key, value)` and `get(key)`. (include/datastructures/LP_Map.hxx:293, 335) -/
inductive MapOp where
  | insert (k v : Nat)
  | get (k : Nat)
  deriving DecidableEq

/-- Return values: of `insert` (true, false, Full) or of `get`. (include/datastructures/LP_Map.hxx:293, 335, LP_Set.hxx:41-64) -/
inductive MapRet where
  | bool (b : Bool)
  | full
  | val (v : Nat)
  deriving DecidableEq

/-- Program counter and local variables. (include/datastructures/LP_Map.hxx:293-346) -/
inductive Loc where
  | check (k v : Nat)                  -- insert, before the test of `m_items` (296)
  | probe (k v idx : Nat)              -- insert, top of the loop body (300-304)
  | cas (k v i : Nat)                  -- insert, slot was free, before the CAS (315-316)
  | store (k v i : Nat) (won : Bool)   -- insert, before the store of the value (307, 318, 323)
  | incr (k v : Nat)                   -- insert, before `++m_items` (319)
  | look (k idx : Nat)                 -- get, top of the loop body (338-339)
  | lookV (k i : Nat)                  -- get, key found, before the load of the value (341)
  deriving DecidableEq

/-- Beginning of an operation. (include/datastructures/LP_Map.hxx:293-297, 335-338) -/
def start (a : Nat) : MapOp → Loc
  | .insert k v => .check k v
  | .get k => .look k (hash64 a k)

/-- One atomic step, LP_Map.hxx:293-346. Loading a value that was never stored is undefined (the
array of values is not initialised). -/
def step (s : Shared) : Loc → Option (Shared × (Loc ⊕ MapRet))
  | .check k v =>
    if s.items ≥ s.keys.length / 2 then some (s, .inr .full)
    else some (s, .inl (.probe k v (hash64 s.a k)))
  | .probe k v idx =>
    let i := maskIdx s.keys.length idx
    match s.keys[i]? with
    | none => none
    | some probed =>
      if probed = k then some (s, .inl (.store k v i false))
      else if probed ≠ 0 then some (s, .inl (.probe k v (i + 1)))
      else some (s, .inl (.cas k v i))
  | .cas k v i =>
    match s.keys[i]? with
    | none => none
    | some prev =>
      if prev = 0 then some ({ s with keys := s.keys.set i k }, .inl (.store k v i true))
      else if prev = k then some (s, .inl (.store k v i false))
      else some (s, .inl (.probe k v (i + 1)))
  | .store k v i won =>
    if i < s.vals.length then
      some ({ s with vals := s.vals.set i (some v) },
        if won then .inl (.incr k v) else .inr (.bool false))
    else none
  | .incr _ _ => some ({ s with items := s.items + 1 }, .inr (.bool true))
  | .look k idx =>
    let i := maskIdx s.keys.length idx
    match s.keys[i]? with
    | none => none
    | some probed =>
      if probed = k then some (s, .inl (.lookV k i))
      else if probed = 0 then some (s, .inr (.val 0))
      else some (s, .inl (.look k (i + 1)))
  | .lookV _ i =>
    match s.vals[i]? with
    | some (some v) => some (s, .inr (.val v))
    | _ => none

/-- The concurrent map with hash multiplier `a`. (include/datastructures/LP_Map.hxx:244-346) -/
def obj (a : Nat) : Conc.Obj Shared Loc MapOp MapRet := { start := start a, step := step }

end ConcMap
end Verif
