import Verif.Model.Conc
import Verif.Model.LpSet

/-!
# Model of the lock-free multimap

`/repo/include/datastructures/LP_MultiMap.hxx` lines 346-706 (Concurrent_LP_MultiMap), operations
`insert` and `contains`. Every atomic access is one step; the relaxed store of the value is treated
like a sequentially consistent one.
-/
namespace Verif
namespace ConcMultiMap

/-- Shared state. `vals` holds `none` until the slot is first written. (include/datastructures/LP_MultiMap.hxx:640-660) -/
structure Shared where
  keys : List Nat
  vals : List (Option Nat)
  items : Nat
  a : Nat

/-- Constructor, LP_MultiMap.hxx:364-376. -/
def new (a size : Nat) : Shared :=
  { keys := List.replicate (nextPow2 size) 0, vals := List.replicate (nextPow2 size) none,
    items := 0, a := a }

/-- Operations `insert(key, value)` and `contains(key)`. (include/datastructures/LP_MultiMap.hxx:403, 479) -/
inductive MOp where
  | insert (k v : Nat)
  | contains (k : Nat)
  deriving DecidableEq

/-- Return values. (include/datastructures/LP_MultiMap.hxx:403, 479) -/
inductive MRet where
  | bool (b : Bool)
  | full
  deriving DecidableEq

/-- Program counter and local variables. (include/datastructures/LP_MultiMap.hxx:403-439, 479-490) -/
inductive Loc where
  | check (k v : Nat)      -- insert, before the test of `m_items` (407)
  | probe (k v idx : Nat)  -- insert, top of the loop body (417-421)
  | cas (k v i : Nat)      -- insert, slot was free, before the CAS (428-429)
  | store (k v i : Nat)    -- insert, CAS succeeded, before the store of the value (431)
  | incr (k v : Nat)       -- insert, before `++m_items` (432)
  | look (k idx : Nat)     -- contains, top of the loop body (482-483)
  deriving DecidableEq

/-- Beginning of an operation. (include/datastructures/LP_MultiMap.hxx:403-408, 479-481) -/
def start (a : Nat) : MOp → Loc
  | .insert k v => .check k v
  | .contains k => .look k (hash64 a k)

/-- One atomic step, LP_MultiMap.hxx:403-439 (insert) and 479-489 (contains). -/
def step (s : Shared) : Loc → Option (Shared × (Loc ⊕ MRet))
  | .check k v =>
    if s.items ≥ s.keys.length / 2 then some (s, .inr .full)
    else some (s, .inl (.probe k v (hash64 s.a k)))
  | .probe k v idx =>
    let i := maskIdx s.keys.length idx
    match s.keys[i]? with
    | none => none
    | some probed =>
      if probed ≠ 0 then some (s, .inl (.probe k v (i + 1)))
      else some (s, .inl (.cas k v i))
  | .cas k v i =>
    match s.keys[i]? with
    | none => none
    | some prev =>
      if prev = 0 then some ({ s with keys := s.keys.set i k }, .inl (.store k v i))
      else some (s, .inl (.probe k v (i + 1)))
  | .store k v i =>
    if i < s.vals.length then
      some ({ s with vals := s.vals.set i (some v) }, .inl (.incr k v))
    else none
  | .incr _ _ => some ({ s with items := s.items + 1 }, .inr (.bool true))
  | .look k idx =>
    let i := maskIdx s.keys.length idx
    match s.keys[i]? with
    | none => none
    | some probed =>
      if probed = k then some (s, .inr (.bool true))
      else if probed = 0 then some (s, .inr (.bool false))
      else some (s, .inl (.look k (i + 1)))

/-- The concurrent multimap with hash multiplier `a`. (include/datastructures/LP_MultiMap.hxx:347-490) -/
def obj (a : Nat) : Conc.Obj Shared Loc MOp MRet := { start := start a, step := step }

end ConcMultiMap
end Verif
