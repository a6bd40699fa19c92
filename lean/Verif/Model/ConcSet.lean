import Verif.Model.Conc
import Verif.Model.LpSet

/-!
# Model of the lock-free hash set

`/repo/include/datastructures/LP_Set.hxx` lines 519-786 (Concurrent_LP_Set). Every atomic access to
`m_array` and `m_items` is one step. Relaxed accesses (only used by `at` and `empty`, which are not
part of the modelled operations) play no role; all modelled accesses use the default
`memory_order_seq_cst`.
-/
namespace Verif
namespace ConcSet

/-- Shared state, LP_Set.hxx:776-780 (`m_array`, `m_items`; `m_arraySize` is the length; `a` is the
multiplier of `m_hasher`). -/
structure Shared where
  arr : List Nat
  items : Nat
  a : Nat

/-- Constructor, LP_Set.hxx:533-543, with `_allocate` (713-715). -/
def new (a size : Nat) : Shared := { arr := List.replicate (nextPow2 size) 0, items := 0, a := a }

/-- Operations: `insert(key)` and `contains(key)`. (include/datastructures/LP_Set.hxx:571, 634) -/
inductive SetOp where
  | insert (k : Nat)
  | contains (k : Nat)
  deriving DecidableEq

/-- Key of an operation. (include/datastructures/LP_Set.hxx:571, 634) -/
def SetOp.key : SetOp → Nat
  | .insert k => k
  | .contains k => k

/-- Return values: a truth value, or `InsertReturn::State::Full`. (include/datastructures/LP_Set.hxx:41-64) -/
inductive SetRet where
  | bool (b : Bool)
  | full
  deriving DecidableEq

/-- Program counter and local variables of a running operation. (include/datastructures/LP_Set.hxx:571-636) -/
inductive Loc where
  | check (k : Nat)                 -- insert, before the test of `m_items` (574-578)
  | probe (k idx cols : Nat)        -- insert, top of the loop body (581-591)
  | cas (k i cols : Nat)            -- insert, slot was free, before the CAS (603-604)
  | incr (k : Nat)                  -- insert, after a successful CAS, before `++m_items` (606)
  | look (k idx : Nat)              -- get, top of the loop body (623-629)
  deriving DecidableEq

/-- Beginning of an operation; `contains` (634-636) calls `get` (620-632). -/
def start (a : Nat) : SetOp → Loc
  | .insert k => .check k
  | .contains k => .look k (hash64 a k)

/-- One atomic step, LP_Set.hxx:571-632; `growing` is the template parameter `Growing`. Accesses
outside of the array are undefined. `K cols` counts collisions, `c_growThreshold` is 10 (784). -/
def step (growing : Bool) (s : Shared) : Loc → Option (Shared × (Loc ⊕ SetRet))
  | .check k =>
    if growing = true ∧ s.items ≥ s.arr.length / 2 then some (s, .inr .full)
    else if growing = false ∧ s.items = s.arr.length then some (s, .inr .full)
    else some (s, .inl (.probe k (hash64 s.a k) 0))
  | .probe k idx cols =>
    if growing = true ∧ cols > 10 then some (s, .inr .full)
    else
      let i := maskIdx s.arr.length idx
      match s.arr[i]? with
      | none => none
      | some probed =>
        if probed = k then some (s, .inr (.bool false))
        else if probed ≠ 0 then some (s, .inl (.probe k (i + 1) (cols + 1)))
        else some (s, .inl (.cas k i cols))
  | .cas k i cols =>
    match s.arr[i]? with
    | none => none
    | some prev =>
      if prev = 0 then some ({ s with arr := s.arr.set i k }, .inl (.incr k))
      else if prev = k then some (s, .inr (.bool false))
      else some (s, .inl (.probe k (i + 1) (cols + 1)))
  | .incr _ => some ({ s with items := s.items + 1 }, .inr (.bool true))
  | .look k idx =>
    let i := maskIdx s.arr.length idx
    match s.arr[i]? with
    | none => none
    | some probed =>
      if probed = k then some (s, .inr (.bool true))
      else if probed = 0 then some (s, .inr (.bool false))
      else some (s, .inl (.look k (i + 1)))

/-- The concurrent set with hash multiplier `a`. (include/datastructures/LP_Set.hxx:520-636) -/
def obj (growing : Bool) (a : Nat) : Conc.Obj Shared Loc SetOp SetRet :=
  { start := start a, step := step growing }

end ConcSet
end Verif
