import Verif.Model.ConcSet

/-!
# Model of the parallel bulk merge of concurrent sets

`/repo/include/datastructures/LP_Set.hxx` lines 660-709 (`Concurrent_LP_Set::unsafe_merge`) with
`_insert` (717-749). The parallel loop over the slots is a set of tasks, each with an index range;
one step of a task is one atomic access. The first parallel loop (681-685), which stores zeros into
the freshly zero-initialised array, has no effect and is left out.
-/
namespace Verif
namespace BulkMerge

/-- Loop of LP_Set.hxx:669-670: doubles `newSize` while `combined > newSize >> 1`. -/
def growLoop (combined : Nat) : Nat → Nat → Res Nat
  | 0, _ => .timeout
  | fuel + 1, newSize =>
    if combined > newSize / 2 then growLoop combined fuel (2 * newSize) else .done newSize

/-- The new table size, LP_Set.hxx:666-672. -/
def newSize (fuel items otherItems : Nat) : Res Nat :=
  growLoop (items + otherItems) fuel (nextPow2 (items + otherItems))

/-- Shared state during the copy loop: the old array of the receiver, the array of `other`, the
filter's `count` (a read-only set, represented by its membership function) and the new table. (include/datastructures/LP_Set.hxx:660-715) -/
structure Shared where
  old : List Nat
  other : List Nat
  F : Nat → Bool
  new : ConcSet.Shared

/-- A task `[lo, hi)` of the parallel loop, LP_Set.hxx:689. -/
structure Chunk where
  lo : Nat
  hi : Nat
  deriving DecidableEq

/-- Program counter of a task: `i` and `e` are the loop variable and bound of line 693, `snd` tells
whether the second half of the body (701-706) is being executed. -/
inductive Loc where
  | read (i e : Nat) (snd : Bool)            -- loop test (for the first half) and read of the slot
  | probe (k idx i e : Nat) (snd : Bool)     -- `_insert`, top of the loop (721-726)
  | cas (k j i e : Nat) (snd : Bool)         -- `_insert`, before the CAS (736-737)
  | incr (i e : Nat) (snd : Bool)            -- `_insert`, before `++m_items` (739)
  deriving DecidableEq

/-- Continue after (half of) the loop body. (include/datastructures/LP_Set.hxx:693-708) -/
def next (i e : Nat) (snd : Bool) : Loc := if snd then .read (i + 1) e false else .read i e true

/-- The array read by the first or second half of the loop body. (include/datastructures/LP_Set.hxx:694-706) -/
def src (s : Shared) (snd : Bool) : List Nat := if snd then s.other else s.old

/-- One atomic step, LP_Set.hxx:689-707 and 717-749. -/
def step (s : Shared) : Loc → Option (Shared × (Loc ⊕ Unit))
  | .read i e snd =>
    if snd = false ∧ i = e then some (s, .inr ())
    else
      match (src s snd)[i]? with
      | none => some (s, .inl (next i e snd))   -- tests `i < oldSize`, `i < other.capacity()`
      | some v =>
        if v ≠ 0 ∧ s.F v = false then some (s, .inl (.probe v (hash64 s.new.a v) i e snd))
        else some (s, .inl (next i e snd))
  | .probe k idx i e snd =>
    let j := maskIdx s.new.arr.length idx
    match s.new.arr[j]? with
    | none => none
    | some probed =>
      if probed = k then some (s, .inl (next i e snd))
      else if probed ≠ 0 then some (s, .inl (.probe k (j + 1) i e snd))
      else some (s, .inl (.cas k j i e snd))
  | .cas k j i e snd =>
    match s.new.arr[j]? with
    | none => none
    | some prev =>
      if prev = 0 then
        some ({ s with new := { s.new with arr := s.new.arr.set j k } }, .inl (.incr i e snd))
      else if prev = k then some (s, .inl (next i e snd))
      else some (s, .inl (.probe k (j + 1) i e snd))
  | .incr i e snd =>
    some ({ s with new := { s.new with items := s.new.items + 1 } }, .inl (next i e snd))

/-- Any number of tasks running the loop. (include/datastructures/LP_Set.hxx:691-709) -/
def obj : Conc.Obj Shared Loc Chunk Unit :=
  { start := fun c => .read c.lo c.hi false, step := step }

/-- State before the copy loop, LP_Set.hxx:672-678; `sz` is the size computed by `newSize`. -/
def init (old : ConcSet.Shared) (other : ConcSet.Shared) (F : Nat → Bool) (sz : Nat) : Shared :=
  { old := old.arr, other := other.arr, F := F,
    new := { arr := List.replicate sz 0, items := 0, a := old.a } }

end BulkMerge
end Verif
