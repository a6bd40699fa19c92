import Verif.Model.ConcSet

/-!
# Model of the cooperative migration of a growing table

`/repo/include/datastructures/Growing_LP.hxx` lines 369-389 (the part of `grow()` in which helper
threads copy the old table) with `Concurrent_LP_Set::_migrate` and `_insert`
(`/repo/include/datastructures/LP_Set.hxx` 717-756). One step is one atomic access. The old table is
not written by this code; other threads' insertions into it are part of the model in
`Verif/Model/Growing.lean`, which embeds this one.
-/
namespace Verif
namespace Migrate

/-- Shared state: slots of the old table, its `m_currentCopyBlock`, the new table and
`helperThreads`. `copied` is an auxiliary log of the slots that were read, not part of the code. (include/datastructures/Growing_LP.hxx:369-389) -/
structure Shared where
  old : List Nat
  copy : Nat
  new : ConcSet.Shared
  helpers : Nat
  copied : List Nat

/-- `c_BlockSize`, Growing_LP.hxx:412. -/
def blockSize : Nat := 256

/-- Program counter: `i`, `e` are the loop variables `i`, `end` of lines 376-377. -/
inductive Loc where
  | enter                    -- before line 370
  | claim                    -- before line 373 or 381
  | slot (i e : Nat)         -- at line 378 (`at(idx)`, LP_Set.hxx:753)
  | probe (k idx i e : Nat)  -- `_insert`, top of the loop body (LP_Set.hxx:721-726)
  | cas (k j i e : Nat)      -- `_insert`, before the CAS (LP_Set.hxx:736-737)
  | incr (i e : Nat)         -- `_insert`, before `++m_items` (LP_Set.hxx:739)
  | leave                    -- before line 385
  | wait                     -- at line 388
  deriving DecidableEq

/-- Continue the loop of line 377 after slot `i`. -/
def next (i e : Nat) : Loc := if i + 1 < e then .slot (i + 1) e else .claim

/-- One atomic step. (include/datastructures/Growing_LP.hxx:369-389) -/
def step (s : Shared) : Loc → Option (Shared × (Loc ⊕ Unit))
  | .enter => some ({ s with helpers := s.helpers + 1 }, .inl .claim)
  | .claim =>
    let s' := { s with copy := s.copy + blockSize }
    if s.copy < s.old.length then
      some (s', .inl (.slot s.copy (min (s.copy + blockSize) s.old.length)))
    else some (s', .inl .leave)
  | .slot i e =>
    match s.old[i]? with
    | none => none
    | some v =>
      let s' := { s with copied := s.copied ++ [i] }
      if v ≠ 0 then some (s', .inl (.probe v (hash64 s.new.a v) i e))
      else some (s', .inl (next i e))
  | .probe k idx i e =>
    let j := maskIdx s.new.arr.length idx
    match s.new.arr[j]? with
    | none => none
    | some probed =>
      if probed = k then some (s, .inl (next i e))
      else if probed ≠ 0 then some (s, .inl (.probe k (j + 1) i e))
      else some (s, .inl (.cas k j i e))
  | .cas k j i e =>
    match s.new.arr[j]? with
    | none => none
    | some prev =>
      if prev = 0 then
        some ({ s with new := { s.new with arr := s.new.arr.set j k } }, .inl (.incr i e))
      else if prev = k then some (s, .inl (next i e))
      else some (s, .inl (.probe k (j + 1) i e))
  | .incr i e =>
    some ({ s with new := { s.new with items := s.new.items + 1 } }, .inl (next i e))
  | .leave => some ({ s with helpers := s.helpers - 1 }, .inl .wait)
  | .wait => if s.helpers = 0 then some (s, .inr ()) else some (s, .inl .wait)

/-- Any number of threads running the migration code. (include/datastructures/Growing_LP.hxx:369-389) -/
def obj : Conc.Obj Shared Loc Unit Unit := { start := fun _ => .enter, step := step }

/-- State at the beginning of a migration: the new table has twice the size (Growing_LP.hxx:357). -/
def init (a : Nat) (old : List Nat) : Shared :=
  { old := old, copy := 0, new := ConcSet.new a (2 * old.length), helpers := 0, copied := [] }

end Migrate
end Verif
