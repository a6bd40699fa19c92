import Verif.Model.Migrate
import Verif.Model.ConcMultiMap

/-!
# Model of the cooperative migration of a growing multimap

`/repo/include/datastructures/Growing_LP.hxx` lines 369-389 (the part of `grow()` in which helper
threads copy the old table) for tables of type `Concurrent_LP_MultiMap`, whose `_migrate`
(`/repo/include/datastructures/LP_MultiMap.hxx` 632-636) reads a pair of the old table and passes it
to `_insert(pair)` (628-630) of the new one. That overload calls `insert(key, value)` (403-439), which
unlike `_insert(key, value)` (601-626) rejects the pair when the new table is half full; the result is
ignored. One step is one atomic access. The old table is not written by this code.
-/
namespace Verif
namespace MigrateMM

/-- Shared state: keys and values of the old table, its `m_currentCopyBlock`, the new table and
`helperThreads`. The value of a free slot is whatever is in memory. `copied` is an auxiliary log of
the slots that were read, not part of the code.
(include/datastructures/Growing_LP.hxx:369-389) -/
structure Shared where
  okeys : List Nat
  ovals : List Nat
  copy : Nat
  new : ConcMultiMap.Shared
  helpers : Nat
  copied : List Nat

/-- Program counter: `i`, `e` are the loop variables `i`, `end` of Growing_LP.hxx:376-377. -/
inductive Loc where
  | enter                                 -- before Growing_LP.hxx:370
  | claim                                 -- before Growing_LP.hxx:373 or 381
  | slot (i e : Nat)                      -- `at(idx)`, before the load of the key (LP_MultiMap.hxx:500-502)
  | val (k i e : Nat)                     -- `at(idx)`, before the load of the value
  | ins (l : ConcMultiMap.Loc) (i e : Nat) -- inside of `insert` of the new table (LP_MultiMap.hxx:403-439)
  | leave                                 -- before Growing_LP.hxx:385
  | wait                                  -- at Growing_LP.hxx:388
  deriving DecidableEq

/-- Continue the loop of Growing_LP.hxx:377 after slot `i`. -/
def next (i e : Nat) : Loc := if i + 1 < e then .slot (i + 1) e else .claim

/-- One atomic step.
(include/datastructures/Growing_LP.hxx:369-389, include/datastructures/LP_MultiMap.hxx:628-636) -/
def step (s : Shared) : Loc → Option (Shared × (Loc ⊕ Unit))
  | .enter => some ({ s with helpers := s.helpers + 1 }, .inl .claim)
  | .claim =>
    let s' := { s with copy := s.copy + Migrate.blockSize }
    if s.copy < s.okeys.length then
      some (s', .inl (.slot s.copy (min (s.copy + Migrate.blockSize) s.okeys.length)))
    else some (s', .inl .leave)
  | .slot i e =>
    match s.okeys[i]? with
    | none => none
    | some k => some (s, .inl (.val k i e))
  | .val k i e =>
    match s.ovals[i]? with
    | none => none
    | some v =>
      let s' := { s with copied := s.copied ++ [i] }
      if k ≠ 0 then some (s', .inl (.ins (ConcMultiMap.start s.new.a (.insert k v)) i e))
      else some (s', .inl (next i e))
  | .ins l i e =>
    match ConcMultiMap.step s.new l with
    | none => none
    | some (t, .inl l') => some ({ s with new := t }, .inl (.ins l' i e))
    | some (t, .inr _) => some ({ s with new := t }, .inl (next i e))
  | .leave => some ({ s with helpers := s.helpers - 1 }, .inl .wait)
  | .wait => if s.helpers = 0 then some (s, .inr ()) else some (s, .inl .wait)

/-- Any number of threads running the migration code.
(include/datastructures/Growing_LP.hxx:369-389) -/
def obj : Conc.Obj Shared Loc Unit Unit := { start := fun _ => .enter, step := step }

/-- State at the beginning of a migration: the new table has twice the size (Growing_LP.hxx:357). -/
def init (a : Nat) (keys vals : List Nat) : Shared :=
  { okeys := keys, ovals := vals, copy := 0, new := ConcMultiMap.new a (2 * keys.length),
    helpers := 0, copied := [] }

end MigrateMM
end Verif
