import Verif.Model.MigrateMap

/-!
# Model of the growing concurrent map

`/repo/include/datastructures/Growing_LP.hxx` (GrowingHashTable 15-77, GrowingHashTableHandle 201-413)
instantiated with `Concurrent_LP_Map<K, V>` (the edge map of
`/repo/include/load_balancing/sample_partitioner/Sampler.h` 311-315), operation `insert(key, value)` of a handle. One step is one atomic
access; the sections protected by `grow_mutex` are single steps, and so is the unprotected read of
`g_table_r` (341). The values of a new table are not initialised (LP_Map.hxx:434-435): a slot
that has not been written holds an arbitrary value, here given by `junk`.
-/
namespace Verif
namespace GrowingMap

/-- A table with its `m_currentCopyBlock`; its `m_version` is its position in `Shared.tabs`.
(include/datastructures/LP_Map.hxx:498-507) -/
structure Tab where
  t : ConcMap.Shared
  copy : Nat

/-- Shared state, Growing_LP.hxx:65-76. `tabs` holds all tables ever created, `g_table_w` is the last
one, `g_table_r` is `tr`. `hs` are the handles' (`l_epoch`, version of `l_table`), `junk i` is what
reading the unwritten value of slot `i` yields. -/
structure Shared where
  tabs : List Tab
  ew : Nat
  er : Nat
  tr : Nat
  helpers : Nat
  hs : List (Nat × Nat)
  junk : Nat → Nat

/-- Constructor (25-29) followed by the construction of `m` handles (208-210).
(include/datastructures/Growing_LP.hxx:25-29, 208-210) -/
def new (junk : Nat → Nat) (a size m : Nat) : Shared :=
  { tabs := [⟨ConcMap.new a size, 0⟩], ew := 0, er := 0, tr := 0, helpers := 0,
    hs := List.replicate m (0, 0), junk := junk }

/-- `insert(k, v)` on handle `h`. (include/datastructures/Growing_LP.hxx:216-231) -/
structure Op where
  h : Nat
  k : Nat
  v : Nat
  deriving DecidableEq

/-- What to do after `getTable()`. (include/datastructures/Growing_LP.hxx:218-224, 229, 402) -/
inductive Cont where
  | check (te : Nat)  -- line 221: grow if the epoch is still ahead
  | ins               -- insert into the local table (225)
  | restart           -- start `insert` over (228)
  deriving DecidableEq

/-- Program counter of an insertion on handle `h`.
(include/datastructures/Growing_LP.hxx:217-231, 339-403) -/
inductive Loc where
  | ins0 (o : Op)                                 -- insert, line 218
  | gt1 (o : Op) (c : Cont)                       -- getTable, line 340
  | gt2 (o : Op) (c : Cont)                       -- getTable, line 341
  | tab (o : Op) (l : ConcMap.Loc)           -- inside of `insert` of the local table
  | g1 (o : Op) (c : Cont)                        -- grow, lines 355-363
  | g2 (o : Op) (w : Nat) (c : Cont)              -- grow, lines 366-367
  | mig (o : Op) (w : Nat) (m : MigrateMap.Loc) (c : Cont)  -- grow, lines 369-389
  | g8 (o : Op) (w : Nat) (c : Cont)              -- grow, lines 392-397
  | g9 (o : Op) (w : Nat) (c : Cont)              -- grow, lines 400-401
  deriving DecidableEq

/-- Where `getTable()` returns to; `le` is the new local epoch.
(include/datastructures/Growing_LP.hxx:220-225, 228, 402) -/
def afterGet (o : Op) (le : Nat) : Cont → Loc
  | .check te => if te > le then .g1 o .ins else .tab o (.check o.k o.v)
  | .ins => .tab o (.check o.k o.v)
  | .restart => .ins0 o

/-- What the memory of the values of a table contains.
(include/datastructures/LP_Map.hxx:360-363, 433-436) -/
def memory (junk : Nat → Nat) (vals : List (Option Nat)) : List Nat :=
  vals.zipIdx.map (fun x => x.1.getD (junk x.2))

/-- One atomic step. (include/datastructures/Growing_LP.hxx:217-231, 339-403) -/
def step (s : Shared) : Loc → Option (Shared × (Loc ⊕ ConcMap.MapRet))
  | .ins0 o =>
    match s.hs[o.h]? with
    | none => none
    | some (le, _) =>
      if s.ew > le then some (s, .inl (.gt1 o (.check s.ew)))
      else some (s, .inl (.tab o (.check o.k o.v)))
  | .gt1 o c =>
    match s.hs[o.h]? with
    | none => none
    | some (_, lt) => some ({ s with hs := s.hs.set o.h (s.er, lt) }, .inl (.gt2 o c))
  | .gt2 o c =>
    match s.hs[o.h]? with
    | none => none
    | some (le, _) =>
      some ({ s with hs := s.hs.set o.h (le, s.tr) },
        if s.tr ≠ le then .inl (.gt1 o c) else .inl (afterGet o le c))
  | .tab o l =>
    match s.hs[o.h]? with
    | none => none
    | some (_, lt) =>
      match s.tabs[lt]? with
      | none => none
      | some tb =>
        match ConcMap.step tb.t l with
        | none => none
        | some (t', out) =>
          some ({ s with tabs := s.tabs.set lt { tb with t := t' } },
            match out with
            | .inl l' => .inl (.tab o l')
            | .inr .full => .inl (.g1 o .restart)
            | .inr r => .inr r)
  | .g1 o c =>
    match s.hs[o.h]? with
    | none => none
    | some (_, lt) =>
      match s.tabs[lt]? with
      | none => none
      | some tb =>
        if s.tabs.length - 1 = lt then
          some ({ s with tabs := s.tabs ++ [⟨ConcMap.new tb.t.a (tb.t.keys.length * 2), 0⟩] },
            .inl (.g2 o s.tabs.length c))
        else some (s, .inl (.g2 o (s.tabs.length - 1) c))
  | .g2 o w c =>
    match s.hs[o.h]? with
    | none => none
    | some (_, lt) =>
      some ({ s with ew := if s.ew = lt then w else s.ew }, .inl (.mig o w .enter c))
  | .mig o w m c =>
    match s.hs[o.h]? with
    | none => none
    | some (_, lt) =>
      match s.tabs[lt]?, s.tabs[w]? with
      | some old, some nw =>
        match MigrateMap.step
            ⟨old.t.keys, memory s.junk old.t.vals, old.copy, nw.t, s.helpers, []⟩ m with
        | none => none
        | some (s', out) =>
          some ({ s with tabs := (s.tabs.set w { nw with t := s'.new }).set lt
                           { old with copy := s'.copy },
                         helpers := s'.helpers },
            match out with
            | .inl m' => .inl (.mig o w m' c)
            | .inr () => .inl (.g8 o w c))
      | _, _ => none
  | .g8 o w c => some ({ s with tr := if s.tr < w then w else s.tr }, .inl (.g9 o w c))
  | .g9 o w c =>
    match s.hs[o.h]? with
    | none => none
    | some (_, lt) => some ({ s with er := if s.er = lt then w else s.er }, .inl (.gt1 o c))

/-- The growing map. (include/datastructures/Growing_LP.hxx:201-403) -/
def obj : Conc.Obj Shared Loc Op ConcMap.MapRet := { start := .ins0, step := step }

end GrowingMap
end Verif
