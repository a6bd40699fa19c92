import Verif.Model.Migrate

/-!
# Model of the growing concurrent hash set

`/repo/include/datastructures/Growing_LP.hxx` (GrowingHashTable 15-77, GrowingHashTableHandle 201-413)
instantiated with `Concurrent_LP_Set<K>`, operations `insert` and `contains` of a handle. One step is
one atomic access. The sections protected by `grow_mutex` (355-363, 392-397) are single steps, and so
is the unprotected read of the shared pointer `g_table_r` (341), which in C++ is a data race with
line 395.
-/
namespace Verif
namespace Growing

/-- A table with its `m_currentCopyBlock`; its `m_version` is its position in `Shared.tabs`. (include/datastructures/LP_Set.hxx:770-785) -/
structure Tab where
  t : ConcSet.Shared
  copy : Nat

/-- Shared state, Growing_LP.hxx:65-76. `tabs` holds all tables ever created, `g_table_w` is the last
one, `g_table_r` is `tr`. `hs` are the handles' (`l_epoch`, version of `l_table`). -/
structure Shared where
  tabs : List Tab
  ew : Nat
  er : Nat
  tr : Nat
  helpers : Nat
  hs : List (Nat × Nat)

/-- Constructor (25-29) followed by the construction of `m` handles (210-212). -/
def new (a size m : Nat) : Shared :=
  { tabs := [⟨ConcSet.new a size, 0⟩], ew := 0, er := 0, tr := 0, helpers := 0,
    hs := List.replicate m (0, 0) }

/-- `insert(k)` and `contains(k)` on handle `h`. (include/datastructures/Growing_LP.hxx:216-240) -/
inductive Op where
  | insert (h k : Nat)
  | contains (h k : Nat)
  deriving DecidableEq

/-- What to do after `getTable()`. (include/datastructures/Growing_LP.hxx:218-224, 236-238, 402) -/
inductive Cont where
  | check (k te : Nat)  -- line 222: grow if the epoch is still ahead
  | ins (k : Nat)       -- insert into the local table (226)
  | restart (k : Nat)   -- start `insert` over (229)
  | con (k : Nat)       -- look up in the local table (239)
  deriving DecidableEq

/-- Program counter of an operation on handle `h`. (include/datastructures/Growing_LP.hxx:217-240, 339-403) -/
inductive Loc where
  | ins0 (h k : Nat)                          -- insert, line 218
  | con0 (h k : Nat)                          -- contains, line 235
  | gt1 (h : Nat) (c : Cont)                  -- getTable, line 340
  | gt2 (h : Nat) (c : Cont)                  -- getTable, line 341
  | tab (h : Nat) (l : ConcSet.Loc)           -- inside an operation of the local table
  | g1 (h : Nat) (c : Cont)                   -- grow, lines 355-363
  | g2 (h w : Nat) (c : Cont)                 -- grow, lines 366-367
  | mig (h w : Nat) (m : Migrate.Loc) (c : Cont)  -- grow, lines 369-389
  | g8 (h w : Nat) (c : Cont)                 -- grow, lines 392-397
  | g9 (h w : Nat) (c : Cont)                 -- grow, lines 400-401
  deriving DecidableEq

/-- Beginning of an operation. (include/datastructures/Growing_LP.hxx:217-218, 234-235) -/
def start : Op → Loc
  | .insert h k => .ins0 h k
  | .contains h k => .con0 h k

/-- Where `getTable()` returns to; `le` is the new local epoch. (include/datastructures/Growing_LP.hxx:220-223, 237-239, 402) -/
def afterGet (a h le : Nat) : Cont → Loc
  | .check k te => if te > le then .g1 h (.ins k) else .tab h (.check k)
  | .ins k => .tab h (.check k)
  | .restart k => .ins0 h k
  | .con k => .tab h (.look k (hash64 a k))

/-- The hash multiplier (all tables of one growing table use the same). (include/datastructures/LP_Set.hxx:27-39) -/
def Shared.mult (s : Shared) : Nat := match s.tabs with
  | [] => 0
  | t :: _ => t.t.a

/-- One atomic step. (include/datastructures/Growing_LP.hxx:217-240, 339-403) -/
def step (s : Shared) : Loc → Option (Shared × (Loc ⊕ ConcSet.SetRet))
  | .ins0 h k =>
    match s.hs[h]? with
    | none => none
    | some (le, _) =>
      if s.ew > le then some (s, .inl (.gt1 h (.check k s.ew)))
      else some (s, .inl (.tab h (.check k)))
  | .con0 h k =>
    match s.hs[h]? with
    | none => none
    | some (le, _) =>
      if s.er > le then some (s, .inl (.gt1 h (.con k)))
      else some (s, .inl (.tab h (.look k (hash64 s.mult k))))
  | .gt1 h c =>
    match s.hs[h]? with
    | none => none
    | some (_, lt) => some ({ s with hs := s.hs.set h (s.er, lt) }, .inl (.gt2 h c))
  | .gt2 h c =>
    match s.hs[h]? with
    | none => none
    | some (le, _) =>
      some ({ s with hs := s.hs.set h (le, s.tr) },
        if s.tr ≠ le then .inl (.gt1 h c) else .inl (afterGet s.mult h le c))
  | .tab h l =>
    match s.hs[h]? with
    | none => none
    | some (_, lt) =>
      match s.tabs[lt]? with
      | none => none
      | some tb =>
        match ConcSet.step true tb.t l with
        | none => none
        | some (t', out) =>
          some ({ s with tabs := s.tabs.set lt { tb with t := t' } },
            match out with
            | .inl l' => .inl (.tab h l')
            | .inr r =>
              match r, l with
              | .full, .check k => .inl (.g1 h (.restart k))
              | .full, .probe k _ _ => .inl (.g1 h (.restart k))
              | r, _ => .inr r)
  | .g1 h c =>
    match s.hs[h]? with
    | none => none
    | some (_, lt) =>
      match s.tabs[lt]? with
      | none => none
      | some tb =>
        if s.tabs.length - 1 = lt then
          some ({ s with tabs := s.tabs ++ [⟨ConcSet.new tb.t.a (tb.t.arr.length * 2), 0⟩] },
            .inl (.g2 h s.tabs.length c))
        else some (s, .inl (.g2 h (s.tabs.length - 1) c))
  | .g2 h w c =>
    match s.hs[h]? with
    | none => none
    | some (_, lt) =>
      some ({ s with ew := if s.ew = lt then w else s.ew }, .inl (.mig h w .enter c))
  | .mig h w m c =>
    match s.hs[h]? with
    | none => none
    | some (_, lt) =>
      match s.tabs[lt]?, s.tabs[w]? with
      | some old, some nw =>
        match Migrate.step ⟨old.t.arr, old.copy, nw.t, s.helpers, []⟩ m with
        | none => none
        | some (s', out) =>
          some ({ s with tabs := (s.tabs.set w { nw with t := s'.new }).set lt
                           { old with copy := s'.copy },
                         helpers := s'.helpers },
            match out with
            | .inl m' => .inl (.mig h w m' c)
            | .inr () => .inl (.g8 h w c))
      | _, _ => none
  | .g8 h w c => some ({ s with tr := if s.tr < w then w else s.tr }, .inl (.g9 h w c))
  | .g9 h w c =>
    match s.hs[h]? with
    | none => none
    | some (_, lt) => some ({ s with er := if s.er = lt then w else s.er }, .inl (.gt1 h c))

/-- The growing set. (include/datastructures/Growing_LP.hxx:201-403) -/
def obj : Conc.Obj Shared Loc Op ConcSet.SetRet := { start := start, step := step }

end Growing
end Verif
