import Verif.Lemmas.GrowingSerial

/-!
# What the growing concurrent hash set does guarantee: C15
-/
namespace Verif
namespace Growing
open Conc

/-- **C15 (partial).** Any number of threads, any number of handles, any number of growth phases, in
which some threads drive the migration and others join it. If every handle is used by one thread at
a time and no thread writes its key into a free slot of a table after the migration has handed out
that slot, then an acknowledged insertion is never lost: every `contains(k)` that starts after an
`insert(k)` has returned answers true, with every handle, and every `insert(k)` that starts after it
answers false.
Missing: the code does not prevent late writes, and with one of them the claim is false
(`C15_lost_insert_violated`). -/
theorem C15_no_loss_partial {a size m n : Nat} (hs : 0 < size)
    {c : Config n Shared Loc Op ConcSet.SetRet} (h : ReachTimely (new a size m) c)
    (t u : Fin n) (i j k : Nat) (b : Bool) (h1 h2 h3 h4 : List (Ev n Op ConcSet.SetRet)) :
    (∀ r, c.hist = h1 ++ .res u (.insert j k) (.bool b) :: (h2 ++ .inv t (.contains i k) ::
        (h3 ++ .res t (.contains i k) r :: h4)) → (∀ op, Ev.inv t op ∉ h3) → r = .bool true) ∧
    (∀ r, c.hist = h1 ++ .res u (.insert j k) (.bool b) :: (h2 ++ .inv t (.insert i k) ::
        (h3 ++ .res t (.insert i k) r :: h4)) → (∀ op, Ev.inv t op ∉ h3) → r = .bool false) := by
  have hCI := timely_CI hs h
  constructor
  · intro r hr hno
    exact hCI.ret t (.contains i k) r (h1 ++ .res u (.insert j k) (.bool b) :: h2) h3 h4
      (by rw [hr]; simp) hno ⟨u, j, b, by simp [Op.key]⟩
  · intro r hr hno
    exact hCI.ret t (.insert i k) r (h1 ++ .res u (.insert j k) (.bool b) :: h2) h3 h4
      (by rw [hr]; simp) hno ⟨u, j, b, by simp [Op.key]⟩

/-- **C15 (partial).** Insertions that do not overlap are never lost, however many lookups run at the
same time and however often the table grows: there are then no late writes. -/
theorem C15_serial_partial {a size m n : Nat} (hs : 0 < size)
    {c : Config n Shared Loc Op ConcSet.SetRet} (h : ReachSerial (new a size m) c)
    (t u : Fin n) (i j k : Nat) (b : Bool) (h1 h2 h3 h4 : List (Ev n Op ConcSet.SetRet)) :
    (∀ r, c.hist = h1 ++ .res u (.insert j k) (.bool b) :: (h2 ++ .inv t (.contains i k) ::
        (h3 ++ .res t (.contains i k) r :: h4)) → (∀ op, Ev.inv t op ∉ h3) → r = .bool true) ∧
    (∀ r, c.hist = h1 ++ .res u (.insert j k) (.bool b) :: (h2 ++ .inv t (.insert i k) ::
        (h3 ++ .res t (.insert i k) r :: h4)) → (∀ op, Ev.inv t op ∉ h3) → r = .bool false) :=
  C15_no_loss_partial hs (serial_timely hs h) t u i j k b h1 h2 h3 h4

/-- **C15 (partial).** As long as no second table has been allocated, insertions are never lost, also
when they overlap. A table that is large enough from the start is safe. -/
theorem C15_no_growth_partial {a size m n : Nat} (hs : 0 < size)
    {c : Config n Shared Loc Op ConcSet.SetRet} (h : ReachExclusive (new a size m) c)
    (hg : c.sh.tabs.length = 1)
    (t u : Fin n) (i j k : Nat) (b : Bool) (h1 h2 h3 h4 : List (Ev n Op ConcSet.SetRet)) :
    (∀ r, c.hist = h1 ++ .res u (.insert j k) (.bool b) :: (h2 ++ .inv t (.contains i k) ::
        (h3 ++ .res t (.contains i k) r :: h4)) → (∀ op, Ev.inv t op ∉ h3) → r = .bool true) ∧
    (∀ r, c.hist = h1 ++ .res u (.insert j k) (.bool b) :: (h2 ++ .inv t (.insert i k) ::
        (h3 ++ .res t (.insert i k) r :: h4)) → (∀ op, Ev.inv t op ∉ h3) → r = .bool false) :=
  C15_no_loss_partial hs (nogrow_timely hs h hg) t u i j k b h1 h2 h3 h4

/-- A timely execution in which the insertions of two threads overlap and the table grows three times, with
both threads migrating. -/
example : ∃ c : Config 2 Shared Loc Op ConcSet.SetRet, ReachTimely (new 1 2 2) c ∧
    c.hist = [.inv 0 (.insert 0 3), .inv 1 (.insert 1 2), .res 1 (.insert 1 2) (.bool true),
      .res 0 (.insert 0 3) (.bool true), .inv 1 (.insert 1 4), .inv 0 (.insert 0 5),
      .res 0 (.insert 0 5) (.bool true), .res 1 (.insert 1 4) (.bool true),
      .inv 0 (.contains 0 2), .res 0 (.contains 0 2) (.bool true),
      .inv 1 (.insert 1 3), .res 1 (.insert 1 3) (.bool false)] ∧ c.sh.tabs.length = 4 := by
  refine execT_hist (l := [.call 0 (.insert 0 3), .run 0, .run 0, .run 0, .call 1 (.insert 1 2)] ++
    List.replicate 5 (.run 1) ++ [.run 0, .run 0, .call 1 (.insert 1 4), .call 0 (.insert 0 5)] ++
    (List.replicate 48 [.run 0, .run 1]).flatten ++
    [.call 0 (.contains 0 2)] ++ List.replicate 2 (.run 0) ++
    [.call 1 (.insert 1 3)] ++ List.replicate 36 (.run 1)) ?_
  decide +kernel

/-- Two insertions one after the other with growth, and a lookup that overlaps the second one. -/
example : ∃ c : Config 2 Shared Loc Op ConcSet.SetRet, ReachSerial (new 1 2 2) c ∧
    c.hist = [.inv 1 (.insert 1 2), .res 1 (.insert 1 2) (.bool true),
      .inv 1 (.insert 1 4), .inv 0 (.contains 0 2), .res 1 (.insert 1 4) (.bool true),
      .res 0 (.contains 0 2) (.bool true)] ∧ c.sh.tabs.length = 2 := by
  refine execS_hist (l := [.call 1 (.insert 1 2)] ++
      List.replicate 5 (.run 1) ++ [.call 1 (.insert 1 4)] ++ List.replicate 10 (.run 1) ++
      [.call 0 (.contains 0 2), .run 0] ++ List.replicate 13 (.run 1) ++ List.replicate 1 (.run 0)) ?_
  decide +kernel

/-- Two overlapping insertions into a table that is large enough. -/
example : ∃ c : Config 2 Shared Loc Op ConcSet.SetRet, ReachExclusive (new 1 4 2) c ∧
    c.hist = [.inv 0 (.insert 0 3), .inv 1 (.insert 1 2), .res 0 (.insert 0 3) (.bool true),
      .res 1 (.insert 1 2) (.bool true), .inv 1 (.contains 1 3),
      .res 1 (.contains 1 3) (.bool true)] ∧ c.sh.tabs.length = 1 := by
  refine execE_hist (l := [.call 0 (.insert 0 3), .call 1 (.insert 1 2)] ++
    (List.replicate 5 [.run 0, .run 1]).flatten ++ [.call 1 (.contains 1 3)] ++
    List.replicate 2 (.run 1)) ?_
  decide +kernel

end Growing
end Verif
