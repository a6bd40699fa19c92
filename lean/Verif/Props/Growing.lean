import Verif.Lemmas.Growing

/-!
# Properties of the growing concurrent hash set: C15
-/
namespace Verif
namespace Growing
open Conc

/-- **C15 is violated.** Thread 0 prepares to insert key 3 into the current table. Thread 1 inserts
2 and 4, which makes the table grow. Thread 0 then completes its insertion into the old table and
reports success, but the key is not found afterwards, by either handle. -/
theorem C15_lost_insert_violated : ∃ c : Config 2 Shared Loc Op ConcSet.SetRet,
    Reach obj (fun _ => True) (new 1 2 2) c ∧
    c.hist = [.inv 0 (.insert 0 3), .inv 1 (.insert 1 2), .res 1 (.insert 1 2) (.bool true),
      .inv 1 (.insert 1 4), .res 1 (.insert 1 4) (.bool true), .res 0 (.insert 0 3) (.bool true),
      .inv 1 (.contains 1 3), .res 1 (.contains 1 3) (.bool false),
      .inv 0 (.contains 0 3), .res 0 (.contains 0 3) (.bool false)] := by
  refine exec_hist (ok := fun _ => true) (ok' := fun _ => True) (fun _ _ => trivial)
    (l := [.call 0 (.insert 0 3), .run 0, .run 0, .run 0, .call 1 (.insert 1 2)] ++
      List.replicate 5 (.run 1) ++ [.call 1 (.insert 1 4)] ++ List.replicate 23 (.run 1) ++
      [.run 0, .run 0, .call 1 (.contains 1 3), .run 1, .run 1, .call 0 (.contains 0 3),
       .run 0, .run 0, .run 0, .run 0]) ?_
  decide +kernel

/-- **C15 (partial).** In every execution, with any number of threads and handles and any number of
growth phases, a `contains(k)` answers true only if `insert(k)` was called before.
Missing: the converse, that acknowledged insertions are found, is false
(`C15_lost_insert_violated`). -/
theorem C15_no_phantom_partial (a size m n : Nat) (c : Config n Shared Loc Op ConcSet.SetRet)
    (h : Reach obj (fun _ => True) (new a size m) c) (t : Fin n) (i k : Nat) (hk : k ≠ 0)
    (h1 h2 : List (Ev n Op ConcSet.SetRet))
    (he : c.hist = h1 ++ .res t (.contains i k) (.bool true) :: h2) :
    ∃ t' i', Ev.inv t' (.insert i' k) ∈ h1 :=
  (reach_inv h).ret t i k h1 h2 he hk

theorem step_forward {s s' : Shared} {l : Loc} {out : Loc ⊕ ConcSet.SetRet}
    (h : step s l = some (s', out)) : s.tr ≤ s'.tr ∧ s.tabs.length ≤ s'.tabs.length := by
  cases l <;> simp only [step] at h
  all_goals repeat' (first | (split at h) | (cases h; done))
  all_goals first
    | (simp only [Option.some.injEq, Prod.mk.injEq] at h
       obtain ⟨rfl, _⟩ := h
       simp only [List.length_set, List.length_append, List.length_cons, List.length_nil]
       first | omega | (split <;> omega))
    | (cases h; exact ⟨Nat.le_refl _, Nat.le_refl _⟩)
    | cases h

/-- **C15 (partial).** The table that handles switch to only ever moves forward: no step of any thread
replaces the published table by an older one or discards a table. -/
theorem C15_table_forward_partial {n : Nat} {ok : Op → Prop} (c c' : Config n Shared Loc Op ConcSet.SetRet)
    (h : Step obj ok c c') :
    c.sh.tr ≤ c'.sh.tr ∧ c.sh.tabs.length ≤ c'.sh.tabs.length := by
  cases h with
  | call => exact ⟨Nat.le_refl _, Nat.le_refl _⟩
  | internal t a s' l' ha hs => exact step_forward hs
  | ret t a s' r ha hs => exact step_forward hs

/-- The hypotheses are met by an execution in which a key inserted before a growth phase is found
by another thread's handle after it. -/
example : ∃ c : Config 2 Shared Loc Op ConcSet.SetRet,
    Reach obj (fun _ => True) (new 1 2 2) c ∧
    c.hist = [.inv 1 (.insert 1 2), .res 1 (.insert 1 2) (.bool true),
      .inv 1 (.insert 1 4), .res 1 (.insert 1 4) (.bool true),
      .inv 0 (.contains 0 2), .res 0 (.contains 0 2) (.bool true)] := by
  refine exec_hist (ok := fun _ => true) (ok' := fun _ => True) (fun _ _ => trivial)
    (l := [.call 1 (.insert 1 2)] ++
      List.replicate 5 (.run 1) ++ [.call 1 (.insert 1 4)] ++ List.replicate 23 (.run 1) ++
      [.call 0 (.contains 0 2), .run 0, .run 0, .run 0, .run 0]) ?_
  decide +kernel

end Growing
end Verif
