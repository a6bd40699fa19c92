import Verif.Lemmas.Migrate

/-!
# Properties of the cooperative migration: C16
-/
namespace Verif
namespace Migrate
open Conc

/-- The executions considered: any number `n` of helper threads migrate the table `old` (which is not
written meanwhile) into a new table of twice the size, in any interleaving. -/
def Execution (a : Nat) (old : List Nat) {n : Nat} (c : Config n Shared Loc Unit Unit) : Prop :=
  Reach obj (fun _ => True) (init a old) c

theorem exec_inv {a : Nat} {old : List Nat} {n : Nat} {c : Config n Shared Loc Unit Unit}
    (ho : old ≠ []) (h : Execution a old c) : ∃ p, MInv a p old c := by
  have : 0 < old.length := List.length_pos_iff.2 ho
  obtain ⟨p, hp⟩ := nextPow2_isPow (show 0 < 2 * old.length by omega)
  exact ⟨p, reach_inv hp h⟩

/-- **C16.** At every moment no slot of the old table has been read twice, all slots read are slots
of the old table, and only keys of the old table are in the new one. -/
theorem C16_at_most_once (a : Nat) (old : List Nat) (ho : old ≠ []) (n : Nat)
    (c : Config n Shared Loc Unit Unit) (h : Execution a old c) :
    c.sh.copied.Nodup ∧ (∀ j ∈ c.sh.copied, j < old.length) ∧
    (∀ k ∈ c.sh.new.arr, k ≠ 0 → k ∈ old) ∧
    (c.sh.new.arr.filter (fun x => decide (x ≠ 0))).Nodup := by
  obtain ⟨p, hi⟩ := exec_inv ho h
  refine ⟨?_, ?_, hi.sub, ?_⟩
  · rw [List.nodup_iff_count_le_one]
    intro j
    have := hi.part j
    split at this <;> omega
  · intro j hj
    have := hi.part j
    have := List.count_pos_iff.2 hj
    split at * <;> omega
  · have := hi.path.nodup
    convert this using 2
    funext x
    by_cases hx : x = 0 <;> simp [hx]

/-- **C16.** As soon as one helper has finished (left the wait loop), every slot of the old table has
been read exactly once, and the new table contains exactly the keys of the old one. -/
theorem C16_complete (a : Nat) (old : List Nat) (ho : old ≠ []) (n : Nat)
    (c : Config n Shared Loc Unit Unit) (h : Execution a old c) (t : Fin n)
    (ht : Ev.res t () () ∈ c.hist) :
    c.sh.copied.Perm (List.range old.length) ∧
    ∀ k, k ≠ 0 → (k ∈ c.sh.new.arr ↔ k ∈ old) := by
  obtain ⟨p, hi⟩ := exec_inv ho h
  exact (hi.ret t ht).2

/-- **C16.** When all helpers have finished, the item counter of the new table is the number of its
keys. -/
theorem C16_items (a : Nat) (old : List Nat) (ho : old ≠ []) (n : Nat)
    (c : Config n Shared Loc Unit Unit) (h : Execution a old c) (hq : c.quiescent) :
    c.sh.new.items = (c.sh.new.arr.filter (fun x => decide (x ≠ 0))).length := by
  obtain ⟨p, hi⟩ := exec_inv ho h
  have h0 : Conc.cnt pend c.th = 0 := cnt_eq_zero (fun t => by rw [hq t]; rfl)
  have := hi.cntI
  rw [← List.countP_eq_length_filter]
  rw [h0, Nat.add_zero] at this
  rw [this]
  unfold occ
  congr 1
  funext x
  by_cases hx : x = 0 <;> simp [hx]

/-- **C16.** The migration has no undefined behaviour. -/
theorem C16_no_undefined (a : Nat) (old : List Nat) (ho : old ≠ []) (n : Nat)
    (c : Config n Shared Loc Unit Unit) (h : Execution a old c) : ¬ c.undef obj := by
  obtain ⟨p, hi⟩ := exec_inv ho h
  rintro ⟨t, A, hA, hn⟩
  obtain ⟨s', out, hst, _⟩ := step_cases hi.len (hi.loc t A hA)
  rw [show obj.step c.sh A.loc = step c.sh A.loc from rfl, hst] at hn
  cases hn

/-- An execution that meets the hypotheses: one helper copies the only block while a second helper
waits for it; the second one returns first. -/
example : ∃ c : Config 2 Shared Loc Unit Unit, Execution 5 [0, 3] c ∧
    c.hist = [.inv 0 (), .inv 1 (), .res 1 () ()] := by
  have hc : nextPow2 4 = 4 := nextPow2_pow 2
  exact exec_hist (ok := fun _ => true) (ok' := fun _ => True) (fun _ _ => trivial)
    (l := [.call 0 (), .call 1 (), .run 0, .run 1, .run 0, .run 1, .run 1, .run 0, .run 0, .run 0,
      .run 0, .run 1, .run 0, .run 0, .run 0, .run 1]) (by
      simp only [init, ConcSet.new, List.length_cons, List.length_nil]
      rw [hc]
      decide)

end Migrate
end Verif
