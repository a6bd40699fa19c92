import Verif.Lemmas.MigrateMM
import Mathlib.Algebra.Order.BigOperators.Group.Finset

/-!
# Properties of the cooperative migration of a multimap: C103
-/
namespace Verif
namespace MigrateMM
open Conc

/-- The executions considered: any number `n` of helper threads migrate the multimap with the given
keys and values (which is not written meanwhile) into a new one of twice the capacity, in any
interleaving. -/
def Execution (a : Nat) (keys vals : List Nat) {n : Nat} (c : Config n Shared Loc Unit Unit) : Prop :=
  Reach obj (fun _ => True) (init a keys vals) c

/-- The pairs of a table: those of the slots whose key is not zero. -/
def pairs {β : Type} (keys : List Nat) (vals : List β) : List (Nat × β) :=
  (keys.zip vals).filter (fun s => decide (s.1 ≠ 0))

theorem exec_inv {a : Nat} {keys vals : List Nat} {n : Nat} {c : Config n Shared Loc Unit Unit}
    (ho : keys ≠ []) (hl : vals.length = keys.length) (h : Execution a keys vals c) :
    ∃ p, 2 * keys.length ≤ 2 ^ p ∧ MInv a p keys vals c := by
  have hpos : 0 < keys.length := List.length_pos_iff.2 ho
  obtain ⟨p, hp⟩ := nextPow2_isPow (show 0 < 2 * keys.length by omega)
  have hge : 2 * keys.length ≤ 2 ^ p := by rw [← hp]; exact le_nextPow2 _
  exact ⟨p, hge, reach_inv hl hp hge h⟩

/-- **C103.** At every moment no slot of the old table has been read twice, and no pair is stored in
the new table more often than in the old one. -/
theorem C103_at_most_once (a : Nat) (keys vals : List Nat) (ho : keys ≠ [])
    (hl : vals.length = keys.length) (n : Nat) (c : Config n Shared Loc Unit Unit)
    (h : Execution a keys vals c) :
    c.sh.copied.Nodup ∧ (∀ j ∈ c.sh.copied, j < keys.length) ∧
    ∀ k v, k ≠ 0 →
      (c.sh.new.keys.zip c.sh.new.vals).count (k, some v) ≤ (keys.zip vals).count (k, v) := by
  obtain ⟨p, _, hi⟩ := exec_inv ho hl h
  refine ⟨hi.nodup, hi.lt, fun k v hk => ?_⟩
  obtain ⟨d, hd⟩ := hi.sim
  have hdi := ConcMultiMap.reach_inv hd.reach
  rw [← hd.sh, hdi.stored]
  have h1 := hd.cnt (k, v) hk
  have h2 : Conc.cnt (ConcMultiMap.isIncr (k, some v)) d.th ≤ Conc.cnt (carry (k, v)) d.th := by
    refine Finset.sum_le_sum (fun t _ => ?_)
    by_cases hx : ConcMultiMap.isIncr (k, some v) (d.th t) = true
    · rw [if_pos hx, if_pos]
      cases hA : d.th t with
      | none => rw [hA] at hx; cases hx
      | some A =>
        rw [hA] at hx
        have hloc := hdi.loc t A hA
        obtain ⟨op, l, st⟩ := A
        cases l with
        | incr k' v' =>
          have hop := hloc.1
          simp only [ConcMultiMap.isIncr, decide_eq_true_eq, Prod.mk.injEq,
            Option.some.injEq] at hx
          simp only at hop
          simp [carry, hop, hx]
        | _ => cases hx
    · rw [if_neg hx]
      exact Nat.zero_le _
  have h3 : c.sh.copied.countP (holds keys vals (k, v)) ≤
      (List.range keys.length).countP (holds keys vals (k, v)) :=
    List.Subperm.countP_le _ (hi.nodup.subperm (fun j hj => List.mem_range.2 (hi.lt j hj)))
  have h4 : (List.range keys.length).countP (holds keys vals (k, v)) =
      (keys.zip vals).count (k, v) := by
    rw [← zip_range hl, List.count_eq_countP, List.countP_map]
    refine List.countP_congr (fun j hj => ?_)
    have hj := List.mem_range.1 hj
    simp only [holds, Function.comp]
    rw [List.getElem?_eq_getElem hj, List.getElem?_eq_getElem (l := vals) (i := j) (by omega)]
    simp
  simp only at h1
  omega

/-- **C103.** As soon as one helper has finished (left the wait loop), every slot of the old table has
been read exactly once and the new table holds exactly the pairs of the old one, each as often as
there; its item counter is their number. In particular no pair was rejected for want of space. -/
theorem C103_complete (a : Nat) (keys vals : List Nat) (ho : keys ≠ [])
    (hl : vals.length = keys.length) (n : Nat) (c : Config n Shared Loc Unit Unit)
    (h : Execution a keys vals c) (t : Fin n) (ht : Ev.res t () () ∈ c.hist) :
    c.sh.copied.Perm (List.range keys.length) ∧
    (pairs c.sh.new.keys c.sh.new.vals).Perm ((pairs keys vals).map (fun q => (q.1, some q.2))) ∧
    c.sh.new.items = (pairs keys vals).length := by
  obtain ⟨p, _, hi⟩ := exec_inv ho hl h
  obtain ⟨h1, h2⟩ := hi.ret t ht
  exact complete hl hi h1 h2

/-- **C103.** The migration has no undefined behaviour. -/
theorem C103_no_undefined (a : Nat) (keys vals : List Nat) (ho : keys ≠ [])
    (hl : vals.length = keys.length) (n : Nat) (c : Config n Shared Loc Unit Unit)
    (h : Execution a keys vals c) : ¬ c.undef obj := by
  obtain ⟨p, _, hi⟩ := exec_inv ho hl h
  obtain ⟨d, hd⟩ := hi.sim
  have hdi := ConcMultiMap.reach_inv hd.reach
  rintro ⟨t, A, hA, hn⟩
  have hloc := hi.loc t A hA
  obtain ⟨op, l, st⟩ := A
  replace hn : step c.sh l = none := hn
  cases l with
  | enter => cases hn
  | leave => cases hn
  | claim => simp only [step] at hn; split at hn <;> cases hn
  | wait => simp only [step] at hn; split at hn <;> cases hn
  | slot i e =>
    have hlt : i < c.sh.okeys.length := Nat.lt_of_lt_of_le hloc.1 hloc.2
    simp only [step, List.getElem?_eq_getElem hlt] at hn
    cases hn
  | val k i e =>
    have hlt : i < c.sh.ovals.length := by
      rw [hi.hv, hl, ← hi.hk]
      exact Nat.lt_of_lt_of_le hloc.1 hloc.2.1
    simp only [step, List.getElem?_eq_getElem hlt] at hn
    split at hn <;> cases hn
  | ins l i e =>
    obtain ⟨B, hB, hBl⟩ := isSome_of_proj hd (t := t) (l := l) (by rw [hA]; rfl)
    have hLB := hdi.loc t B hB
    rw [← hdi.ha] at hLB
    obtain ⟨s', out, hst, _⟩ := ConcMultiMap.step_cases hdi.len
      (by rw [hdi.ha]; exact hdi.path) hdi.vlen hLB
    rw [hd.sh, hBl] at hst
    simp only [step, hst] at hn
    cases out <;> cases hn

/-- An execution that meets the hypotheses: the old table is full, it holds the pairs `(3, 7)` and
`(3, 9)`; one helper copies both while a second one waits for it and returns first. -/
example : ∃ c : Config 2 Shared Loc Unit Unit, Execution 5 [3, 3] [7, 9] c ∧
    c.hist = [.inv 0 (), .inv 1 (), .res 1 () ()] := by
  have hc : nextPow2 4 = 4 := nextPow2_pow 2
  exact exec_hist (ok := fun _ => true) (ok' := fun _ => True) (fun _ _ => trivial)
    (l := [.call 0 (), .call 1 (), .run 0, .run 1, .run 0, .run 1, .run 1] ++
      List.replicate 17 (.run 0) ++ [.run 1]) (by
      simp only [init, ConcMultiMap.new, List.length_cons, List.length_nil]
      rw [hc]
      decide)

end MigrateMM
end Verif
