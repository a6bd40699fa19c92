import Verif.Lemmas.MigrateMap

/-!
# Properties of the cooperative migration of a map: C106
-/
namespace Verif
namespace MigrateMap
open Conc

/-- The executions considered: any number `n` of helper threads migrate the map with the given
keys and values (which is not written meanwhile) into a new one of twice the capacity, in any
interleaving. -/
def Execution (a : Nat) (keys vals : List Nat) {n : Nat} (c : Config n Shared Loc Unit Unit) : Prop :=
  Reach obj (fun _ => True) (init a keys vals) c

/-- The pairs of a table: those of the slots whose key is not zero. -/
def pairs {β : Type} (keys : List Nat) (vals : List β) : List (Nat × β) :=
  (keys.zip vals).filter (fun s => decide (s.1 ≠ 0))

theorem exec_inv {a : Nat} {keys vals : List Nat} {n : Nat} {c : Config n Shared Loc Unit Unit}
    (ho : keys ≠ []) (hl : vals.length = keys.length) (h : Execution a keys vals c) :
    ∃ p, 2 * keys.length ≤ 2 ^ p ∧ MInv a p keys vals c := by
  have hpos : 0 < keys.length := List.length_pos_iff.2 ho
  obtain ⟨p, hp⟩ := nextPow2_isPow (show 0 < 2 * keys.length by omega)
  have hge : 2 * keys.length ≤ 2 ^ p := by rw [← hp]; exact le_nextPow2 _
  exact ⟨p, hge, reach_inv hl hp hge h⟩

/-- **C106.** At every moment no slot of the old table has been read twice, no key is in two slots of
the new table, and every value in the new table is stored with its key in the old one. -/
theorem C106_at_most_once (a : Nat) (keys vals : List Nat) (ho : keys ≠ [])
    (hl : vals.length = keys.length) (n : Nat) (c : Config n Shared Loc Unit Unit)
    (h : Execution a keys vals c) :
    c.sh.copied.Nodup ∧ (∀ j ∈ c.sh.copied, j < keys.length) ∧
    (c.sh.new.keys.filter (fun k => decide (k ≠ 0))).Nodup ∧
    ∀ i v : Nat, c.sh.new.vals[i]? = some (some v) →
      ∃ k, c.sh.new.keys[i]? = some k ∧ k ≠ 0 ∧ (k, v) ∈ keys.zip vals := by
  obtain ⟨p, _, hi⟩ := exec_inv ho hl h
  obtain ⟨d, hd⟩ := hi.sim
  have hdi := ConcMap.reach_inv hd.reach
  refine ⟨hi.nodup, hi.lt, ?_, fun i v hv => ?_⟩
  · rw [← hd.sh]
    have := hdi.path.nodup
    convert this using 2
    funext x
    by_cases hx : x = 0 <;> simp [hx]
  · rw [← hd.sh] at hv ⊢
    obtain ⟨k, h1, h2, t, h3⟩ := hdi.vals i v hv
    obtain ⟨k', v', j, h4, h5, h6⟩ := hd.inv t _ h3
    injection h4 with h4 h4'
    subst h4 h4'
    exact ⟨k, h1, h2, List.mem_of_getElem? (List.getElem?_zip_eq_some.2 ⟨h5, h6⟩)⟩

/-- **C106.** As soon as one helper has finished (left the wait loop), every slot of the old table has
been read exactly once and the new table holds exactly the pairs of the old one (whose keys are
different), each once; its item counter is their number. In particular no pair was rejected for want of
space. -/
theorem C106_complete (a : Nat) (keys vals : List Nat) (ho : keys ≠ [])
    (hl : vals.length = keys.length) (hnd : (keys.filter (fun k => decide (k ≠ 0))).Nodup) (n : Nat) (c : Config n Shared Loc Unit Unit)
    (h : Execution a keys vals c) (t : Fin n) (ht : Ev.res t () () ∈ c.hist) :
    c.sh.copied.Perm (List.range keys.length) ∧
    (pairs c.sh.new.keys c.sh.new.vals).Perm ((pairs keys vals).map (fun q => (q.1, some q.2))) ∧
    c.sh.new.items = (pairs keys vals).length := by
  obtain ⟨p, _, hi⟩ := exec_inv ho hl h
  obtain ⟨h1, h2⟩ := hi.ret t ht
  exact complete hl hnd hi h1 h2

/-- **C106.** The migration has no undefined behaviour. -/
theorem C106_no_undefined (a : Nat) (keys vals : List Nat) (ho : keys ≠ [])
    (hl : vals.length = keys.length) (n : Nat) (c : Config n Shared Loc Unit Unit)
    (h : Execution a keys vals c) : ¬ c.undef obj := by
  obtain ⟨p, _, hi⟩ := exec_inv ho hl h
  obtain ⟨d, hd⟩ := hi.sim
  have hdi := ConcMap.reach_inv hd.reach
  rintro ⟨t, A, hA, hn⟩
  have hloc := hi.loc t A hA
  obtain ⟨op, l, st⟩ := A
  replace hn : step c.sh l = none := hn
  cases l with
  | enter => cases hn
  | leave => cases hn
  | claim => simp only [step] at hn; split at hn <;> cases hn
  | wait => simp only [step] at hn; split at hn <;> cases hn
  | slot i e =>
    have hlt : i < c.sh.okeys.length := Nat.lt_of_lt_of_le hloc.1 hloc.2
    simp only [step, List.getElem?_eq_getElem hlt] at hn
    cases hn
  | val k i e =>
    have hlt : i < c.sh.ovals.length := by
      rw [hi.hv, hl, ← hi.hk]
      exact Nat.lt_of_lt_of_le hloc.1 hloc.2.1
    simp only [step, List.getElem?_eq_getElem hlt] at hn
    split at hn <;> cases hn
  | ins l i e =>
    obtain ⟨B, hB, hBl⟩ := isSome_of_proj hd (t := t) (l := l) (by rw [hA]; rfl)
    have hLB := hdi.loc t B hB
    rw [← hdi.ha] at hLB
    rcases ConcMap.step_cases hdi.len (by rw [hdi.ha]; exact hdi.path) hdi.vlen hLB with
      ⟨s', out, hst, _⟩ | ⟨_, k, i, _, hop, _⟩
    · rw [hd.sh, hBl] at hst
      simp only [step, hst] at hn
      cases out <;> cases hn
    · obtain ⟨k', v', hop'⟩ := hd.ops t B hB
      rw [hop'] at hop
      cases hop

/-- An execution that meets the hypotheses: the old table is full, it holds the pairs `(3, 7)` and
`(6, 9)`; one helper copies both while a second one waits for it and returns first. -/
example : ∃ c : Config 2 Shared Loc Unit Unit, Execution 5 [3, 6] [7, 9] c ∧
    c.hist = [.inv 0 (), .inv 1 (), .res 1 () ()] := by
  have hc : nextPow2 4 = 4 := nextPow2_pow 2
  exact exec_hist (ok := fun _ => true) (ok' := fun _ => True) (fun _ _ => trivial)
    (l := [.call 0 (), .call 1 (), .run 0, .run 1, .run 0, .run 1, .run 1] ++
      List.replicate 16 (.run 0) ++ [.run 1]) (by
      simp only [init, ConcMap.new, List.length_cons, List.length_nil]
      rw [hc]
      decide)

end MigrateMap
end Verif
