import Verif.Lemmas.ConcSet

/-!
# Properties of the lock-free hash set: C10, C11, C12
-/
namespace Verif
namespace ConcSet
open Conc

/-- The executions considered: any number `n` of threads, calling `insert` and `contains` with
non-zero keys, on a set constructed with some initial size, in any interleaving. -/
def Execution (growing : Bool) (a size : Nat) {n : Nat} (c : Config n Shared Loc SetOp SetRet) : Prop :=
  Reach (obj growing a) Ok (new a size) c

theorem exec_pow {growing : Bool} {a size n : Nat} {c : Config n Shared Loc SetOp SetRet}
    (hs : 1 ≤ size) (h : Execution growing a size c) :
    ∃ p, nextPow2 size = 2 ^ p ∧
      Reach (obj growing a) Ok ⟨List.replicate (2 ^ p) 0, 0, a⟩ c := by
  obtain ⟨p, hp⟩ := nextPow2_isPow hs
  refine ⟨p, hp, ?_⟩
  have : new a size = ⟨List.replicate (2 ^ p) 0, 0, a⟩ := by unfold new; rw [hp]
  rw [← this]
  exact h

/-- **C10, C12.** The history of every execution is linearizable with respect to the sequential set
specification: every operation takes effect at one point between its call and its return. -/
theorem C10_linearizable (growing : Bool) (a size n : Nat) (hs : 1 ≤ size)
    (c : Config n Shared Loc SetOp SetRet) (h : Execution growing a size c) :
    Linearizable (setSpec growing (nextPow2 size)) ∅ c.hist := by
  obtain ⟨p, hp, hr⟩ := exec_pow hs h
  rw [hp]
  exact linearizable hr

/-- **C10.** When no operation is running: each key has been inserted successfully at most once, it
is in the table exactly if some insertion of it returned true, no non-zero key occupies two slots and
the item counter is the number of stored keys. -/
theorem C10_quiescent (growing : Bool) (a size n : Nat) (hs : 1 ≤ size)
    (c : Config n Shared Loc SetOp SetRet) (h : Execution growing a size c) (hq : c.quiescent) :
    (∀ k, k ≠ 0 → wins k c.hist = if k ∈ c.sh.arr then 1 else 0) ∧
    (c.sh.arr.filter (fun x => decide (x ≠ 0))).Nodup ∧
    c.sh.items = (c.sh.arr.filter (fun x => decide (x ≠ 0))).length := by
  obtain ⟨p, hp, hr⟩ := exec_pow hs h
  have hi := reach_inv hr
  refine ⟨?_, ?_, ?_⟩
  · intro k hk
    have h0 : Conc.cnt (isIncrK k) c.th = 0 := cnt_eq_zero (fun t => by rw [hq t]; rfl)
    split
    · rename_i hm
      have := hi.win k hk hm
      omega
    · rename_i hm
      have := hi.nowin k hm
      omega
  · have := hi.path.nodup
    convert this using 2
    funext x
    by_cases hx : x = 0 <;> simp [hx]
  · have h0 : Conc.cnt isIncr c.th = 0 := cnt_eq_zero (fun t => by rw [hq t]; rfl)
    have := hi.cnt
    rw [← List.countP_eq_length_filter]
    rw [h0, Nat.add_zero] at this
    rw [this]
    unfold occ
    congr 1
    funext x
    by_cases hx : x = 0 <;> simp [hx]

/-- **C10.** At any time, a key for which some insertion has returned (true or false) is in the
table. -/
theorem C10_returned_present (growing : Bool) (a size n : Nat) (hs : 1 ≤ size)
    (c : Config n Shared Loc SetOp SetRet) (h : Execution growing a size c) (t : Fin n) (k : Nat)
    (b : Bool) (he : Ev.res t (.insert k) (.bool b) ∈ c.hist) : k ∈ c.sh.arr := by
  obtain ⟨p, hp, hr⟩ := exec_pow hs h
  exact ((reach_inv hr).lose t k b he).2

/-- **C10.** No execution runs into undefined behaviour. -/
theorem C10_no_undefined (growing : Bool) (a size n : Nat) (hs : 1 ≤ size)
    (c : Config n Shared Loc SetOp SetRet) (h : Execution growing a size c) :
    ¬ c.undef (obj growing a) := by
  obtain ⟨p, hp, hr⟩ := exec_pow hs h
  have hi := reach_inv hr
  rintro ⟨t, A, hA, hn⟩
  have hloc := hi.loc t A hA
  rw [← hi.ha] at hloc
  obtain ⟨s', out, hst, _⟩ := step_cases growing hi.len hloc
  have : step growing c.sh A.loc = none := hn
  rw [hst] at this
  cases this

/-- **C12.** A `contains(k)` that is called after some `insert(k)` has returned true or false returns
true. (`h3` is the part of the history between call and return of the `contains`.) -/
theorem C12_contains_after_insert (growing : Bool) (a size n : Nat) (hs : 1 ≤ size)
    (c : Config n Shared Loc SetOp SetRet) (h : Execution growing a size c) (t t' : Fin n) (k : Nat)
    (b : Bool) (r : SetRet) (h1 h2 h3 h4 : List (Ev n SetOp SetRet))
    (he : c.hist = h1 ++ [.res t (.insert k) (.bool b)] ++ h2 ++ [.inv t' (.contains k)] ++ h3 ++
      [.res t' (.contains k) r] ++ h4)
    (h3t : ∀ x ∈ h3, thread x ≠ t') : r = .bool true := by
  obtain ⟨e, st, s, hl, hv⟩ := C10_linearizable growing a size n hs c h
  exact legal_late_res hl t t' k b r h1 h2 h3 h4 (hv.trans he) h3t

/-- **C11 (partial).** If all threads together use keys of a set `K` with fewer elements than the
table has slots, no insertion into a fixed-size set ever reports Full.
Missing: for exactly as many keys as slots the claim is false (`C11_full_violated`). -/
theorem C11_not_full_partial (a size n : Nat) (hs : 1 ≤ size) (K : Finset Nat)
    (hK : K.card < nextPow2 size) (c : Config n Shared Loc SetOp SetRet)
    (h : Reach (obj false a) (OkIn K) (new a size) c) (t : Fin n) (op : SetOp) :
    Ev.res t op .full ∉ c.hist := by
  obtain ⟨p, hp⟩ := nextPow2_isPow hs
  have hnew : new a size = ⟨List.replicate (2 ^ p) 0, 0, a⟩ := by unfold new; rw [hp]
  rw [hnew] at h
  rw [hp] at hK
  induction h with
  | init => simp [Config.init]
  | @step c c' hc hst ih =>
    have hinv : SInv p a c := reach_inv (reach_mono (fun op h => h.1) hc)
    have hsub := reach_sub hc
    cases hst with
    | call u op' h1 h2 => simpa using ih
    | internal u A s' l' h1 h2 => exact ih
    | ret u A s' r h1 h2 =>
      intro hm
      rcases List.mem_append.1 hm with hm | hm
      · exact ih hm
      · simp only [List.mem_singleton, Ev.res.injEq] at hm
        obtain ⟨_, _, rfl⟩ := hm
        have hloc := hinv.loc u A h1
        rw [← hinv.ha] at hloc
        obtain ⟨s1, out, hs1, hcase⟩ := step_cases false hinv.len hloc
        rw [show (obj false a).step c.sh A.loc = step false c.sh A.loc from rfl, hs1] at h2
        simp only [Option.some.injEq, Prod.mk.injEq] at h2
        obtain ⟨rfl, rfl⟩ := h2
        cases hcase with
        | fullGrow k hg _ => cases hg
        | fullFix k hg hop hit =>
          have h1 := hinv.cnt
          have h2 := keysOf_card hinv
          have h3 : keysOf c.sh ⊆ K := by
            intro x hx
            have := mem_keysOf.1 hx
            exact hsub.1 x this.2 this.1
          have h4 := Finset.card_le_card h3
          have h5 := hinv.len
          omega

/-- **C11.** As long as the keys fit into the table, every operation of a fixed-size set completes
within `2 * capacity + 2` steps of its own thread, whatever the other threads do (the `steps`
counted here do not yet include the step that returns). -/
theorem C11_wait_free (a size n : Nat) (hs : 1 ≤ size) (K : Finset Nat)
    (hK : K.card ≤ nextPow2 size) (c : Config n Shared Loc SetOp SetRet)
    (h : Reach (obj false a) (OkIn K) (new a size) c) (t : Fin n) (A : Active Loc SetOp)
    (hA : c.th t = some A) : A.steps ≤ 2 * nextPow2 size + 1 := by
  obtain ⟨p, hp⟩ := nextPow2_isPow hs
  have hnew : new a size = ⟨List.replicate (2 ^ p) 0, 0, a⟩ := by unfold new; rw [hp]
  rw [hnew] at h
  rw [hp] at hK ⊢
  have hinv : SInv p a c := reach_inv (reach_mono (fun op h => h.1) h)
  have hsub := reach_sub h
  have hkK := hsub.2 t A hA
  have hloc := hinv.loc t A hA
  unfold LocOk at hloc
  cases hl : A.loc with
  | check k => simp only [hl] at hloc; omega
  | probe k idx cols =>
    simp only [hl] at hloc
    obtain ⟨h1, h2, d, h3, h4, h5, h6⟩ := hloc
    rw [h1] at hkK
    have := passed_lt hinv hsub.1 hK hkK h4
    omega
  | cas k i cols =>
    simp only [hl] at hloc
    obtain ⟨h1, h2, d, h3, h4, h5, h6⟩ := hloc
    rw [h1] at hkK
    have := passed_lt hinv hsub.1 hK hkK h4
    omega
  | incr k =>
    simp only [hl] at hloc
    obtain ⟨h1, h2, h3, d, h4, h5, h6⟩ := hloc
    rw [h1] at hkK
    have := passed_lt hinv hsub.1 hK hkK h4
    omega
  | look k idx =>
    simp only [hl] at hloc
    obtain ⟨h1, h2, d, h3, h4, h5⟩ := hloc
    rw [h1] at hkK
    have := passed_lt hinv hsub.1 hK hkK h4
    omega

/-- **C11 is violated when the keys fill the table exactly.** One thread, one key, a table with one
slot: the second insertion of the key reports Full instead of false. -/
theorem C11_full_violated : ∃ c : Config 1 Shared Loc SetOp SetRet,
    Reach (obj false 1) (OkIn {1}) (new 1 1) c ∧ ({1} : Finset Nat).card ≤ nextPow2 1 ∧
    c.hist = [.inv 0 (.insert 1), .res 0 (.insert 1) (.bool true), .inv 0 (.insert 1),
      .res 0 (.insert 1) .full] := by
  have hc : nextPow2 1 = 1 := nextPow2_pow 0
  obtain ⟨c, h1, h2⟩ := exec_hist (o := obj false 1) (ok := fun op => op.key == 1)
    (ok' := OkIn {1}) (s0 := new 1 1)
    (by intro op h; simp at h; simp [OkIn, h])
    (l := [.call 0 (.insert 1), .run 0, .run 0, .run 0, .run 0, .call 0 (.insert 1), .run 0])
    (h := [Ev.inv (0 : Fin 1) (.insert 1), .res 0 (.insert 1) (.bool true), .inv 0 (.insert 1),
      .res 0 (.insert 1) .full]) (by unfold new; rw [hc]; decide)
  exact ⟨c, h1, by simp [hc], h2⟩

/-- An execution that meets the hypotheses: two threads insert the same key, both see the free slot,
one CAS wins; a third operation finds the key afterwards. -/
example : ∃ c : Config 2 Shared Loc SetOp SetRet, Execution false 5 4 c ∧ c.quiescent ∧
    c.hist = [.inv 0 (.insert 3), .inv 1 (.insert 3), .res 0 (.insert 3) (.bool false),
      .res 1 (.insert 3) (.bool true), .inv 0 (.contains 3), .res 0 (.contains 3) (.bool true)] := by
  have hc : nextPow2 4 = 4 := nextPow2_pow 2
  have hx : (exec (obj false 5) (fun op => op.key != 0) (Config.init 2 (new 5 4))
      [.call 0 (.insert 3), .call 1 (.insert 3), .run 0, .run 1, .run 0, .run 1, .run 1, .run 0,
        .run 1, .call 0 (.contains 3), .run 0]).map (fun c => (c.hist, (c.th 0).isNone, (c.th 1).isNone))
      = some ([.inv 0 (.insert 3), .inv 1 (.insert 3), .res 0 (.insert 3) (.bool false),
      .res 1 (.insert 3) (.bool true), .inv 0 (.contains 3), .res 0 (.contains 3) (.bool true)],
        true, true) := by
    unfold new; rw [hc]; decide
  cases he : exec (obj false 5) (fun op => op.key != 0) (Config.init 2 (new 5 4))
      [.call 0 (.insert 3), .call 1 (.insert 3), .run 0, .run 1, .run 0, .run 1, .run 1, .run 0,
        .run 1, .call 0 (.contains 3), .run 0] with
  | none => rw [he] at hx; cases hx
  | some c =>
    rw [he] at hx
    simp only [Option.map_some, Option.some.injEq, Prod.mk.injEq, Option.isNone_iff_eq_none] at hx
    refine ⟨c, reach_mono (by intro op h; simpa [Ok] using h) (exec_reach .init he), ?_, hx.1⟩
    intro t
    match t with
    | 0 => exact hx.2.1
    | 1 => exact hx.2.2

end ConcSet
end Verif
