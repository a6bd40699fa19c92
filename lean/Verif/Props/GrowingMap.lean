import Verif.Lemmas.GrowingMap
import Verif.Lemmas.KernelRfl
import Mathlib.Tactic.FinCases

/-!
# Properties of the growing map: C106
-/
namespace Verif
namespace GrowingMap
open Conc
open ConcMap (MapRet)

/-- The executions considered: any number `n` of threads call `insert(k, v)` with non-zero keys on
`m` handles of a growing map constructed with some initial size, in any interleaving. -/
def Execution (junk : Nat → Nat) (a size m : Nat) {n : Nat} (c : Config n Shared Loc Op MapRet) : Prop :=
  Reach obj (fun o => o.k ≠ 0 ∧ o.h < m) (new junk a size m) c

/-- The keys whose insertion returned true, in order: what `makeGraph` counts. -/
def insertedKeys {n : Nat} : List (Ev n Op MapRet) → List Nat
  | [] => []
  | .res _ o (.bool true) :: h => o.k :: insertedKeys h
  | _ :: h => insertedKeys h

/-- The pairs of a table: those of the slots whose key is not zero. -/
def pairs (s : ConcMap.Shared) : List (Nat × Option Nat) :=
  (s.keys.zip s.vals).filter (fun q => decide (q.1 ≠ 0))

theorem insertedKeys_count {n : Nat} (k : Nat) : ∀ h : List (Ev n Op MapRet),
    (h.map evMap).countP (ConcMap.isWon k) = (insertedKeys h).count k
  | [] => rfl
  | e :: h => by
    have ih := insertedKeys_count k h
    rw [List.map_cons, List.countP_cons, ih]
    cases e with
    | inv t o => simp [insertedKeys, evMap, ConcMap.isWon]
    | res t o r =>
      cases r with
      | full => simp [insertedKeys, evMap, ConcMap.isWon]
      | val v => simp [insertedKeys, evMap, ConcMap.isWon]
      | bool b =>
        cases b
        · simp [insertedKeys, evMap, ConcMap.isWon]
        · simp [insertedKeys, evMap, ConcMap.isWon, List.count_cons]

theorem insertedKeys_ne {n : Nat} {k : Nat} : ∀ {h : List (Ev n Op MapRet)}, k ∈ insertedKeys h →
    ∃ t o, Ev.res t o (.bool true) ∈ h ∧ o.k = k
  | [], hm => by cases hm
  | e :: h, hm => by
    unfold insertedKeys at hm
    split at hm
    · rename_i heq
      cases heq
    · rename_i t o h' heq
      injection heq with h1 h2
      subst h1 h2
      rcases List.mem_cons.1 hm with rfl | hm
      · exact ⟨_, _, List.mem_cons_self .., rfl⟩
      · obtain ⟨t, o, h1, h2⟩ := insertedKeys_ne hm
        exact ⟨t, o, List.mem_cons_of_mem _ h1, h2⟩
    · rename_i heq
      injection heq with h1 h2
      subst h1 h2
      obtain ⟨t, o, h1, h2⟩ := insertedKeys_ne hm
      exact ⟨t, o, List.mem_cons_of_mem _ h1, h2⟩

theorem keys_pairs {p a : Nat} {n : Nat} {d : Config n ConcMap.Shared ConcMap.Loc ConcMap.MapOp MapRet}
    (hi : ConcMap.MInv p a d) :
    (pairs d.sh).map Prod.fst = d.sh.keys.filter (fun k => decide (k ≠ 0)) := by
  unfold pairs
  conv_rhs => rw [show d.sh.keys = (d.sh.keys.zip d.sh.vals).map Prod.fst by
    rw [List.map_fst_zip]; rw [hi.vlen]]
  rw [List.filter_map]
  rfl

theorem keys_nodup {p a : Nat} {n : Nat} {d : Config n ConcMap.Shared ConcMap.Loc ConcMap.MapOp MapRet}
    (hi : ConcMap.MInv p a d) : (d.sh.keys.filter (fun k => decide (k ≠ 0))).Nodup := by
  have := hi.path.nodup
  convert this using 2
  funext x
  by_cases hx : x = 0 <;> simp [hx]

/-- **C106.** As long as fewer different keys have been passed to `insert` than half the number of slots
of the first table, the map does not grow: at every moment there is one table, no key is in two slots,
no key has been acknowledged as new twice, every key whose insertion returned is in the table, and
every value in it was passed to an insertion of that key. -/
theorem C106_no_growth (junk : Nat → Nat) (a size m n : Nat) (hs : 1 ≤ size)
    (c : Config n Shared Loc Op MapRet) (h : Execution junk a size m c)
    (hc : (calledKeys c.hist).toFinset.card < nextPow2 size / 2) :
    ∃ tb, c.sh.tabs = [tb] ∧ ((pairs tb.t).map Prod.fst).Nodup ∧ (insertedKeys c.hist).Nodup ∧
      (∀ t o r, Ev.res t o r ∈ c.hist → o.k ∈ (pairs tb.t).map Prod.fst ∧ ∃ b, r = .bool b) ∧
      (∀ k v, (k, some v) ∈ pairs tb.t → ∃ t o, Ev.inv t o ∈ c.hist ∧ o.k = k ∧ o.v = v) := by
  obtain ⟨p, hp⟩ := nextPow2_isPow hs
  rw [hp] at hc
  obtain ⟨d, hd⟩ := reach_sim hp h hc
  have hdi := ConcMap.reach_inv hd.reach
  have hres : ∀ t o r, Ev.res t o r ∈ c.hist → (∃ b, r = .bool b) := by
    intro t o r he
    cases r with
    | bool b => exact ⟨b, rfl⟩
    | full => exact absurd he (hd.nofull t o)
    | val v =>
      exfalso
      have : ∀ e ∈ c.hist, ∀ t o v, e ≠ Ev.res t o (.val v) := by
        have := ret_bool h
        intro e he t o v hev
        subst hev
        exact this t o v he
      exact this _ he t o v rfl
  have hk : ∀ t o r, Ev.res t o r ∈ c.hist → o.k ≠ 0 ∧ o.k ∈ d.sh.keys := by
    intro t o r he
    obtain ⟨b, rfl⟩ := hres t o r he
    have hm : evMap (.res t o (.bool b)) ∈ d.hist := by
      rw [hd.hist]
      exact List.mem_map_of_mem he
    exact hdi.lose t o.k o.v b hm
  refine ⟨⟨d.sh, 0⟩, by rw [hd.sh], ?_, ?_, fun t o r he => ⟨?_, hres t o r he⟩, fun k v hkv => ?_⟩
  · rw [keys_pairs hdi]
    exact keys_nodup hdi
  · rw [List.nodup_iff_count_le_one]
    intro k
    by_cases hk0 : k = 0
    · rw [List.count_eq_zero_of_not_mem]
      · omega
      · intro hm
        obtain ⟨t, o, h1, h2⟩ := insertedKeys_ne hm
        exact (hk t o _ h1).1 (h2.trans hk0)
    · have h1 := ConcMap.won_eq hk0 hd.reach
      rw [hd.hist, insertedKeys_count] at h1
      have h2 := List.nodup_iff_count_le_one.1 (keys_nodup hdi) k
      rw [List.count_filter (by simpa using hk0)] at h2
      omega
  · rw [keys_pairs hdi]
    exact List.mem_filter.2 ⟨(hk t o r he).2, by simpa using (hk t o r he).1⟩
  · obtain ⟨i, hi'⟩ := List.mem_iff_getElem?.1 (List.mem_filter.1 hkv).1
    obtain ⟨h1, h2⟩ := List.getElem?_zip_eq_some.1 hi'
    obtain ⟨k', h3, h4, t, h5⟩ := hdi.vals i v h2
    rw [h1] at h3
    injection h3 with h3
    replace h3 : k = k' := h3
    subst h3
    rw [hd.hist] at h5
    obtain ⟨e, he, hee⟩ := List.mem_map.1 h5
    cases e with
    | inv u o =>
      simp only [evMap, Ev.inv.injEq, ConcMap.MapOp.insert.injEq] at hee
      exact ⟨u, o, he, hee.2.1, hee.2.2⟩
    | res u o r => cases hee

/-- **C106.** If moreover no insertion is running, the keys in the table are exactly those that have been
acknowledged as new, each once, and exactly those that have been passed to `insert`; every key has a
value that was passed to one of its insertions. So counting the acknowledgements per vertex gives the
number of entries that the second pass of `makeGraph` finds for it. -/
theorem C106_quiescent (junk : Nat → Nat) (a size m n : Nat) (hs : 1 ≤ size)
    (c : Config n Shared Loc Op MapRet) (h : Execution junk a size m c)
    (hc : (calledKeys c.hist).toFinset.card < nextPow2 size / 2) (hq : c.quiescent) :
    ∃ tb, c.sh.tabs = [tb] ∧ ((pairs tb.t).map Prod.fst).Perm (insertedKeys c.hist) ∧
      (∀ k, k ∈ insertedKeys c.hist ↔ k ∈ calledKeys c.hist) ∧
      (∀ k x, (k, x) ∈ pairs tb.t → ∃ t o, Ev.inv t o ∈ c.hist ∧ o.k = k ∧ x = some o.v) := by
  obtain ⟨tb, h1, h2, h3, h4, h5⟩ := C106_no_growth junk a size m n hs c h hc
  obtain ⟨p, hp⟩ := nextPow2_isPow hs
  rw [hp] at hc
  obtain ⟨d, hd⟩ := reach_sim hp h hc
  have hdi := ConcMap.reach_inv hd.reach
  have hdq : ∀ t, d.th t = none := by
    intro t
    have := hd.th t
    rw [hq t] at this
    cases hB : d.th t with
    | none => rfl
    | some B => rw [hB] at this; exact this.elim
  have htb : tb = ⟨d.sh, 0⟩ := by
    rw [hd.sh] at h1
    simpa using h1.symm
  subst htb
  have hcount : ∀ k, k ∈ (pairs d.sh).map Prod.fst ↔ k ∈ insertedKeys c.hist := by
    intro k
    rw [keys_pairs hdi, List.mem_filter]
    constructor
    · rintro ⟨hk, hk0⟩
      have hw := ConcMap.won_eq (by simpa using hk0 : k ≠ 0) hd.reach
      rw [hd.hist, insertedKeys_count, cnt_eq_zero (fun t => by rw [hdq t]; rfl)] at hw
      have := List.count_pos_iff.2 hk
      exact List.count_pos_iff.1 (by omega)
    · intro hk
      obtain ⟨t, o, h6, rfl⟩ := insertedKeys_ne hk
      have := (h4 t o _ h6).1
      rw [keys_pairs hdi, List.mem_filter] at this
      exact this
  refine ⟨⟨d.sh, 0⟩, h1, ?_, fun k => ?_, fun k x hkx => ?_⟩
  · exact (List.perm_ext_iff_of_nodup h2 h3).2 hcount
  · rw [← hcount, keys_pairs hdi, List.mem_filter]
    constructor
    · rintro ⟨hk, hk0⟩
      obtain ⟨t, v, hv⟩ := stored_called hdi hk (by simpa using hk0)
      rw [hd.hist] at hv
      exact mem_calledKeys hv
    · intro hk
      obtain ⟨e, he, hek⟩ := List.mem_filterMap.1 hk
      cases e with
      | res t o r => cases hek
      | inv t o =>
        injection hek with hek
        subst hek
        obtain ⟨r, hr⟩ := returned h hq he
        have := (h4 t o r hr).1
        rw [keys_pairs hdi, List.mem_filter] at this
        exact this
  · cases x with
    | some v =>
      obtain ⟨t, o, h6, h7, h8⟩ := h5 k v hkx
      exact ⟨t, o, h6, h7, by rw [h8]⟩
    | none =>
      exfalso
      obtain ⟨i, hi'⟩ := List.mem_iff_getElem?.1 (List.mem_filter.1 hkx).1
      obtain ⟨h6, h7⟩ := List.getElem?_zip_eq_some.1 hi'
      obtain ⟨t, op, v, st, ht⟩ := hdi.init i k h6 (by simpa using (List.mem_filter.1 hkx).2) h7
      rw [hdq t] at ht
      cases ht

/-- An execution that meets the hypotheses: two threads insert the same key with different values at the
same time into a table with four slots; one of them is told that the key is new. -/
example : ∃ c : Config 2 Shared Loc Op MapRet, Execution (fun _ => 0) 1 4 2 c ∧
    c.hist = [.inv 0 ⟨0, 3, 7⟩, .inv 1 ⟨1, 3, 5⟩, .res 1 ⟨1, 3, 5⟩ (.bool true),
      .res 0 ⟨0, 3, 7⟩ (.bool false)] ∧
    (calledKeys c.hist).toFinset.card < nextPow2 4 / 2 := by
  obtain ⟨c, h1, h2⟩ := exec_hist (n := 2) (s0 := new (fun _ => 0) 1 4 2)
    (o := obj) (ok := fun o => decide (o.k ≠ 0 ∧ o.h < 2)) (ok' := fun o => o.k ≠ 0 ∧ o.h < 2)
    (fun _ h => by simpa using h)
    (l := [.call 0 ⟨0, 3, 7⟩, .run 0, .run 0, .run 0, .call 1 ⟨1, 3, 5⟩] ++
      List.replicate 6 (.run 1) ++ List.replicate 2 (.run 0))
    (h := [.inv 0 ⟨0, 3, 7⟩, .inv 1 ⟨1, 3, 5⟩, .res 1 ⟨1, 3, 5⟩ (.bool true),
      .res 0 ⟨0, 3, 7⟩ (.bool false)]) (by decide +kernel)
  refine ⟨c, h1, h2, ?_⟩
  rw [h2, show nextPow2 4 = 4 from nextPow2_pow 2]
  decide

/-- From a computed schedule to an execution. -/
theorem witness {u : Nat} {sch : List (Act 2 Op)} {H : List (Ev 2 Op MapRet)}
    {P : List (Nat × Option Nat)}
    (hx : (exec obj (fun o => decide (o.k ≠ 0 ∧ o.h < 2))
      (Config.init 2 (new (fun _ => u) 1 2 2)) sch).map
        (fun c => (c.hist, (c.th 0).isNone && (c.th 1).isNone,
          c.sh.tabs[c.sh.tr]?.map (fun tb => pairs tb.t))) = some (H, true, some P)) :
    ∃ (c : Config 2 Shared Loc Op MapRet) (tb : Tab),
      Execution (fun _ => u) 1 2 2 c ∧ c.quiescent ∧ c.sh.tabs[c.sh.tr]? = some tb ∧
      c.hist = H ∧ pairs tb.t = P := by
  cases hc : exec obj (fun o => decide (o.k ≠ 0 ∧ o.h < 2))
      (Config.init 2 (new (fun _ => u) 1 2 2)) sch with
  | none => rw [hc] at hx; cases hx
  | some c =>
    rw [hc] at hx
    simp only [Option.map_some, Option.some.injEq, Prod.mk.injEq, Bool.and_eq_true,
      Option.isNone_iff_eq_none] at hx
    obtain ⟨h1, ⟨h2, h3⟩, h4⟩ := hx
    obtain ⟨tb, h5, h6⟩ := Option.map_eq_some_iff.1 h4
    refine ⟨c, tb, reach_mono (fun o h => by simpa using h) (exec_reach .init hc), ?_, h5, h1, h6⟩
    intro t
    fin_cases t
    · exact h2
    · exact h3

/-- **C106 is violated when the table grows: a key is acknowledged as new twice.** Thread 0 has found a
free slot for the key 3 when thread 1's insertions make the table grow; thread 1 then inserts 3 into a
later table and is told that it is new; thread 0 writes it into the old table, which nobody reads any
more, and is told so too. Four acknowledgements, three entries. -/
theorem C106_counted_twice_violated (u : Nat) : ∃ (c : Config 2 Shared Loc Op MapRet) (tb : Tab),
    Execution (fun _ => u) 1 2 2 c ∧ c.quiescent ∧ c.sh.tabs[c.sh.tr]? = some tb ∧
    c.hist = [.inv 0 ⟨0, 3, 7⟩, .inv 1 ⟨1, 2, 5⟩, .res 1 ⟨1, 2, 5⟩ (.bool true),
      .inv 1 ⟨1, 4, 6⟩, .res 1 ⟨1, 4, 6⟩ (.bool true), .inv 1 ⟨1, 3, 9⟩,
      .res 1 ⟨1, 3, 9⟩ (.bool true), .res 0 ⟨0, 3, 7⟩ (.bool true)] ∧
    pairs tb.t = [(2, some 5), (3, some 9), (4, some 6)] := by
  refine witness (sch := [.call 0 ⟨0, 3, 7⟩] ++ List.replicate 3 (.run 0) ++ [.call 1 ⟨1, 2, 5⟩] ++
    List.replicate 6 (.run 1) ++ [.call 1 ⟨1, 4, 6⟩] ++ List.replicate 28 (.run 1) ++
    [.call 1 ⟨1, 3, 9⟩] ++ List.replicate 37 (.run 1) ++ List.replicate 3 (.run 0)) ?_
  kernel_rfl

/-- **C106 is violated when the table grows: an acknowledged key is lost.** As before, but nobody else
inserts the key 3. -/
theorem C106_lost_key_violated (u : Nat) : ∃ (c : Config 2 Shared Loc Op MapRet) (tb : Tab),
    Execution (fun _ => u) 1 2 2 c ∧ c.quiescent ∧ c.sh.tabs[c.sh.tr]? = some tb ∧
    c.hist = [.inv 0 ⟨0, 3, 7⟩, .inv 1 ⟨1, 2, 5⟩, .res 1 ⟨1, 2, 5⟩ (.bool true),
      .inv 1 ⟨1, 4, 6⟩, .res 1 ⟨1, 4, 6⟩ (.bool true), .res 0 ⟨0, 3, 7⟩ (.bool true)] ∧
    pairs tb.t = [(4, some 6), (2, some 5)] := by
  refine witness (sch := [.call 0 ⟨0, 3, 7⟩] ++ List.replicate 3 (.run 0) ++ [.call 1 ⟨1, 2, 5⟩] ++
    List.replicate 6 (.run 1) ++ [.call 1 ⟨1, 4, 6⟩] ++ List.replicate 28 (.run 1) ++
    List.replicate 3 (.run 0)) ?_
  kernel_rfl

/-- **C106 is violated when the table grows: a value is lost.** Thread 0 has claimed a slot for the key 3
but not yet stored the value 7 when the table grows. Whatever the uninitialised memory `u` of the values
contains, the published table then holds the key 3 with the value `u`. -/
theorem C106_lost_value_violated (u : Nat) : ∃ (c : Config 2 Shared Loc Op MapRet) (tb : Tab),
    Execution (fun _ => u) 1 2 2 c ∧ c.quiescent ∧ c.sh.tabs[c.sh.tr]? = some tb ∧
    c.hist = [.inv 0 ⟨0, 3, 7⟩, .inv 1 ⟨1, 2, 5⟩, .res 1 ⟨1, 2, 5⟩ (.bool true),
      .inv 1 ⟨1, 4, 6⟩, .res 1 ⟨1, 4, 6⟩ (.bool true), .res 0 ⟨0, 3, 7⟩ (.bool true)] ∧
    pairs tb.t = [(2, some 5), (3, some u), (4, some 6)] := by
  refine witness (sch := [.call 0 ⟨0, 3, 7⟩] ++ List.replicate 4 (.run 0) ++ [.call 1 ⟨1, 2, 5⟩] ++
    List.replicate 6 (.run 1) ++ [.call 1 ⟨1, 4, 6⟩] ++ List.replicate 64 (.run 1) ++
    List.replicate 2 (.run 0)) ?_
  kernel_rfl

end GrowingMap
end Verif
