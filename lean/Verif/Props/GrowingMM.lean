import Verif.Lemmas.GrowingMM
import Verif.Lemmas.KernelRfl
import Mathlib.Tactic.FinCases

/-!
# Properties of the growing multimap: C104
-/
namespace Verif
namespace GrowingMM
open Conc
open ConcMultiMap (MRet acked)

/-- The executions considered: any number `n` of threads call `insert(k, v)` with non-zero keys on
`m` handles of a growing multimap constructed with some initial size, in any interleaving. -/
def Execution (junk : Nat → Nat) (a size m : Nat) {n : Nat} (c : Config n Shared Loc Op MRet) : Prop :=
  Reach obj (fun o => o.k ≠ 0 ∧ o.h < m) (new junk a size m) c

/-- The pairs whose insertion returned true, in order. -/
def insertedPairs {n : Nat} : List (Ev n Op MRet) → List (Nat × Nat)
  | [] => []
  | .res _ o (.bool true) :: h => (o.k, o.v) :: insertedPairs h
  | _ :: h => insertedPairs h

/-- The number of calls of `insert`. -/
def calls {n : Nat} : List (Ev n Op MRet) → Nat
  | [] => 0
  | .inv _ _ :: h => calls h + 1
  | .res _ _ _ :: h => calls h

/-- The pairs of a table: those of the slots whose key is not zero. -/
def pairs (s : ConcMultiMap.Shared) : List (Nat × Option Nat) :=
  (s.keys.zip s.vals).filter (fun q => decide (q.1 ≠ 0))

theorem calls_countP {n : Nat} : ∀ h : List (Ev n Op MRet), h.countP Ev.isInv = calls h
  | [] => rfl
  | .inv t o :: h => by rw [List.countP_cons, calls_countP h]; rfl
  | .res t o r :: h => by rw [List.countP_cons, calls_countP h]; rfl

theorem acked_map {n : Nat} : ∀ h : List (Ev n Op MRet),
    acked (h.map evMap) = (insertedPairs h).map (fun q => (q.1, some q.2))
  | [] => rfl
  | e :: h => by
    have ih := acked_map h
    unfold acked at ih ⊢
    unfold insertedPairs
    rw [List.map_cons, List.filterMap_cons, ih]
    cases e with
    | inv t op => rfl
    | res t op r =>
      cases r with
      | full => rfl
      | bool b => cases b <;> rfl

/-- **C104.** As long as no more insertions are called than half the number of slots of the first
table, the multimap does not grow: at every moment there is one table, it holds each pair at least as
often as its insertion has returned true, and no insertion returns anything else than true. -/
theorem C104_no_growth (junk : Nat → Nat) (a size m n : Nat) (hs : 1 ≤ size)
    (c : Config n Shared Loc Op MRet) (h : Execution junk a size m c)
    (hc : calls c.hist ≤ nextPow2 size / 2) :
    ∃ tb, c.sh.tabs = [tb] ∧
      (∀ k v, (insertedPairs c.hist).count (k, v) ≤ (tb.t.keys.zip tb.t.vals).count (k, some v)) ∧
      (∀ t o r, Ev.res t o r ∈ c.hist → r = .bool true) := by
  obtain ⟨p, hp⟩ := nextPow2_isPow hs
  rw [hp, ← calls_countP] at hc
  obtain ⟨d, hd⟩ := reach_sim hp h hc
  have hdi := ConcMultiMap.reach_inv hd.reach
  refine ⟨⟨d.sh, 0⟩, by rw [hd.sh], fun k v => ?_, fun t o r he => ?_⟩
  · simp only
    rw [hdi.stored, hd.hist, acked_map]
    have := List.count_map_of_injective (insertedPairs c.hist)
      (fun q : Nat × Nat => (q.1, some q.2))
      (by rintro ⟨a, b⟩ ⟨c, d⟩ hh; simpa using hh) (k, v)
    simp only at this
    omega
  · have hm : evMap (.res t o r) ∈ d.hist := by
      rw [hd.hist]
      exact List.mem_map_of_mem he
    cases r with
    | bool b => rw [(hdi.ret t o.k o.v b hm).2.2]
    | full => exact absurd he (hd.nofull t o)

/-- **C104.** If moreover no insertion is running, the occupied slots of the table hold exactly the
pairs whose insertion returned true, each as often as that happened. -/
theorem C104_quiescent (junk : Nat → Nat) (a size m n : Nat) (hs : 1 ≤ size)
    (c : Config n Shared Loc Op MRet) (h : Execution junk a size m c)
    (hc : calls c.hist ≤ nextPow2 size / 2) (hq : c.quiescent) :
    ∃ tb, c.sh.tabs = [tb] ∧
      (pairs tb.t).Perm ((insertedPairs c.hist).map (fun q => (q.1, some q.2))) ∧
      (insertedPairs c.hist).length = calls c.hist := by
  obtain ⟨p, hp⟩ := nextPow2_isPow hs
  rw [hp, ← calls_countP] at hc
  obtain ⟨d, hd⟩ := reach_sim hp h hc
  have hdi := ConcMultiMap.reach_inv hd.reach
  have hdq : ∀ t, d.th t = none := by
    intro t
    have := hd.th t
    rw [hq t] at this
    cases hB : d.th t with
    | none => rfl
    | some B => rw [hB] at this; exact this.elim
  refine ⟨⟨d.sh, 0⟩, by rw [hd.sh], ?_, ?_⟩
  · rw [← acked_map, ← hd.hist, List.perm_iff_count]
    rintro ⟨k, o⟩
    unfold pairs
    by_cases hk : k = 0
    · rw [List.count_eq_zero_of_not_mem, List.count_eq_zero_of_not_mem]
      · intro hm
        exact hdi.ack _ hm hk
      · intro hm
        simpa [hk] using (List.mem_filter.1 hm).2
    · rw [List.count_filter (by simpa using hk)]
      cases o with
      | none =>
        rw [List.count_eq_zero_of_not_mem, List.count_eq_zero_of_not_mem]
        · rw [hd.hist, acked_map]
          simp
        · intro hm
          obtain ⟨i, hi', he⟩ := List.getElem_of_mem hm
          have : (d.sh.keys.zip d.sh.vals)[i]? = some (k, none) := by
            rw [List.getElem?_eq_getElem hi', he]
          rw [List.getElem?_zip_eq_some] at this
          obtain ⟨t, op, v, st, ht⟩ := hdi.init i k this.1 hk this.2
          rw [hdq t] at ht
          cases ht
      | some v =>
        simp only
        rw [hdi.stored, cnt_eq_zero (fun t => by rw [hdq t]; rfl)]
        rfl
  · have h1 := calls_eq h
    rw [cnt_eq_zero (fun t => by rw [hq t]; rfl), calls_countP] at h1
    rw [h1, Nat.add_zero]
    have hall : ∀ e ∈ c.hist, ∀ t o r, e = Ev.res t o r → r = .bool true := by
      rintro e he t o r rfl
      have hm : evMap (.res t o r) ∈ d.hist := by
        rw [hd.hist]
        exact List.mem_map_of_mem he
      cases r with
      | bool b => rw [(hdi.ret t o.k o.v b hm).2.2]
      | full => exact absurd he (hd.nofull t o)
    have key : ∀ l : List (Ev n Op MRet), (∀ e ∈ l, ∀ t o r, e = Ev.res t o r → r = .bool true) →
        (insertedPairs l).length = l.countP Ev.isRes := by
      intro l hl
      induction l with
      | nil => rfl
      | cons e l ih =>
        have ih := ih (fun e he => hl e (List.mem_cons_of_mem _ he))
        cases e with
        | inv t o =>
          rw [List.countP_cons]
          simp only [insertedPairs, Ev.isRes]
          simpa using ih
        | res t o r =>
          have := hl _ (List.mem_cons_self ..) t o r rfl
          subst this
          rw [List.countP_cons]
          simp only [insertedPairs, Ev.isRes, List.length_cons, ih, if_true]
    exact key _ hall

/-- An execution that meets the hypotheses: two threads insert pairs with the same key at the same
time into a table with four slots. -/
example : ∃ c : Config 2 Shared Loc Op MRet, Execution (fun _ => 0) 1 4 2 c ∧
    c.hist = [.inv 0 ⟨0, 3, 7⟩, .inv 1 ⟨1, 3, 5⟩, .res 1 ⟨1, 3, 5⟩ (.bool true),
      .res 0 ⟨0, 3, 7⟩ (.bool true)] ∧ calls c.hist ≤ nextPow2 4 / 2 := by
  obtain ⟨c, h1, h2⟩ := exec_hist (n := 2) (s0 := new (fun _ => 0) 1 4 2)
    (o := obj) (ok := fun o => decide (o.k ≠ 0 ∧ o.h < 2)) (ok' := fun o => o.k ≠ 0 ∧ o.h < 2)
    (fun _ h => by simpa using h)
    (l := [.call 0 ⟨0, 3, 7⟩, .run 0, .run 0, .run 0, .call 1 ⟨1, 3, 5⟩] ++
      List.replicate 6 (.run 1) ++ List.replicate 5 (.run 0))
    (h := [.inv 0 ⟨0, 3, 7⟩, .inv 1 ⟨1, 3, 5⟩, .res 1 ⟨1, 3, 5⟩ (.bool true),
      .res 0 ⟨0, 3, 7⟩ (.bool true)]) (by decide +kernel)
  refine ⟨c, h1, h2, ?_⟩
  rw [h2, show nextPow2 4 = 4 from nextPow2_pow 2]
  decide

/-- The schedule of the violation: thread 0 has claimed a slot for the key 3 but not yet stored its
value 7, when thread 1's insertions make the table grow. -/
def lostSchedule : List (Act 2 Op) :=
  [.call 0 ⟨0, 3, 7⟩] ++ List.replicate 4 (.run 0) ++ [.call 1 ⟨1, 2, 5⟩] ++
    List.replicate 6 (.run 1) ++ [.call 1 ⟨1, 4, 6⟩] ++ List.replicate 64 (.run 1) ++
    List.replicate 2 (.run 0)

/-- **C104 is violated when the table grows.** Whatever the uninitialised memory `u` of the values
contains: all three insertions return true, and when no operation is running the published table holds
the key 3 only with the value `u`, not with the value 7 that was inserted. -/
theorem C104_lost_value_violated (u : Nat) : ∃ (c : Config 2 Shared Loc Op MRet) (tb : Tab),
    Execution (fun _ => u) 1 2 2 c ∧ c.quiescent ∧ c.sh.tabs[c.sh.tr]? = some tb ∧
    c.hist = [.inv 0 ⟨0, 3, 7⟩, .inv 1 ⟨1, 2, 5⟩, .res 1 ⟨1, 2, 5⟩ (.bool true),
      .inv 1 ⟨1, 4, 6⟩, .res 1 ⟨1, 4, 6⟩ (.bool true), .res 0 ⟨0, 3, 7⟩ (.bool true)] ∧
    pairs tb.t = [(2, some 5), (3, some u), (4, some 6)] := by
  have hx : (exec obj (fun o => decide (o.k ≠ 0 ∧ o.h < 2))
      (Config.init 2 (new (fun _ => u) 1 2 2)) lostSchedule).map
        (fun c => (c.hist, (c.th 0).isNone && (c.th 1).isNone,
          c.sh.tabs[c.sh.tr]?.map (fun tb => pairs tb.t))) =
      some ([.inv 0 ⟨0, 3, 7⟩, .inv 1 ⟨1, 2, 5⟩, .res 1 ⟨1, 2, 5⟩ (.bool true),
        .inv 1 ⟨1, 4, 6⟩, .res 1 ⟨1, 4, 6⟩ (.bool true), .res 0 ⟨0, 3, 7⟩ (.bool true)], true,
        some [(2, some 5), (3, some u), (4, some 6)]) := by
    kernel_rfl
  cases hc : exec obj (fun o => decide (o.k ≠ 0 ∧ o.h < 2))
      (Config.init 2 (new (fun _ => u) 1 2 2)) lostSchedule with
  | none => rw [hc] at hx; cases hx
  | some c =>
    rw [hc] at hx
    simp only [Option.map_some, Option.some.injEq, Prod.mk.injEq, Bool.and_eq_true,
      Option.isNone_iff_eq_none] at hx
    obtain ⟨h1, ⟨h2, h3⟩, h4⟩ := hx
    obtain ⟨tb, h5, h6⟩ := Option.map_eq_some_iff.1 h4
    refine ⟨c, tb, reach_mono (fun o h => by simpa using h) (exec_reach .init hc), ?_, h5, h1, h6⟩
    intro t
    fin_cases t
    · exact h2
    · exact h3

end GrowingMM
end Verif
