import Verif.Model.GrowingSize
import Verif.Lemmas.GrowingItems
import Verif.Lemmas.GrowingSerial

/-!
# C144: the size of a growing concurrent set
-/
namespace Verif
namespace Growing
open Conc

/-- **C144 (partial).** After any execution without a write into a slot that was handed out for copying, in which every
handle is used by one thread at a time, when no operation is running, `size()` of every old and of a new handle is the number of
different keys for which an insertion has returned.
Missing: with a late write the number is wrong (`C144_violated`). -/
theorem C144_size_partial {a sz m n : Nat} (hs : 0 < sz) {c : Config n Shared Loc Op ConcSet.SetRet}
    (h : ReachTimely (new a sz m) c) (hq : c.quiescent) :
    ∃ K : Finset Nat, (∀ k, k ∈ K ↔ ∃ t i b, Ev.res t (.insert i k) (.bool b) ∈ c.hist) ∧
      sizeNew c.sh = some K.card ∧ ∀ i, i < c.sh.hs.length → size c.sh i = some K.card := by
  have hCI := timely_CI hs h
  have htl := hCI.g.tr_lt
  have hlen : c.sh.tabs.length = c.sh.er + 1 := by
    have h1 := hCI.g.last
    have h2 := hCI.g.er_lt
    have h3 : c.sh.tabs.length ≠ c.sh.er + 2 := by
      intro e
      obtain ⟨t, A, hA, _⟩ := hCI.gro e
      rw [hq t] at hA
      cases hA
    omega
  have htr : c.sh.tr = c.sh.er := by
    have h1 := hCI.g.er_tr
    omega
  have hit := timely_items hs h hq htl
  obtain ⟨_, _, hpath⟩ := hCI.g.tab _ htl
  have hget := List.getElem?_eq_getElem htl
  have hnew : sizeNew c.sh = some ((ar c.sh c.sh.tr).filter fun x => x != 0).toFinset.card := by
    rw [List.toFinset_card_of_nodup hpath.nodup, ← List.countP_eq_length_filter]
    unfold itm at hit
    unfold sizeNew
    rw [hget] at hit ⊢
    exact congrArg some hit
  refine ⟨((ar c.sh c.sh.tr).filter fun x => x != 0).toFinset, fun k => ?_, hnew, fun i hi => ?_⟩
  · rw [List.mem_toFinset, List.mem_filter, bne_iff_ne]
    constructor
    · rintro ⟨h1, h2⟩
      have hst : Stored c.sh k := by
        unfold ar at h1
        rw [hget] at h1
        exact ⟨_, List.mem_of_getElem? hget, h1⟩
      obtain ⟨t, i, hc⟩ := (reach_inv h.reach).sto k h2 hst
      rcases timely_called h t i k hc with ⟨b, hb⟩ | ⟨A, hA, _⟩
      · exact ⟨t, i, b, hb⟩
      · rw [hq t] at hA
        cases hA
    · intro hk
      have := hCI.ack k hk
      rw [htr]
      exact ⟨this.2, this.1⟩
  · rw [← hnew]
    have hg := List.getElem?_eq_getElem hi
    unfold size sizeNew
    rw [hg]
    generalize hp : c.sh.hs[i] = p at hg
    obtain ⟨le, lt⟩ := p
    dsimp only
    split
    · rfl
    · rename_i hx
      have h1 := hCI.sy i le lt hg (fun t A hA => by rw [hq t] at hA; cases hA)
      have h2 := (hCI.g.hnd i le lt hg).1
      have h3 := hCI.g.er_ew
      rw [show lt = c.sh.tr by omega]

/-- **C144 is violated with a late write.** Three different keys are inserted, the third into a table that is already copied,
and all three insertions return true. A new handle then reports two. -/
theorem C144_violated : ∃ c : Config 2 Shared Loc Op ConcSet.SetRet, Reach obj (fun _ => True) (new 1 2 2) c ∧ c.quiescent ∧
    c.hist = [.inv 0 (.insert 0 3), .inv 1 (.insert 1 2), .res 1 (.insert 1 2) (.bool true),
      .inv 1 (.insert 1 4), .res 1 (.insert 1 4) (.bool true), .res 0 (.insert 0 3) (.bool true)] ∧ sizeNew c.sh = some 2 := by
  have hx : (exec obj (fun _ => true) (Config.init 2 (new 1 2 2))
      ([.call 0 (.insert 0 3), .run 0, .run 0, .run 0, .call 1 (.insert 1 2)] ++
      List.replicate 5 (.run 1) ++ [.call 1 (.insert 1 4)] ++ List.replicate 23 (.run 1) ++ [.run 0, .run 0])).map
        (fun c => ((c.th 0).isNone, (c.th 1).isNone, c.hist, sizeNew c.sh))
      = some (true, true, [.inv 0 (.insert 0 3), .inv 1 (.insert 1 2), .res 1 (.insert 1 2) (.bool true),
      .inv 1 (.insert 1 4), .res 1 (.insert 1 4) (.bool true), .res 0 (.insert 0 3) (.bool true)], some 2) := by
    decide +kernel
  cases he : exec obj (fun _ => true) (Config.init 2 (new 1 2 2))
      ([.call 0 (.insert 0 3), .run 0, .run 0, .run 0, .call 1 (.insert 1 2)] ++
      List.replicate 5 (.run 1) ++ [.call 1 (.insert 1 4)] ++ List.replicate 23 (.run 1) ++ [.run 0, .run 0]) with
  | none => rw [he] at hx; cases hx
  | some c =>
    rw [he] at hx
    simp only [Option.map_some, Option.some.injEq, Prod.mk.injEq, Option.isNone_iff_eq_none] at hx
    refine ⟨c, reach_mono (fun _ _ => trivial) (exec_reach .init he), ?_, hx.2.2.1, hx.2.2.2⟩
    intro t
    match t with
    | 0 => exact hx.1
    | 1 => exact hx.2.1

/-- A timely execution in which the insertions of two threads overlap and the set grows: four keys. -/
example : ∃ c : Config 2 Shared Loc Op ConcSet.SetRet, ReachTimely (new 1 2 2) c ∧ c.quiescent ∧ 1 < c.sh.tabs.length ∧
    sizeNew c.sh = some 4 ∧ size c.sh 0 = some 4 ∧ size c.sh 1 = some 4 := by
  have hx : (execT (Config.init 2 (new 1 2 2)) ([.call 0 (.insert 0 3), .run 0, .run 0, .run 0, .call 1 (.insert 1 2)] ++
    List.replicate 5 (.run 1) ++ [.run 0, .run 0, .call 1 (.insert 1 4), .call 0 (.insert 0 5)] ++
    (List.replicate 48 [.run 0, .run 1]).flatten)).map
        (fun c => ((c.th 0).isNone, (c.th 1).isNone, decide (1 < c.sh.tabs.length), [sizeNew c.sh, size c.sh 0, size c.sh 1]))
      = some (true, true, true, [some 4, some 4, some 4]) := by
    decide +kernel
  cases he : execT (Config.init 2 (new 1 2 2)) ([.call 0 (.insert 0 3), .run 0, .run 0, .run 0, .call 1 (.insert 1 2)] ++
    List.replicate 5 (.run 1) ++ [.run 0, .run 0, .call 1 (.insert 1 4), .call 0 (.insert 0 5)] ++
    (List.replicate 48 [.run 0, .run 1]).flatten) with
  | none => rw [he] at hx; cases hx
  | some c =>
    rw [he] at hx
    simp only [Option.map_some, Option.some.injEq, Prod.mk.injEq, Option.isNone_iff_eq_none, decide_eq_true_iff, List.cons.injEq, and_true] at hx
    refine ⟨c, execT_reach .init he, ?_, hx.2.2.1, hx.2.2.2⟩
    intro t
    match t with
    | 0 => exact hx.1
    | 1 => exact hx.2.1

end Growing
end Verif
