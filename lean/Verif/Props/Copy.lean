import Verif.Model.Copy
import Verif.Props.Convert
import Verif.Props.ConcMultiMap

/-!
# C145: copies of concurrent sets and multimaps
-/
namespace Verif
namespace Copy
open Conc

variable {n : Nat}

/-- **C145 (partial), sets.** A set that was filled by any number of threads is copied into a set with as many slots and any multiplier,
with or without assertions. Enumerating the slots of the copy yields every inserted key once and the size is their number. If the multipliers
are the same and the set is not full, queries of the copy return whether the key was inserted.
Missing: the multipliers are random, and with different ones keys are not found (`C145_set_violated`). -/
theorem C145_set_partial (dbg growing : Bool) (a size : Nat) (hs : 1 ≤ size) (c : Config n ConcSet.Shared ConcSet.Loc ConcSet.SetOp ConcSet.SetRet)
    (h : ConcSet.Execution growing a size c) (hq : c.quiescent) (dst : ConcSet.Shared) (hd : dst.arr.length = nextPow2 size) :
    ∃ s, set dbg dst c.sh = some s ∧
      (s.arr.filter fun x => decide (x ≠ 0)).Nodup ∧
      (∀ k, k ≠ 0 → (k ∈ s.arr ↔ ∃ t, Ev.res t (.insert k) (.bool true) ∈ c.hist)) ∧
      s.items = (s.arr.filter fun x => decide (x ≠ 0)).length ∧ s.a = dst.a ∧
      (dst.a = a → s.items < nextPow2 size → ∀ k, k ≠ 0 → ∃ b, Returns (fun f => contains f s k) b ∧
        (b = true ↔ ∃ t, Ev.res t (.insert k) (.bool true) ∈ c.hist)) := by
  obtain ⟨p, hp, hr⟩ := ConcSet.exec_pow hs h
  have hi := ConcSet.reach_inv hr
  have hl : c.sh.arr.length = dst.arr.length := by rw [hd, hp]; exact hi.len
  have h10 := ConcSet.C10_quiescent growing a size n hs c h hq
  refine ⟨{ dst with arr := c.sh.arr, items := c.sh.items }, ?_, h10.2.1, fun k hk => Convert.mem_iff hs h hq hk, h10.2.2, rfl, ?_⟩
  · unfold set
    rw [hl, List.take_of_length_le (by omega)]
    simp
  · intro ha hf k hk
    have := (Convert.C143_convert_partial growing false a size hs c h hq).2 k hk (.inl (by
      show c.sh.items < c.sh.arr.length
      rw [hl, hd]
      exact hf))
    have he : c.sh.a = dst.a := by rw [hi.ha, ha]
    unfold LpSet.contains at this
    unfold contains
    rw [← he]
    exact this

/-- **C145 (partial), multimaps.** Without assertions, the slots of a copy of a multimap, which has as many slots, contain exactly
the inserted pairs. Missing: the size is not copied, and with assertions the copy fails unless the source is full
(`C145_multimap_violated`). -/
theorem C145_multimap_partial (a size : Nat) (hs : 1 ≤ size)
    (c : Config n ConcMultiMap.Shared ConcMultiMap.Loc ConcMultiMap.MOp ConcMultiMap.MRet)
    (h : ConcMultiMap.Execution a size c) (hq : c.quiescent) (dst : ConcMultiMap.Shared) (hd : dst.keys.length = nextPow2 size) :
    ∃ s, multimap false dst c.sh = some s ∧
      ((s.keys.zip s.vals).filter fun s => decide (s.1 ≠ 0)).Perm
        ((ConcMultiMap.insertedPairs c.hist).map fun q => (q.1, some q.2)) := by
  obtain ⟨p, hp, hi⟩ := ConcMultiMap.exec_inv hs h
  have hl : c.sh.keys.length = dst.keys.length := by rw [hd, hp]; exact hi.len
  have hv : c.sh.vals.length = c.sh.keys.length := hi.vlen
  refine ⟨{ dst with keys := c.sh.keys, vals := c.sh.vals }, ?_, (ConcMultiMap.C14_quiescent a size n hs c h hq).1⟩
  unfold multimap
  rw [← hl, List.take_of_length_le (by omega), List.take_of_length_le (by omega)]
  simp

/-- **C145 is violated for sets with different multipliers.** A key is inserted into a set of four slots, which is copied into a set of
four slots. The copy has size 1 and answers the query for the key with false. -/
theorem C145_set_violated : ∃ c : Config 1 ConcSet.Shared ConcSet.Loc ConcSet.SetOp ConcSet.SetRet, ConcSet.Execution false 1 4 c ∧ c.quiescent ∧
    c.hist = [.inv 0 (.insert 1), .res 0 (.insert 1) (.bool true)] ∧
    ∀ dbg, ∃ s, set dbg (ConcSet.new 3 4) c.sh = some s ∧ s.items = 1 ∧ Returns (fun f => contains f s 1) false := by
  have hc : nextPow2 4 = 4 := nextPow2_pow 2
  have hx : (exec (ConcSet.obj false 1) (fun op => op.key != 0) (Config.init 1 (ConcSet.new 1 4))
      [.call 0 (.insert 1), .run 0, .run 0, .run 0, .run 0]).map (fun c => (c.hist, (c.th 0).isNone, c.sh.arr, c.sh.items))
      = some ([.inv 0 (.insert 1), .res 0 (.insert 1) (.bool true)], true, [0, 1, 0, 0], 1) := by
    unfold ConcSet.new; rw [hc]; decide
  cases he : exec (ConcSet.obj false 1) (fun op => op.key != 0) (Config.init 1 (ConcSet.new 1 4))
      [.call 0 (.insert 1), .run 0, .run 0, .run 0, .run 0] with
  | none => rw [he] at hx; cases hx
  | some c =>
    rw [he] at hx
    simp only [Option.map_some, Option.some.injEq, Prod.mk.injEq, Option.isNone_iff_eq_none] at hx
    refine ⟨c, reach_mono (by intro op h; simpa [ConcSet.Ok] using h) (exec_reach .init he), ?_, hx.1, fun dbg => ⟨⟨[0, 1, 0, 0], 1, 3⟩, ?_, rfl, 1, ?_⟩⟩
    · intro t
      match t with
      | 0 => exact hx.2.1
    · unfold set ConcSet.new
      rw [hc, hx.2.2.1, hx.2.2.2]
      cases dbg <;> rfl
    · intro m hm
      obtain ⟨m, rfl⟩ := Nat.exists_eq_add_of_le hm
      rw [Nat.add_comm]
      rfl

/-- **C145 is violated for multimaps.** A pair is inserted into a multimap of four slots. With assertions, copying it into another one fails;
without, the copy contains the pair and its size is 0. -/
theorem C145_multimap_violated : ∃ c : Config 1 ConcMultiMap.Shared ConcMultiMap.Loc ConcMultiMap.MOp ConcMultiMap.MRet,
    ConcMultiMap.Execution 1 4 c ∧ c.quiescent ∧ ConcMultiMap.insertedPairs c.hist = [(1, 7)] ∧
    multimap true (ConcMultiMap.new 1 4) c.sh = none ∧
    ∃ s, multimap false (ConcMultiMap.new 1 4) c.sh = some s ∧ (1, some 7) ∈ s.keys.zip s.vals ∧ s.items = 0 := by
  have hc : nextPow2 4 = 4 := nextPow2_pow 2
  have hx : (exec (ConcMultiMap.obj 1) (fun op => op.key != 0) (Config.init 1 (ConcMultiMap.new 1 4))
      ([.call 0 (.insert 1 7)] ++ List.replicate 5 (.run 0))).map
        (fun c => (ConcMultiMap.insertedPairs c.hist, (c.th 0).isNone, c.sh.vals, c.sh.items :: c.sh.keys))
      = some ([(1, 7)], true, [none, some 7, none, none], [1, 0, 1, 0, 0]) := by
    unfold ConcMultiMap.new; rw [hc]; decide
  cases he : exec (ConcMultiMap.obj 1) (fun op => op.key != 0) (Config.init 1 (ConcMultiMap.new 1 4))
      ([.call 0 (.insert 1 7)] ++ List.replicate 5 (.run 0)) with
  | none => rw [he] at hx; cases hx
  | some c =>
    rw [he] at hx
    simp only [Option.map_some, Option.some.injEq, Prod.mk.injEq, Option.isNone_iff_eq_none] at hx
    obtain ⟨h1, h2, h4, h6⟩ := hx
    injection h6 with h5 h3
    refine ⟨c, reach_mono (by intro op h; simpa using h) (exec_reach .init he), ?_, h1, ?_,
      ⟨⟨[0, 1, 0, 0], [none, some 7, none, none], 0, 1⟩, ?_, by decide, rfl⟩⟩
    · intro t
      match t with
      | 0 => exact h2
    · unfold multimap ConcMultiMap.new
      rw [hc, h5]
      rfl
    · unfold multimap ConcMultiMap.new
      rw [hc, h3, h4]
      rfl

/-- A set that meets the hypotheses, with a multiplier that is the same. -/
example : ∃ c : Config 1 ConcSet.Shared ConcSet.Loc ConcSet.SetOp ConcSet.SetRet, ConcSet.Execution false 3 4 c ∧ c.quiescent ∧
    (ConcSet.new 3 4).arr.length = nextPow2 4 ∧ c.sh.items < nextPow2 4 ∧ Convert.Inserted c 1 ∧
    ∃ s, set true (ConcSet.new 3 4) c.sh = some s ∧ s.arr = [0, 0, 0, 1] := by
  have hc : nextPow2 4 = 4 := nextPow2_pow 2
  have hx : (exec (ConcSet.obj false 3) (fun op => op.key != 0) (Config.init 1 (ConcSet.new 3 4))
      [.call 0 (.insert 1), .run 0, .run 0, .run 0, .run 0]).map (fun c => (c.hist, (c.th 0).isNone, c.sh.arr, c.sh.items))
      = some ([.inv 0 (.insert 1), .res 0 (.insert 1) (.bool true)], true, [0, 0, 0, 1], 1) := by
    unfold ConcSet.new; rw [hc]; decide
  cases he : exec (ConcSet.obj false 3) (fun op => op.key != 0) (Config.init 1 (ConcSet.new 3 4))
      [.call 0 (.insert 1), .run 0, .run 0, .run 0, .run 0] with
  | none => rw [he] at hx; cases hx
  | some c =>
    rw [he] at hx
    simp only [Option.map_some, Option.some.injEq, Prod.mk.injEq, Option.isNone_iff_eq_none] at hx
    refine ⟨c, reach_mono (by intro op h; simpa [ConcSet.Ok] using h) (exec_reach .init he), ?_, by simp [ConcSet.new],
      by rw [hx.2.2.2, hc]; decide, ⟨0, by simp [hx.1]⟩, ⟨⟨[0, 0, 0, 1], 1, 3⟩, ?_, rfl⟩⟩
    · intro t
      match t with
      | 0 => exact hx.2.1
    · unfold set ConcSet.new
      rw [hc, hx.2.2.1, hx.2.2.2]
      rfl

end Copy
end Verif
