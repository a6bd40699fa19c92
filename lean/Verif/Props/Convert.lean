import Verif.Model.Convert
import Verif.Lemmas.LpSet
import Verif.Lemmas.GrowingItems
import Verif.Props.ConcSet
import Verif.Props.Distribute

/-!
# C143: a concurrent set that is converted into a sequential one keeps its elements
-/
namespace Verif
namespace Convert
open Conc ConcSet

variable {n : Nat}

/-- Some thread has inserted `k`. -/
def Inserted (c : Config n Shared Loc SetOp SetRet) (k : Nat) : Prop := ∃ t, Ev.res t (.insert k) (.bool true) ∈ c.hist

theorem mem_iff {growing : Bool} {a size : Nat} (hs : 1 ≤ size) {c : Config n Shared Loc SetOp SetRet}
    (h : Execution growing a size c) (hq : c.quiescent) {k : Nat} (hk : k ≠ 0) : k ∈ c.sh.arr ↔ Inserted c k := by
  have hw := (C10_quiescent growing a size n hs c h hq).1 k hk
  constructor
  · intro hm
    rw [if_pos hm] at hw
    have : 0 < wins k c.hist := by omega
    unfold wins at this
    obtain ⟨e, he, hp⟩ := List.countP_pos_iff.1 this
    split at hp
    · rename_i t k'
      rw [decide_eq_true_iff] at hp
      subst hp
      exact ⟨t, he⟩
    · cases hp
  · rintro ⟨t, ht⟩
    exact C10_returned_present growing a size n hs c h t k true ht

theorem wf {growing g : Bool} {a size : Nat} (hs : 1 ≤ size) {c : Config n Shared Loc SetOp SetRet}
    (h : Execution growing a size c) (hq : c.quiescent) :
    (toSeq g c.sh).WF ∧ (toSeq g c.sh).arr.length = nextPow2 size := by
  obtain ⟨p, hp, hr⟩ := exec_pow hs h
  have hi := reach_inv hr
  refine ⟨⟨⟨p, hi.len⟩, ?_, ?_⟩, by rw [hp]; exact hi.len⟩
  · show PathOk (hash64 c.sh.a) c.sh.arr
    rw [hi.ha]
    exact hi.path
  · have h0 : Conc.cnt isIncr c.th = 0 := cnt_eq_zero (fun t => by rw [hq t]; rfl)
    have := hi.cnt
    rw [h0, Nat.add_zero] at this
    exact this

/-- **C143 (partial).** When no operation is running, a concurrent set of any kind is converted to a sequential set whose size is
the number of successful insertions. If it is not full, a query of it returns whether the key has been inserted.
Missing: a query for another key in a full set does not return (`C143_full_violated`). -/
theorem C143_convert_partial (growing g : Bool) (a size : Nat) (hs : 1 ≤ size) (c : Config n Shared Loc SetOp SetRet)
    (h : Execution growing a size c) (hq : c.quiescent) :
    (∃ K : Finset Nat, K.card = (toSeq g c.sh).size ∧ ∀ k, k ∈ K ↔ k ≠ 0 ∧ Inserted c k) ∧
    ∀ k, k ≠ 0 → ((toSeq g c.sh).size < (toSeq g c.sh).capacity ∨ Inserted c k) →
      ∃ b, Returns (fun f => (toSeq g c.sh).contains f k) b ∧ (b = true ↔ Inserted c k) := by
  obtain ⟨hw, _⟩ := wf (g := g) hs h hq
  refine ⟨⟨(toSeq g c.sh).keys, hw.items_eq.symm, fun k => ?_⟩, fun k hk hf => ?_⟩
  · rw [LpSet.mem_keys]
    constructor
    · exact fun ⟨h1, h2⟩ => ⟨h1, (mem_iff hs h hq h1).1 h2⟩
    · exact fun ⟨h1, h2⟩ => ⟨h1, (mem_iff hs h hq h1).2 h2⟩
  · refine ⟨_, LpSet.contains_spec hw hk ?_, ?_⟩
    · rcases hf with hf | hf
      · exact .inl (hw.free (by rw [← hw.items_eq]; exact hf))
      · exact .inr ((mem_iff hs h hq hk).2 hf)
    · rw [decide_eq_true_iff, LpSet.mem_keys, ← mem_iff hs h hq hk]
      exact ⟨fun h => h.2, fun h => ⟨hk, h⟩⟩

/-- **C143, later insertions.** An insertion into the converted growing set returns whether the key is new, and
afterwards every query returns whether its key is the new one or had been inserted before, even if the concurrent set was full. -/
theorem C143_insert (growing : Bool) (a size : Nat) (hs : 2 ≤ size) (c : Config n Shared Loc SetOp SetRet)
    (h : Execution growing a size c) (hq : c.quiescent) (k : Nat) (hk : k ≠ 0) :
    ∃ b s', Returns (fun f => (toSeq true c.sh).insert f k) (s', b) ∧ (b = true ↔ ¬ Inserted c k) ∧
      ∀ x, x ≠ 0 → ∃ d, Returns (fun f => s'.contains f x) d ∧ (d = true ↔ x = k ∨ Inserted c x) := by
  have hs1 : 1 ≤ size := by omega
  obtain ⟨hw, hl⟩ := wf (g := true) hs1 h hq
  have hcap : 2 ≤ (toSeq true c.sh).arr.length := by rw [hl]; exact le_trans hs (le_nextPow2 _)
  have hkeys : ∀ x, x ≠ 0 → (x ∈ (toSeq true c.sh).keys ↔ Inserted c x) := by
    intro x hx
    rw [LpSet.mem_keys, ← mem_iff hs1 h hq hx]
    exact ⟨fun h => h.2, fun h => ⟨hx, h⟩⟩
  generalize hS : toSeq true c.sh = S at *
  have hg : S.growing = true := by rw [← hS]; rfl
  have hle : S.keys.card ≤ S.arr.length := by
    rw [← hw.items_eq, hw.cnt]
    exact List.countP_le_length
  have fin : ∀ s', s'.WF → s'.keys = insert k S.keys → (insert k S.keys).card < s'.arr.length →
      ∀ x, x ≠ 0 → ∃ d, Returns (fun f => LpSet.contains f s' x) d ∧ (d = true ↔ x = k ∨ Inserted c x) := by
    intro s' hw' hk' hc x hx
    refine ⟨_, LpSet.contains_spec hw' hx (.inl (hw'.free (by rw [hk']; exact hc))), ?_⟩
    rw [decide_eq_true_iff, hk', Finset.mem_insert, hkeys x hx]
  have hc : (insert k S.keys).card ≤ S.keys.card + 1 := Finset.card_insert_le _ _
  by_cases hm : S.mustGrow = true
  · obtain ⟨s1, hr, hwf, hk1, hlen, hgr, ha⟩ := LpSet.rehash_spec (s := S) (n := S.capacity * 2)
      (by unfold LpSet.capacity; omega) (by unfold LpSet.capacity; omega)
    have hlen' : s1.arr.length = 2 * S.arr.length := by
      rw [hlen]
      obtain ⟨p, hp⟩ := hw.pow
      unfold LpSet.capacity
      rw [hp, ← Nat.pow_succ, nextPow2_pow, Nat.pow_succ]; omega
    obtain ⟨s2, hr2, hwf2, hk2, hlen2, hgr2, ha2⟩ := LpSet.insertRaw_spec hwf hk (Or.inl (hwf.free (by
      rw [hk1, hlen']; omega)))
    refine ⟨decide (k ∉ S.keys), s2, ?_, ?_, fin s2 hwf2 (by rw [hk2, hk1]) (by rw [hlen2, hlen']; omega)⟩
    · simp only [LpSet.insert, hm, if_true]
      rw [hk1] at hr2
      exact hr.bind (g := fun f s' => LpSet.insertRaw f s' k) hr2
    · rw [decide_eq_true_iff, hkeys k hk]
  · have hit := hw.items_eq
    have hlt : 2 * S.keys.card < S.arr.length := by
      by_contra hx
      apply hm
      have h1 : S.capacity ≤ 2 * S.items := by unfold LpSet.capacity; omega
      have h2 : (S.capacity == 0) = false := by
        rw [beq_eq_false_iff_ne]
        unfold LpSet.capacity
        omega
      simp [LpSet.mustGrow, hg, h1, h2]
    obtain ⟨s2, hr2, hwf2, hk2, hlen2, hgr2, ha2⟩ := LpSet.insertRaw_spec hw hk (Or.inl (hw.free (by omega)))
    refine ⟨decide (k ∉ S.keys), s2, ?_, ?_, fin s2 hwf2 hk2 (by rw [hlen2]; omega)⟩
    · simp only [LpSet.insert, hm]
      exact hr2
    · rw [decide_eq_true_iff, hkeys k hk]

/-- **C143 (partial), the sets of the parts.** After the points have been distributed by any number of threads, without a write into a
slot that is already handed out for copying, the sequential set of every part answers the query for an id with whether
it is the id of a finite point of the part, if the set has more slots than the part has points.
Missing: ids can be lost otherwise (`C109_violated`). -/
theorem C143_part_partial {T k : Nat} (D a : Nat) (part : Nat → Fin k) (ids : List Nat) (h0 : 0 ∉ ids) (hn : ids.Nodup)
    (hk : k ≤ ids.length) (work : Fin T → List Nat) (hw : ((List.ofFn work).flatten).Perm ids) (s : Dist.Loop T k)
    (hs : Relation.ReflTransGen (Dist.TimelyStep D part) (Dist.Loop.init a (ids.length / k) work) s) (hf : s.final) (j : Fin k) :
    ∃ S, partSet s j = some S ∧
      ((ids.filter fun id => Part.isFinite D id && decide (part id = j)).length < S.capacity →
      ∀ x, x ≠ 0 → ∃ b, Returns (fun f => S.contains f x) b ∧ (b = true ↔ x ∈ ids ∧ Part.isFinite D x = true ∧ part x = j)) := by
  have h1 : ∀ id ∈ (List.ofFn work).flatten, id ≠ 0 := fun id h e => h0 (hw.mem_iff.1 (e ▸ h))
  have h2 := Dist.timely_steps h1 Dist.DInv.init (fun _ => .init) hs
  have hsz : 0 < ids.length / k := Nat.div_pos hk (Nat.lt_of_le_of_lt (Nat.zero_le _) j.isLt)
  have hCI := Growing.timely_CI hsz (h2.2 j)
  have hperm := Dist.C109_partial D a part ids h0 hn hk work hw s hs hf j
  have htr := hCI.g.tr_lt
  obtain ⟨hmu, hpow, hpath⟩ := hCI.g.tab _ htr
  unfold Dist.Loop.ids at hperm
  unfold partSet
  unfold Growing.mu at hmu
  unfold Growing.ar at hpow hpath
  rw [List.getElem?_eq_getElem htr] at hmu hpow hpath hperm ⊢
  simp only [Option.map_some] at hmu hpow hpath hperm ⊢
  refine ⟨_, rfl, fun hlt x hx => ?_⟩
  generalize (s.c j).sh.tabs[(s.c j).sh.tr] = tb at *
  set S' : LpSet := { toSeq true tb.t with items := occ tb.t.arr } with hS'
  have hW : S'.WF := ⟨hpow, by show PathOk (hash64 tb.t.a) tb.t.arr; rw [show tb.t.a = a from hmu]; exact hpath, rfl⟩
  have hsame : ∀ f, (toSeq true tb.t).contains f x = S'.contains f x := fun _ => rfl
  have hfree : 0 ∈ S'.arr := by
    apply zero_mem_of_occ_lt
    have he : occ tb.t.arr = (tb.t.arr.filter fun x => decide (x ≠ 0)).length := by
      rw [← List.countP_eq_length_filter]
      unfold occ
      congr 1
      funext x
      by_cases hx : x = 0 <;> simp [hx]
    show occ tb.t.arr < _
    rw [he, hperm.length_eq]
    exact hlt
  refine ⟨_, by simp only [hsame]; exact LpSet.contains_spec hW hx (.inl hfree), ?_⟩
  rw [decide_eq_true_iff, LpSet.mem_keys]
  have hmem := hperm.mem_iff (a := x)
  simp only [List.mem_filter, decide_eq_true_eq, Bool.and_eq_true] at hmem
  rw [← hmem]
  exact and_comm

/-- **C143 (partial), the sizes of the parts.** Under the same conditions, the `size()` of the sequential set of a part is
the number of the finite points of the part, also if the set is full. Missing: as in `C143_part_partial`. -/
theorem C143_part_size_partial {T k : Nat} (D a : Nat) (part : Nat → Fin k) (ids : List Nat) (h0 : 0 ∉ ids) (hn : ids.Nodup)
    (hk : k ≤ ids.length) (work : Fin T → List Nat) (hw : ((List.ofFn work).flatten).Perm ids) (s : Dist.Loop T k)
    (hs : Relation.ReflTransGen (Dist.TimelyStep D part) (Dist.Loop.init a (ids.length / k) work) s) (hf : s.final) (j : Fin k) :
    (partSet s j).map LpSet.size = some (ids.filter fun id => Part.isFinite D id && decide (part id = j)).length := by
  have h1 : ∀ id ∈ (List.ofFn work).flatten, id ≠ 0 := fun id h e => h0 (hw.mem_iff.1 (e ▸ h))
  have h2 := Dist.timely_steps h1 Dist.DInv.init (fun _ => .init) hs
  have hsz : 0 < ids.length / k := Nat.div_pos hk (Nat.lt_of_le_of_lt (Nat.zero_le _) j.isLt)
  have htr := (Growing.timely_CI hsz (h2.2 j)).g.tr_lt
  have hq : ∀ t, (s.c j).th t = none := by
    intro t
    cases hA : (s.c j).th t with
    | none => rfl
    | some A =>
      have := (h2.1.th j t A hA).1
      rw [(hf t).1] at this
      cases this
  have hit := Growing.timely_items hsz (h2.2 j) hq htr
  have hperm := Dist.C109_partial D a part ids h0 hn hk work hw s hs hf j
  unfold Dist.Loop.ids at hperm
  unfold partSet
  unfold Growing.itm Growing.ar at hit
  rw [List.getElem?_eq_getElem htr] at hit hperm ⊢
  simp only [Option.map_some] at hit hperm ⊢
  rw [← hperm.length_eq]
  congr 1
  show _ = _
  refine hit.trans ?_
  rw [← List.countP_eq_length_filter]
  unfold occ
  congr 1
  funext x
  by_cases hx : x = 0 <;> simp [hx]

/-- **C143 violated for full sets.** One thread fills a concurrent set of one slot; in the set it is converted to, the query for
another key does not return. -/
theorem C143_full_violated : ∃ c : Config 1 Shared Loc SetOp SetRet, Execution false 1 1 c ∧ c.quiescent ∧
    c.hist = [.inv 0 (.insert 1), .res 0 (.insert 1) (.bool true)] ∧ ∀ g, Diverges (fun f => (toSeq g c.sh).contains f 2) := by
  have hc : nextPow2 1 = 1 := nextPow2_pow 0
  have hx : (exec (obj false 1) (fun op => op.key != 0) (Config.init 1 (new 1 1))
      [.call 0 (.insert 1), .run 0, .run 0, .run 0, .run 0]).map (fun c => (c.hist, (c.th 0).isNone, c.sh.arr))
      = some ([.inv 0 (.insert 1), .res 0 (.insert 1) (.bool true)], true, [1]) := by
    unfold new; rw [hc]; decide
  cases he : exec (obj false 1) (fun op => op.key != 0) (Config.init 1 (new 1 1))
      [.call 0 (.insert 1), .run 0, .run 0, .run 0, .run 0] with
  | none => rw [he] at hx; cases hx
  | some c =>
    rw [he] at hx
    simp only [Option.map_some, Option.some.injEq, Prod.mk.injEq, Option.isNone_iff_eq_none] at hx
    refine ⟨c, reach_mono (by intro op h; simpa [Ok] using h) (exec_reach .init he), ?_, hx.1, fun g => ?_⟩
    · intro t
      match t with
      | 0 => exact hx.2.1
    · refine LpSet.contains_diverges (p := 0) (s := toSeq g c.sh) ?_ ?_ ?_ <;> simp [toSeq, hx.2.2]

/-- An execution that meets the hypotheses: two threads insert two keys into a growing set. -/
example : ∃ c : Config 2 Shared Loc SetOp SetRet, Execution true 1 4 c ∧ c.quiescent ∧ Inserted c 3 ∧ Inserted c 7 ∧ ¬ Inserted c 4 ∧
    (toSeq true c.sh).size < (toSeq true c.sh).capacity := by
  have hc : nextPow2 4 = 4 := nextPow2_pow 2
  have hx : (exec (obj true 1) (fun op => op.key != 0) (Config.init 2 (new 1 4))
      [.call 0 (.insert 3), .call 1 (.insert 7), .run 0, .run 1, .run 0, .run 1, .run 0, .run 1, .run 0, .run 1, .run 1, .run 1]).map
        (fun c => (c.hist, (c.th 0).isNone, (c.th 1).isNone, c.sh.arr, c.sh.items))
      = some ([.inv 0 (.insert 3), .inv 1 (.insert 7), .res 0 (.insert 3) (.bool true), .res 1 (.insert 7) (.bool true)],
        true, true, [7, 0, 0, 3], 2) := by
    unfold new; rw [hc]; decide
  cases he : exec (obj true 1) (fun op => op.key != 0) (Config.init 2 (new 1 4))
      [.call 0 (.insert 3), .call 1 (.insert 7), .run 0, .run 1, .run 0, .run 1, .run 0, .run 1, .run 0, .run 1, .run 1, .run 1] with
  | none => rw [he] at hx; cases hx
  | some c =>
    rw [he] at hx
    simp only [Option.map_some, Option.some.injEq, Prod.mk.injEq, Option.isNone_iff_eq_none] at hx
    refine ⟨c, reach_mono (by intro op h; simpa [Ok] using h) (exec_reach .init he), ?_, ⟨0, by simp [hx.1]⟩, ⟨1, by simp [hx.1]⟩, ?_, ?_⟩
    · intro t
      match t with
      | 0 => exact hx.2.1
      | 1 => exact hx.2.2.1
    · rintro ⟨t, ht⟩
      simp [hx.1] at ht
    · simp [toSeq, LpSet.size, LpSet.capacity, hx.2.2.2]

end Convert
end Verif
