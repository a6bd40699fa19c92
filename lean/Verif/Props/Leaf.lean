import Verif.Model.Leaf
import Verif.Lemmas.GrowingLen
import Verif.Props.ConvertEdges
import Verif.Props.Distribute
import Verif.Props.Partitioner

/-!
# C147: the points of a part with the infinite points
-/
namespace Verif
namespace Convert
open Conc

/-- Insertion into a growing set that may be full. -/
theorem insert_any {S : LpSet} (hw : S.WF) (hg : S.growing = true) (h2 : 2 ≤ S.arr.length) {k : Nat} (hk : k ≠ 0) :
    ∃ S', Returns (fun f => S.insert f k) (S', decide (k ∉ S.keys)) ∧ S'.WF ∧ S'.growing = true ∧ 2 ≤ S'.arr.length ∧
      S'.keys = insert k S.keys ∧ S'.keys.card < S'.arr.length := by
  have hle : S.keys.card ≤ S.arr.length := by
    rw [← hw.items_eq, hw.cnt]
    exact List.countP_le_length
  have hc : (insert k S.keys).card ≤ S.keys.card + 1 := Finset.card_insert_le _ _
  by_cases hm : S.mustGrow = true
  · obtain ⟨s1, hr, hwf, hk1, hlen, hgr, ha⟩ := LpSet.rehash_spec (s := S) (n := S.capacity * 2)
      (by unfold LpSet.capacity; omega) (by unfold LpSet.capacity; omega)
    have hlen' : s1.arr.length = 2 * S.arr.length := by
      rw [hlen]
      obtain ⟨p, hp⟩ := hw.pow
      unfold LpSet.capacity
      rw [hp, ← Nat.pow_succ, nextPow2_pow, Nat.pow_succ]; omega
    obtain ⟨s2, hr2, hwf2, hk2, hlen2, hgr2, ha2⟩ := LpSet.insertRaw_spec hwf hk (Or.inl (hwf.free (by
      rw [hk1, hlen']; omega)))
    refine ⟨s2, ?_, hwf2, hgr2.trans (hgr.trans hg), by omega, by rw [hk2, hk1], by rw [hk2, hk1]; omega⟩
    simp only [LpSet.insert, hm, if_true]
    rw [hk1] at hr2
    exact hr.bind (g := fun f s' => LpSet.insertRaw f s' k) hr2
  · have hit := hw.items_eq
    have hlt : 2 * S.keys.card < S.arr.length := by
      by_contra hx
      apply hm
      have h1 : S.capacity ≤ 2 * S.items := by unfold LpSet.capacity; omega
      have h2 : (S.capacity == 0) = false := by
        rw [beq_eq_false_iff_ne]
        unfold LpSet.capacity
        omega
      simp [LpSet.mustGrow, hg, h1, h2]
    obtain ⟨s2, hr2, hwf2, hk2, hlen2, hgr2, ha2⟩ := LpSet.insertRaw_spec hw hk (Or.inl (hw.free (by omega)))
    refine ⟨s2, ?_, hwf2, hgr2.trans hg, by omega, hk2, by rw [hk2]; omega⟩
    simp only [LpSet.insert, hm]
    exact hr2

theorem insertInf_spec : ∀ (l : List Nat) (S : LpSet), S.WF → S.growing = true → 2 ≤ S.arr.length → (∀ k ∈ l, k ≠ 0) → l ≠ [] →
    ∃ S', Returns (fun f => insertInf f l S) S' ∧ S'.WF ∧ S'.keys = S.keys ∪ l.toFinset ∧ S'.keys.card < S'.arr.length
  | [], _, _, _, _, _, hl => absurd rfl hl
  | k :: ks, S, hw, hg, h2, h0, _ => by
    obtain ⟨S1, hr, hw1, hg1, h21, hk1, hc1⟩ := insert_any hw hg h2 (h0 k List.mem_cons_self)
    by_cases hks : ks = []
    · subst hks
      refine ⟨S1, ?_, hw1, ?_, hc1⟩
      · exact hr.bind (g := fun f (r : LpSet × Bool) => insertInf f [] r.1) (Returns.pure S1)
      · rw [hk1]
        ext x
        simp [or_comm]
    · obtain ⟨S', hr', hw', hk', hc'⟩ := insertInf_spec ks S1 hw1 hg1 h21 (fun x hx => h0 x (List.mem_cons_of_mem _ hx)) hks
      refine ⟨S', hr.bind (g := fun f (r : LpSet × Bool) => insertInf f ks r.1) hr', hw', ?_, hc'⟩
      rw [hk', hk1]
      ext x
      simp only [Finset.mem_union, Finset.mem_insert, List.mem_toFinset, List.mem_cons]
      tauto

/-- **C147 (partial).** Any number of threads distribute at least two points per part to the parts, without a late write. Then adding
the infinite points to the set of a part returns, however full the set is; the resulting set has the number of finite points of the
part plus `2 ^ D` as its size, and every query of it returns whether the id is that of a finite point of the part or of an
infinite point. Missing: after a late write points are lost (`C147_violated`). -/
theorem C147_partial {T k : Nat} (D a : Nat) (hD : D < 64) (part : Nat → Fin k) (ids : List Nat) (h0 : 0 ∉ ids) (hn : ids.Nodup)
    (hk : 2 * k ≤ ids.length) (work : Fin T → List Nat) (hw : ((List.ofFn work).flatten).Perm ids) (s : Dist.Loop T k)
    (hs : Relation.ReflTransGen (Dist.TimelyStep D part) (Dist.Loop.init a (ids.length / k) work) s) (hf : s.final) (j : Fin k) :
    ∃ S, Returns (fun f => leafSet D f s j) S ∧
      S.size = (ids.filter fun id => Part.isFinite D id && decide (part id = j)).length + 2 ^ D ∧
      ∀ x, x ≠ 0 → ∃ b, Returns (fun f => S.contains f x) b ∧
        (b = true ↔ (x ∈ ids ∧ Part.isFinite D x = true ∧ part x = j) ∨ (2 ^ 64 - 2 ^ D ≤ x ∧ x < 2 ^ 64)) := by
  have h1 : ∀ id ∈ (List.ofFn work).flatten, id ≠ 0 := fun id h e => h0 (hw.mem_iff.1 (e ▸ h))
  have h2 := Dist.timely_steps h1 Dist.DInv.init (fun _ => .init) hs
  have hkpos : 0 < k := Nat.lt_of_le_of_lt (Nat.zero_le _) j.isLt
  have hsz : 2 ≤ ids.length / k := (Nat.le_div_iff_mul_le hkpos).2 hk
  have hperm := Dist.C109_partial D a part ids h0 hn (by omega) work hw s hs hf j
  have hq : ∀ t, (s.c j).th t = none := by
    intro t
    cases hA : (s.c j).th t with
    | none => rfl
    | some A =>
      have := (h2.1.th j t A hA).1
      rw [(hf t).1] at this
      cases this
  obtain ⟨tb, htb, hwf⟩ := growing_wf (by omega) (h2.2 j) hq
  have hmin := Growing.reach_minLen (h2.2 j) tb (List.mem_of_getElem? htb)
  have hne : Part.infIds D ≠ [] := by
    intro e
    have := congrArg List.length e
    rw [Part.infIds, List.length_range', List.length_nil] at this
    have := Nat.pow_pos (n := D) Nat.two_pos
    omega
  obtain ⟨S, hr, hw', hkeys, hc⟩ := insertInf_spec (Part.infIds D) (toSeq true tb.t) hwf rfl (Nat.le_trans hsz hmin)
    (Edges.inf_ne hD) hne
  have hmem : ∀ x, x ∈ (toSeq true tb.t).keys ↔ x ∈ ids ∧ Part.isFinite D x = true ∧ part x = j := by
    intro x
    unfold Dist.Loop.ids at hperm
    rw [htb] at hperm
    have := hperm.mem_iff (a := x)
    simp only [List.mem_filter, decide_eq_true_eq, Bool.and_eq_true] at this
    rw [LpSet.mem_keys, ← this]
    exact and_comm
  have hinf : ∀ x, x ∈ Part.infIds D ↔ 2 ^ 64 - 2 ^ D ≤ x ∧ x < 2 ^ 64 := fun x => Part.mem_infIds (by omega)
  refine ⟨S, ?_, ?_, fun x hx => ⟨_, LpSet.contains_spec hw' hx (.inl (hw'.free hc)), ?_⟩⟩
  · unfold leafSet partSet
    rw [htb]
    exact hr
  · have hk1 : (toSeq true tb.t).keys = (ids.filter fun id => Part.isFinite D id && decide (part id = j)).toFinset := by
      ext x
      rw [hmem, List.mem_toFinset, List.mem_filter]
      simp
    show S.items = _
    rw [hw'.items_eq, hkeys, Finset.card_union_of_disjoint]
    · rw [hk1, List.toFinset_card_of_nodup (hn.filter _), List.toFinset_card_of_nodup (by unfold Part.infIds; exact List.nodup_range'), Part.infIds,
        List.length_range']
    · rw [Finset.disjoint_left]
      intro x h3 h4
      have h5 := ((hmem x).1 h3).2.1
      have h6 := ((hinf x).1 (List.mem_toFinset.1 h4)).1
      unfold Part.isFinite Part.cINF at h5
      rw [decide_eq_true_iff] at h5
      omega
  · rw [decide_eq_true_iff, hkeys, Finset.mem_union, List.mem_toFinset, hmem, hinf]

theorem bind_done {α β : Type _} {r : Res α} {g : α → Res β} {b : β} (h : r.bind g = .done b) : ∃ x, r = .done x ∧ g x = .done b := by
  cases r with
  | done x => exact ⟨x, rfl, h⟩
  | ub => cases h
  | timeout => cases h

theorem insertLoop_mem {k : Nat} {arr : List Nat} : ∀ {f idx : Nat} {r : List Nat × Bool}, LpSet.insertLoop k arr f idx = .done r →
    ∀ x ∈ r.1, x ∈ arr ∨ x = k
  | 0, _, _, h => by cases h
  | f + 1, idx, r, h => by
    simp only [LpSet.insertLoop] at h
    split at h
    · cases h
    · split at h
      · cases h
        exact fun x hx => .inl hx
      · split at h
        · exact insertLoop_mem h
        · cases h
          exact fun x hx => List.mem_or_eq_of_mem_set hx

theorem insertRaw_mem {f k : Nat} {S : LpSet} {r : LpSet × Bool} (h : S.insertRaw f k = .done r) : ∀ x ∈ r.1.arr, x ∈ S.arr ∨ x = k := by
  obtain ⟨y, h1, h2⟩ := bind_done h
  cases h2
  exact insertLoop_mem h1

theorem reinsertAll_mem {f : Nat} : ∀ {l : List Nat} {S S' : LpSet}, LpSet.reinsertAll f l S = .done S' → ∀ x ∈ S'.arr, x ∈ S.arr ∨ x ∈ l
  | [], S, S', h => by cases h; exact fun x hx => .inl hx
  | y :: l, S, S', h => by
    simp only [LpSet.reinsertAll] at h
    intro x hx
    split at h
    · obtain ⟨r, h1, h2⟩ := bind_done h
      rcases reinsertAll_mem h2 x hx with h3 | h3
      · rcases insertRaw_mem h1 x h3 with h4 | h4
        · exact .inl h4
        · exact .inr (h4 ▸ List.mem_cons_self)
      · exact .inr (List.mem_cons_of_mem _ h3)
    · rcases reinsertAll_mem h x hx with h3 | h3
      · exact .inl h3
      · exact .inr (List.mem_cons_of_mem _ h3)

theorem insert_mem {f k : Nat} {S : LpSet} {r : LpSet × Bool} (h : S.insert f k = .done r) :
    ∀ x ∈ r.1.arr, x ≠ 0 → x ∈ S.arr ∨ x = k := by
  intro x hx h0
  unfold LpSet.insert at h
  split at h
  · obtain ⟨S1, h1, h2⟩ := bind_done h
    rcases insertRaw_mem h2 x hx with h3 | h3
    · rcases reinsertAll_mem h1 x h3 with h4 | h4
      · exact absurd (List.eq_of_mem_replicate h4) h0
      · exact .inl h4
    · exact .inr h3
  · exact insertRaw_mem h x hx

theorem insertInf_mem {f : Nat} : ∀ {l : List Nat} {S S' : LpSet}, insertInf f l S = .done S' → ∀ x ∈ S'.arr, x ≠ 0 → x ∈ S.arr ∨ x ∈ l
  | [], S, S', h => by cases h; exact fun x hx _ => .inl hx
  | y :: l, S, S', h => by
    intro x hx h0
    obtain ⟨r, h1, h2⟩ := bind_done h
    rcases insertInf_mem h2 x hx h0 with h3 | h3
    · rcases insert_mem h1 x h3 h0 with h4 | h4
      · exact .inl h4
      · exact .inr (h4 ▸ List.mem_cons_self)
    · exact .inr (List.mem_cons_of_mem _ h3)

/-- **C147 is violated after a late write.** Two threads distribute twelve points to two parts. At the end no part that is returned answers
the query for the finite point 11 with true. -/
theorem C147_violated : ∃ s : Dist.Loop 2 2, Dist.Distributes 2 2 2 1 Dist.parity (Dist.points 12) s ∧
    11 ∈ Dist.points 12 ∧ Part.isFinite 2 11 = true ∧
    ∀ j S, Returns (fun f => leafSet 2 f s j) S → ¬ Returns (fun f => S.contains f 11) true := by
  obtain ⟨s, h1, h2, h3, h4⟩ := Dist.C109_violated
  refine ⟨s, h1, h2, h3, fun j S hS hr => h4 j ?_⟩
  obtain ⟨m, hr⟩ := hr
  obtain ⟨m', hS⟩ := hS
  have hm := contains_mem (hr m (Nat.le_refl _))
  have hl := hS m' (Nat.le_refl _)
  unfold leafSet partSet at hl
  unfold Dist.Loop.ids
  cases htb : (s.c j).sh.tabs[(s.c j).sh.tr]? with
  | none => rw [htb] at hl; cases hl
  | some tb =>
    rw [htb] at hl
    rcases insertInf_mem hl 11 hm (by decide) with h5 | h5
    · exact List.mem_filter.2 ⟨h5, by decide⟩
    · exact absurd h5 (by decide)

/-- The hypotheses are met: two threads distribute twelve points to two parts, and both sets grow. -/
example : 2 * 2 ≤ (Dist.points 12).length ∧ ∃ s : Dist.Loop 2 2, Relation.ReflTransGen (Dist.TimelyStep 2 Dist.parity)
      (Dist.Loop.init 1 ((Dist.points 12).length / 2) (Dist.split 6 (Dist.points 12))) s ∧ s.final ∧
    (List.finRange 2).map (fun j => (s.ids j, (s.c j).sh.tabs.length)) =
      [([2, 4, 6, 8, 10, 12], 2), ([1, 3, 5, 7, 9, 11], 2)] := by
  refine ⟨by decide, ?_⟩
  have h : ((Dist.Loop.init 1 ((Dist.points 12).length / 2) (Dist.split 6 (Dist.points 12)) : Dist.Loop 2 2).runT 2 Dist.parity
      ((List.replicate 101 [0, 1]).flatten ++ List.replicate 4 1)).bind Dist.outcome =
      some [([2, 4, 6, 8, 10, 12], 2), ([1, 3, 5, 7, 9, 11], 2)] := by
    decide +kernel
  obtain ⟨s, h1, h2⟩ := Option.bind_eq_some_iff.1 h
  obtain ⟨h3, h4⟩ := Dist.outcome_final h2
  exact ⟨s, Dist.Loop.runT_steps h1, h3, h4.symm⟩

end Convert
end Verif
