import Verif.Lemmas.LpSet

/-!
# Properties of the sequential hash set: C01, C02, C03, C04, C72 (set part), C74

`Returns`, `Diverges`, `Undefined` are defined in `Verif.Model.Res`.
-/
namespace Verif
open LpSet

/-! ## Specification: client programs and what they should compute -/

/-- A client program that builds a growing set through the public interface. -/
inductive SetProg where
  | new (a size : Nat)
  | insert (p : SetProg) (k : Nat)
  | merge (p q : SetProg)
  | filter (p f : SetProg)
  | mergeFilter (p q f : SetProg)
  | copy (p : SetProg)

/-- Specification: the mathematical set a program denotes. -/
def SetProg.denote : SetProg → Finset Nat
  | .new _ _ => ∅
  | .insert p k => Insert.insert k p.denote
  | .merge p q => p.denote ∪ q.denote
  | .filter p f => p.denote \ f.denote
  | .mergeFilter p q f => (p.denote ∪ q.denote) \ f.denote
  | .copy p => p.denote

/-- Preconditions: initial sizes at least 2, keys non-zero (asserted by the code), and a filtered
merge is not applied to two empty sets. -/
def SetProg.Valid : SetProg → Prop
  | .new _ size => 2 ≤ size
  | .insert p k => p.Valid ∧ k ≠ 0
  | .merge p q => p.Valid ∧ q.Valid
  | .filter p f => p.Valid ∧ f.Valid
  | .mergeFilter p q f => p.Valid ∧ q.Valid ∧ f.Valid ∧ (p.denote ∪ q.denote).Nonempty
  | .copy p => p.Valid

/-- Run the program on the model. -/
def SetProg.run (fuel : Nat) : SetProg → Res LpSet
  | .new a size => .done (LpSet.new true a size)
  | .insert p k => (p.run fuel).bind fun s => (s.insert fuel k).bind fun r => .done r.1
  | .merge p q => (p.run fuel).bind fun s => (q.run fuel).bind fun t => s.merge fuel t
  | .filter p f => (p.run fuel).bind fun s => (f.run fuel).bind fun t => s.filter fuel t
  | .mergeFilter p q f => (p.run fuel).bind fun s => (q.run fuel).bind fun t =>
      (f.run fuel).bind fun u => s.mergeFilter fuel t u false
  | .copy p => (p.run fuel).bind fun s => .done s.copy

/-- `s` behaves like the mathematical set `S`. -/
structure BehavesAs (s : LpSet) (S : Finset Nat) : Prop where
  contains : ∀ q, q ≠ 0 → Returns (fun n => s.contains n q) (decide (q ∈ S))
  insert : ∀ k, k ≠ 0 → ∃ s', Returns (fun n => s.insert n k) (s', decide (k ∉ S))
  size : s.size = S.card

/-! ## Proofs -/

theorem gInv_new (a : Nat) {size : Nat} (h : 2 ≤ size) : (LpSet.new true a size).GInv := by
  have hwf := wf_empty { growing := true, arr := [], items := 0, a := a } (n := max 1 size)
    (by omega)
  refine ⟨hwf, rfl, ?_, ?_⟩
  · have := le_nextPow2 (max 1 size)
    simp only [LpSet.new, List.length_replicate]; omega
  · have := keys_empty { growing := true, arr := [], items := 0, a := a } (nextPow2 (max 1 size))
    simp only [LpSet.new] at this ⊢
    rw [this]; simp

theorem new_keys (g : Bool) (a size : Nat) : (LpSet.new g a size).keys = ∅ :=
  keys_empty { growing := g, arr := [], items := 0, a := a } (nextPow2 (max 1 size))

theorem GInv.behaves {s : LpSet} (h : s.GInv) : BehavesAs s s.keys where
  contains q hq := contains_spec h.toWF hq (Or.inl h.free)
  insert k hk := by
    obtain ⟨s', hr, _⟩ := insert_spec h hk
    exact ⟨s', hr⟩
  size := h.items_eq

theorem SetProg.run_spec : ∀ p : SetProg, p.Valid →
    ∃ s, Returns (fun n => p.run n) s ∧ s.GInv ∧ s.keys = p.denote
  | .new a size, h => ⟨_, Returns.pure _, gInv_new a h, new_keys _ _ _⟩
  | .insert p k, h => by
    obtain ⟨s, hr, hg, hk⟩ := p.run_spec h.1
    obtain ⟨s', hr', hg', hk', _⟩ := insert_spec hg h.2
    refine ⟨s', ?_, hg', by rw [hk', hk]; rfl⟩
    exact hr.bind (g := fun n s => (s.insert n k).bind fun r => .done r.1)
      (hr'.map (fun r => r.1))
  | .merge p q, h => by
    obtain ⟨s, hr, hg, hk⟩ := p.run_spec h.1
    obtain ⟨t, hrt, hgt, hkt⟩ := q.run_spec h.2
    obtain ⟨s', hr', hg', hk'⟩ := merge_spec hg hgt.toWF
    refine ⟨s', ?_, hg', by rw [hk', hk, hkt]; rfl⟩
    exact hr.bind (g := fun n s => (q.run n).bind fun t => s.merge n t)
      (hrt.bind (g := fun n t => s.merge n t) hr')
  | .filter p q, h => by
    obtain ⟨s, hr, hg, hk⟩ := p.run_spec h.1
    obtain ⟨t, hrt, hgt, hkt⟩ := q.run_spec h.2
    obtain ⟨s', hr', hg', hk'⟩ := filter_spec hg hgt.toWF hgt.free
    refine ⟨s', ?_, hg', by rw [hk', hk, hkt]; rfl⟩
    exact hr.bind (g := fun n s => (q.run n).bind fun t => s.filter n t)
      (hrt.bind (g := fun n t => s.filter n t) hr')
  | .mergeFilter p q f, h => by
    obtain ⟨s, hr, hg, hk⟩ := p.run_spec h.1
    obtain ⟨t, hrt, hgt, hkt⟩ := q.run_spec h.2.1
    obtain ⟨u, hru, hgu, hku⟩ := f.run_spec h.2.2.1
    have hne : s.keys.Nonempty ∨ t.keys.Nonempty := by
      rw [hk, hkt]; exact Finset.union_nonempty.1 h.2.2.2
    obtain ⟨s', hr', hg', hk'⟩ := mergeFilter_spec hg hgt.toWF hgu.toWF hgu.free false hne
    refine ⟨s', ?_, hg', ?_⟩
    · exact hr.bind (g := fun n s => (q.run n).bind fun t =>
        (f.run n).bind fun u => s.mergeFilter n t u false)
        (hrt.bind (g := fun n t => (f.run n).bind fun u => s.mergeFilter n t u false)
          (hru.bind (g := fun n u => s.mergeFilter n t u false) hr'))
    · rw [hk', hk, hkt, hku]
      ext x
      simp only [SetProg.denote, Finset.mem_union, Finset.mem_sdiff, Finset.mem_filter,
        decide_eq_false_iff_not]
      tauto
  | .copy p, h => by
    obtain ⟨s, hr, hg, hk⟩ := p.run_spec h
    refine ⟨s, ?_, hg, hk⟩
    have := hr.map LpSet.copy
    rw [copy_eq hg.toWF] at this
    exact this

/-! ## Property theorems -/

/-- **C01, C03, C04 (refinement).** Every client program that builds a growing set by construction
(initial size ≥ 2), insertion, merging, filtering, filtered merging and copying terminates without
undefined behaviour, and the result behaves exactly like the mathematical set the program denotes:
`contains` decides membership, `insert` reports whether the key is new, `size` is the
cardinality. -/
theorem C01_set_refines (p : SetProg) (h : p.Valid) :
    ∃ s, Returns (fun n => p.run n) s ∧ BehavesAs s p.denote := by
  obtain ⟨s, hr, hg, hk⟩ := p.run_spec h
  exact ⟨s, hr, hk ▸ GInv.behaves hg⟩

example : (SetProg.mergeFilter (.insert (.new 3 2) 7) (.merge (.insert (.new 5 9) 7)
    (.insert (.new 1 2) 8)) (.insert (.new 7 4) 9)).Valid := by
  simp [SetProg.Valid, SetProg.denote]

/-- Insert a whole sequence, recording the answers. -/
def insertSeq (fuel : Nat) : List Nat → LpSet → Res (LpSet × List Bool)
  | [], s => .done (s, [])
  | k :: ks, s => (s.insert fuel k).bind fun r =>
      (insertSeq fuel ks r.1).bind fun q => .done (q.1, r.2 :: q.2)

/-- Specification of the answers: "is the key new?". -/
def newness (seen : List Nat) : List Nat → List Bool
  | [] => []
  | k :: ks => decide (k ∉ seen) :: newness (k :: seen) ks

theorem insertSeq_spec : ∀ (ks : List Nat) (s : LpSet) (seen : List Nat), s.GInv →
    s.keys = seen.toFinset → (∀ k ∈ ks, k ≠ 0) →
    ∃ s', Returns (fun n => insertSeq n ks s) (s', newness seen ks) ∧ s'.GInv ∧
      s'.keys = seen.toFinset ∪ ks.toFinset
  | [], s, seen, hg, hk, _ => ⟨s, Returns.pure _, hg, by simp [hk]⟩
  | k :: ks, s, seen, hg, hk, hks => by
    obtain ⟨s1, hr, hg1, hk1, _⟩ := insert_spec hg (hks k (by simp))
    obtain ⟨s2, hr2, hg2, hk2⟩ := insertSeq_spec ks s1 (k :: seen) hg1
      (by rw [hk1, hk]; simp) (fun x hx => hks x (by simp [hx]))
    refine ⟨s2, ?_, hg2, ?_⟩
    · have hb : decide (k ∉ s.keys) = decide (k ∉ seen) := by rw [hk]; simp
      rw [hb] at hr
      exact hr.bind (g := fun n r => (insertSeq n ks r.1).bind fun q => .done (q.1, r.2 :: q.2))
        (hr2.map (fun q => (q.1, decide (k ∉ seen) :: q.2)))
    · rw [hk2]; ext x; simp

/-- **C01.** Any sequence of insertions of non-zero keys into a fresh growing set with initial size
at least 2, for every hash multiplier: all calls return, each answer says whether the key is new,
and afterwards `contains`/`size` describe exactly the set of inserted keys. -/
theorem C01_insert_sequence (a size : Nat) (hs : 2 ≤ size) (ks : List Nat)
    (hks : ∀ k ∈ ks, k ≠ 0) :
    ∃ s, Returns (fun n => insertSeq n ks (LpSet.new true a size)) (s, newness [] ks) ∧
      s.size = ks.toFinset.card ∧
      ∀ q, q ≠ 0 → Returns (fun n => s.contains n q) (decide (q ∈ ks)) := by
  obtain ⟨s, hr, hg, hk⟩ := insertSeq_spec ks (LpSet.new true a size) [] (gInv_new a hs)
    (by simp [new_keys]) hks
  have hk' : s.keys = ks.toFinset := by rw [hk]; simp
  refine ⟨s, hr, by rw [← hk']; exact hg.items_eq, fun q hq => ?_⟩
  have := (GInv.behaves hg).contains q hq
  rw [hk'] at this
  simpa using this

example : ∀ k ∈ [5, 3, 5, 8], k ≠ 0 := by decide

/-- **C03.** Merging two sets built by arbitrary client programs yields the union. -/
theorem C03_merge_union (p q : SetProg) (hp : p.Valid) (hq : q.Valid) :
    ∃ s t u, Returns (fun n => p.run n) s ∧ Returns (fun n => q.run n) t ∧
      Returns (fun n => s.merge n t) u ∧ BehavesAs s p.denote ∧ BehavesAs t q.denote ∧
      BehavesAs u (p.denote ∪ q.denote) := by
  obtain ⟨s, hr, hg, hk⟩ := p.run_spec hp
  obtain ⟨t, hrt, hgt, hkt⟩ := q.run_spec hq
  obtain ⟨u, hr', hg', hk'⟩ := merge_spec hg hgt.toWF
  exact ⟨s, t, u, hr, hrt, hr', hk ▸ GInv.behaves hg, hkt ▸ GInv.behaves hgt,
    by rw [← hk, ← hkt, ← hk']; exact GInv.behaves hg'⟩

example : (SetProg.insert (.new 3 2) 7).Valid ∧ (SetProg.insert (.insert (.new 5 3) 7) 4).Valid := by
  simp [SetProg.Valid]

/-- **C04 (filter).** `filter` removes exactly the keys of the filter set. -/
theorem C04_filter (p f : SetProg) (hp : p.Valid) (hf : f.Valid) :
    ∃ s F u, Returns (fun n => p.run n) s ∧ Returns (fun n => f.run n) F ∧
      Returns (fun n => s.filter n F) u ∧ BehavesAs u (p.denote \ f.denote) := by
  obtain ⟨s, hr, hg, hk⟩ := p.run_spec hp
  obtain ⟨t, hrt, hgt, hkt⟩ := f.run_spec hf
  obtain ⟨u, hr', hg', hk'⟩ := filter_spec hg hgt.toWF hgt.free
  exact ⟨s, t, u, hr, hrt, hr', by rw [← hk, ← hkt, ← hk']; exact GInv.behaves hg'⟩

/-- **C04 (partial: filtered merge with the default `cmp = false`, operands not both empty).** The
full property also asks for `cmp = true` (`C04_mergeFilter_cmp_violated`) and for two empty
operands (`C04_mergeFilter_empty_violated`), where the code is wrong. -/
theorem C04_mergeFilter_partial (p q f : SetProg) (hp : p.Valid) (hq : q.Valid) (hf : f.Valid)
    (hne : (p.denote ∪ q.denote).Nonempty) :
    ∃ s t F u, Returns (fun n => p.run n) s ∧ Returns (fun n => q.run n) t ∧
      Returns (fun n => f.run n) F ∧ Returns (fun n => s.mergeFilter n t F false) u ∧
      BehavesAs u ((p.denote ∪ q.denote).filter (fun x => decide (x ∈ f.denote) = false)) := by
  obtain ⟨s, hr, hg, hk⟩ := p.run_spec hp
  obtain ⟨t, hrt, hgt, hkt⟩ := q.run_spec hq
  obtain ⟨F, hrf, hgf, hkf⟩ := f.run_spec hf
  obtain ⟨u, hr', hg', hk'⟩ := mergeFilter_spec hg hgt.toWF hgf.toWF hgf.free false
    (by rw [hk, hkt]; exact Finset.union_nonempty.1 hne)
  refine ⟨s, t, F, u, hr, hrt, hrf, hr', ?_⟩
  have : (p.denote ∪ q.denote).filter (fun x => decide (x ∈ f.denote) = false) = u.keys := by
    rw [hk', hk, hkt, hkf]
    ext x
    simp only [Finset.mem_union, Finset.mem_sdiff, Finset.mem_filter, decide_eq_false_iff_not]
    tauto
  rw [this]
  exact GInv.behaves hg'

example : ((SetProg.insert (.new 3 2) 7).denote ∪ (SetProg.new 1 2).denote).Nonempty := by
  simp [SetProg.denote]

/-- What the filtered merge computes for either value of `cmp`: `cmp` is honoured for the second
operand only. -/
theorem C04_mergeFilter_actual_partial (p q f : SetProg) (cmp : Bool) (hp : p.Valid) (hq : q.Valid)
    (hf : f.Valid) (hne : (p.denote ∪ q.denote).Nonempty) :
    ∃ s t F u, Returns (fun n => p.run n) s ∧ Returns (fun n => q.run n) t ∧
      Returns (fun n => f.run n) F ∧ Returns (fun n => s.mergeFilter n t F cmp) u ∧
      BehavesAs u ((p.denote \ f.denote) ∪
        q.denote.filter (fun x => decide (x ∈ f.denote) = cmp)) := by
  obtain ⟨s, hr, hg, hk⟩ := p.run_spec hp
  obtain ⟨t, hrt, hgt, hkt⟩ := q.run_spec hq
  obtain ⟨F, hrf, hgf, hkf⟩ := f.run_spec hf
  obtain ⟨u, hr', hg', hk'⟩ := mergeFilter_spec hg hgt.toWF hgf.toWF hgf.free cmp
    (by rw [hk, hkt]; exact Finset.union_nonempty.1 hne)
  exact ⟨s, t, F, u, hr, hrt, hrf, hr', by rw [← hk, ← hkt, ← hkf, ← hk']; exact GInv.behaves hg'⟩

/-- **C04 violated for `cmp = true`.** Whatever the operands, a key of the first operand that is in
the filter is lost although it satisfies `F.count(x) == cmp` (unless the second operand has it too). -/
theorem C04_mergeFilter_cmp_violated (p q f : SetProg) (hp : p.Valid) (hq : q.Valid) (hf : f.Valid)
    (x : Nat) (hx0 : x ≠ 0) (hxp : x ∈ p.denote) (hxf : x ∈ f.denote) (hxq : x ∉ q.denote) :
    ∃ s t F u, Returns (fun n => p.run n) s ∧ Returns (fun n => q.run n) t ∧
      Returns (fun n => f.run n) F ∧ Returns (fun n => s.mergeFilter n t F true) u ∧
      Returns (fun n => u.contains n x) false := by
  obtain ⟨s, t, F, u, h1, h2, h3, h4, h5⟩ := C04_mergeFilter_actual_partial p q f true hp hq hf
    ⟨x, Finset.mem_union_left _ hxp⟩
  refine ⟨s, t, F, u, h1, h2, h3, h4, ?_⟩
  have := h5.contains x hx0
  have hd : decide (x ∈ p.denote \ f.denote ∪ q.denote.filter
      (fun x => decide (x ∈ f.denote) = true)) = false := by
    simp [hxf, hxq]
  rw [hd] at this
  exact this

example : (7 : Nat) ≠ 0 ∧ 7 ∈ (SetProg.insert (.new 3 2) 7).denote ∧
    7 ∈ (SetProg.insert (.new 1 2) 7).denote ∧ 7 ∉ (SetProg.new 1 2).denote := by
  simp [SetProg.denote]

/-- **C04 violated for empty operands.** The filtered merge of two empty sets leaves a set without
any slot; querying or inserting into it accesses memory out of bounds. -/
theorem C04_mergeFilter_empty_violated (a b c k : Nat) (hk : 0 < k) (cmp : Bool) :
    ∃ u, Returns (fun n => (LpSet.new true a 2).mergeFilter n (LpSet.new true b 2)
        (LpSet.new true c 2) cmp) u ∧
      Undefined (fun n => u.contains n k) ∧ Undefined (fun n => u.insert n k) := by
  refine ⟨{ growing := true, arr := [], items := 0, a := a }, ⟨0, fun m _ => ?_⟩, ⟨1, fun m hm => ?_⟩,
    ⟨1, fun m hm => ?_⟩⟩
  · have : nextPow2 2 = 2 := nextPow2_pow 1
    have h0 : nextPow2 0 = 0 := rfl
    simp [mergeFilter, rehashFilter, LpSet.new, this, h0, reinsertFiltered, insertFiltered, size,
      List.replicate]
  · obtain ⟨m', rfl⟩ : ∃ m', m = m' + 1 := ⟨m - 1, by omega⟩
    simp [contains, containsLoop]
  · obtain ⟨m', rfl⟩ : ∃ m', m = m' + 1 := ⟨m - 1, by omega⟩
    simp [LpSet.insert, mustGrow, capacity, insertRaw, insertLoop]

/-! ### C02: the default constructed set -/

/-- **C02 violated.** For every hash multiplier and every key: after one insertion into a default
constructed growing set, looking up any other key never returns. -/
theorem C02_default_lookup_violated (a k q : Nat) (hk : k ≠ 0) (hq : q ≠ 0) (hqk : q ≠ k) :
    ∃ s, Returns (fun n => (LpSet.new true a 1).insert n k) (s, true) ∧
      Diverges (fun n => s.contains n q) := by
  have hp1 : nextPow2 1 = 1 := nextPow2_pow 0
  have hnew : LpSet.new true a 1 = { growing := true, arr := [0], items := 0, a := a } := by
    simp [LpSet.new, hp1, List.replicate]
  refine ⟨{ growing := true, arr := [k], items := 1, a := a }, ⟨1, fun m hm => ?_⟩, ?_⟩
  · obtain ⟨m', rfl⟩ : ∃ m', m = m' + 1 := ⟨m - 1, by omega⟩
    rw [hnew]
    simp [LpSet.insert, mustGrow, capacity, insertRaw, insertLoop, maskIdx, Ne.symm hk]
  · apply contains_diverges (p := 0) (by simp) <;> simp [Ne.symm hk, hqk, hq]

/-- **C02 violated, two elements.** The same holds after a second, different key was inserted. -/
theorem C02_default_lookup_two_violated (a k l q : Nat) (hk : k ≠ 0) (hl : l ≠ 0) (hq : q ≠ 0)
    (hkl : k ≠ l) (hqk : q ≠ k) (hql : q ≠ l) :
    ∃ s, Returns (fun n => insertSeq n [k, l] (LpSet.new true a 1)) (s, [true, true]) ∧
      Diverges (fun n => s.contains n q) := by
  have hp1 : nextPow2 1 = 1 := nextPow2_pow 0
  have hnew : LpSet.new true a 1 = { growing := true, arr := [0], items := 0, a := a } := by
    simp [LpSet.new, hp1, List.replicate]
  have hfirst : Returns (fun n => (LpSet.new true a 1).insert n k)
      ({ growing := true, arr := [k], items := 1, a := a }, true) := by
    refine ⟨1, fun m hm => ?_⟩
    obtain ⟨m', rfl⟩ : ∃ m', m = m' + 1 := ⟨m - 1, by omega⟩
    rw [hnew]
    simp [LpSet.insert, mustGrow, capacity, insertRaw, insertLoop, maskIdx, Ne.symm hk]
  have hkeys : LpSet.keys { growing := true, arr := [k], items := 1, a := a } = {k} := by
    ext x; simp only [mem_keys, List.mem_singleton, Finset.mem_singleton]
    constructor
    · exact fun h => h.2
    · rintro rfl; exact ⟨hk, rfl⟩
  obtain ⟨s1, hr, hwf, hk1, hlen, _, _⟩ := rehash_spec
    (s := { growing := true, arr := [k], items := 1, a := a }) (n := 2) (by omega)
    (by rw [hkeys]; simp)
  have hn2 : nextPow2 2 = 2 := nextPow2_pow 1
  rw [hn2] at hlen
  rw [hkeys] at hk1
  obtain ⟨s2, hr2, hwf2, hk2, hlen2, _, _⟩ := insertRaw_spec hwf hl (Or.inl (hwf.free (by
    rw [hk1, hlen]; simp)))
  have hins : Returns (fun n => LpSet.insert n { growing := true, arr := [k], items := 1, a := a } l)
      (s2, true) := by
    have hb : decide (l ∉ s1.keys) = true := by rw [hk1]; simp [Ne.symm hkl]
    rw [hb] at hr2
    have := hr.bind (g := fun n s' => insertRaw n s' l) hr2
    simpa [LpSet.insert, mustGrow, capacity] using this
  refine ⟨s2, ?_, ?_⟩
  · refine hfirst.bind (g := fun n r => (insertSeq n [l] r.1).bind fun q => .done (q.1, r.2 :: q.2)) ?_
    refine (hins.bind (g := fun n r => (insertSeq n [] r.1).bind fun q => .done (q.1, r.2 :: q.2))
      (b := (s2, [true])) ?_).map _
    exact Returns.pure _
  · have hcard : s2.keys.card = 2 := by
      rw [hk2, hk1]; simp [Ne.symm hkl]
    have h0 : 0 ∉ s2.arr := by
      intro h0
      have h1 : occ s2.arr = 2 := by rw [← hwf2.cnt, hwf2.items_eq, hcard]
      have h2 : s2.arr.length = 2 := by omega
      unfold occ at h1
      have h3 : s2.arr.countP (fun x => x != 0) = s2.arr.length := by omega
      rw [List.countP_eq_length] at h3
      have := h3 0 h0
      simp at this
    have hqn : q ∉ s2.arr := by
      intro hh
      have : q ∈ s2.keys := mem_keys.2 ⟨hq, hh⟩
      rw [hk2, hk1] at this
      simp [hqk, hql] at this
    exact contains_diverges (p := 1) (by omega) h0 hqn

/-- Invariant of a default constructed set: either half full at most, or one of three small
crowded states. -/
def DInv (s : LpSet) : Prop :=
  s.WF ∧ s.growing = true ∧ (2 * s.keys.card ≤ s.arr.length ∧ 2 ≤ s.arr.length ∨
    s.arr.length = 1 ∨ s.arr.length = 2 ∧ s.keys.card = 2 ∨ s.arr.length = 4 ∧ s.keys.card = 3)

theorem DInv.card_le {s : LpSet} (h : DInv s) : s.keys.card ≤ s.arr.length := by
  rw [← h.1.items_eq, h.1.cnt]; exact occ_le _

theorem dInv_insert {s : LpSet} (h : DInv s) {k : Nat} (hk : k ≠ 0) :
    ∃ s', Returns (fun f => s.insert f k) (s', decide (k ∉ s.keys)) ∧ DInv s' ∧
      s'.keys = insert k s.keys := by
  obtain ⟨hwf, hgr, hc⟩ := h
  by_cases hG : 2 * s.keys.card ≤ s.arr.length ∧ 2 ≤ s.arr.length
  · obtain ⟨s', hr, hg, hk', _, _⟩ := insert_spec ⟨hwf, hgr, hG.2, hG.1⟩ hk
    exact ⟨s', hr, ⟨hg.toWF, hg.grow, Or.inl ⟨hg.half, hg.two⟩⟩, hk'⟩
  have hle := DInv.card_le ⟨hwf, hgr, hc⟩
  have hic : (insert k s.keys).card ≤ s.keys.card + 1 := Finset.card_insert_le _ _
  have hic2 : s.keys.card ≤ (insert k s.keys).card := Finset.card_le_card (Finset.subset_insert _ _)
  have hpos := hwf.pos
  by_cases hz : s.keys.card = 0
  · -- empty set of capacity one
    have hl : s.arr.length = 1 := by omega
    have hg : s.mustGrow = false := by
      simp [mustGrow, capacity, hl, hwf.items_eq, hz]
    obtain ⟨s2, hr2, hwf2, hk2, hlen2, hgr2, ha2⟩ := insertRaw_spec hwf hk
      (Or.inl (hwf.free (by omega)))
    refine ⟨s2, ?_, ⟨hwf2, hgr2.trans hgr, Or.inr (Or.inl (by omega))⟩, hk2⟩
    simp only [LpSet.insert, hg]
    exact hr2
  · have hg : s.mustGrow = true := by
      have : s.arr.length ≤ 2 * s.items := by rw [hwf.items_eq]; omega
      simp only [mustGrow, hgr, capacity, this, decide_true, Bool.true_and, Bool.not_eq_true',
        Bool.and_eq_false_iff, beq_eq_false_iff_ne]
      left; omega
    obtain ⟨s1, hr, hwf1, hk1, hlen, hgr1, ha⟩ := rehash_spec (s := s)
      (n := s.capacity * 2) (by unfold capacity; omega) (by unfold capacity; omega)
    have hlen' : s1.arr.length = 2 * s.arr.length := by
      rw [hlen]
      obtain ⟨p, hp⟩ := hwf.pow
      unfold capacity
      rw [hp, ← Nat.pow_succ, nextPow2_pow, Nat.pow_succ]; omega
    obtain ⟨s2, hr2, hwf2, hk2, hlen2, hgr2, ha2⟩ := insertRaw_spec hwf1 hk
      (Or.inl (hwf1.free (by rw [hk1, hlen']; omega)))
    refine ⟨s2, ?_, ⟨hwf2, hgr2.trans (hgr1.trans hgr), ?_⟩, by rw [hk2, hk1]⟩
    · simp only [LpSet.insert, hg, if_true]
      rw [hk1] at hr2
      exact hr.bind (g := fun f s' => insertRaw f s' k) hr2
    · rw [hk2, hk1, hlen2, hlen']
      omega

theorem dInv_insertSeq : ∀ (ks : List Nat) (s : LpSet) (seen : List Nat), DInv s →
    s.keys = seen.toFinset → (∀ k ∈ ks, k ≠ 0) →
    ∃ s', Returns (fun n => insertSeq n ks s) (s', newness seen ks) ∧ DInv s' ∧
      s'.keys = seen.toFinset ∪ ks.toFinset
  | [], s, seen, hg, hk, _ => ⟨s, Returns.pure _, hg, by simp [hk]⟩
  | k :: ks, s, seen, hg, hk, hks => by
    obtain ⟨s1, hr, hg1, hk1⟩ := dInv_insert hg (hks k (by simp))
    obtain ⟨s2, hr2, hg2, hk2⟩ := dInv_insertSeq ks s1 (k :: seen) hg1
      (by rw [hk1, hk]; simp) (fun x hx => hks x (by simp [hx]))
    refine ⟨s2, ?_, hg2, ?_⟩
    · have hb : decide (k ∉ s.keys) = decide (k ∉ seen) := by rw [hk]; simp
      rw [hb] at hr
      exact hr.bind (g := fun n r => (insertSeq n ks r.1).bind fun q => .done (q.1, r.2 :: q.2))
        (hr2.map (fun q => (q.1, decide (k ∉ seen) :: q.2)))
    · rw [hk2]; ext x; simp

/-- **C02 (partial).** For a default constructed growing set every insertion returns and answers
correctly and `size` is right; a stored key is found; and a missing key is correctly reported if the
set holds no key or at least three. Missing (and false, see above): missing keys when the set
holds one or two keys. -/
theorem C02_default_set_partial (a : Nat) (ks : List Nat) (hks : ∀ k ∈ ks, k ≠ 0) :
    ∃ s, Returns (fun n => insertSeq n ks (LpSet.new true a 1)) (s, newness [] ks) ∧
      s.size = ks.toFinset.card ∧
      (∀ q ∈ ks, Returns (fun n => s.contains n q) true) ∧
      (ks.toFinset.card = 0 ∨ 3 ≤ ks.toFinset.card →
        ∀ q, q ≠ 0 → q ∉ ks → Returns (fun n => s.contains n q) false) := by
  have hwf0 := wf_empty { growing := true, arr := [], items := 0, a := a } (n := 1) (by omega)
  have hp1 : nextPow2 1 = 1 := nextPow2_pow 0
  obtain ⟨s, hr, hg, hk⟩ := dInv_insertSeq ks (LpSet.new true a 1) []
    ⟨hwf0, rfl, Or.inr (Or.inl (by simp [LpSet.new, hp1]))⟩ (by simp [new_keys]) hks
  have hk' : s.keys = ks.toFinset := by rw [hk]; simp
  refine ⟨s, hr, by rw [← hk']; exact hg.1.items_eq, fun q hq => ?_, fun hc q hq hqn => ?_⟩
  · have hm : q ∈ s.keys := by rw [hk']; simpa using hq
    have := contains_spec hg.1 (hks q hq) (Or.inr (mem_keys.1 hm).2)
    simpa [hm] using this
  · have hfree : 0 ∈ s.arr := by
      apply hg.1.free
      have hle := DInv.card_le hg
      have hpos := hg.1.pos
      rcases hg.2.2 with h | h | h | h <;> rw [hk'] at * <;> omega
    have hm : q ∉ s.keys := by rw [hk']; simpa using hqn
    have := contains_spec hg.1 hq (Or.inl hfree)
    simpa [hm] using this

example : (∀ k ∈ [5, 3, 5, 8], k ≠ 0) ∧ 3 ≤ [5, 3, 5, 8].toFinset.card := by decide

/-! ### C74: fixed-size sets -/

theorem fixed_insertSeq : ∀ (ks : List Nat) (s : LpSet) (seen : List Nat), s.WF →
    s.growing = false → s.keys = seen.toFinset → (∀ k ∈ ks, k ≠ 0) →
    (seen.toFinset ∪ ks.toFinset).card ≤ s.capacity →
    ∃ s', Returns (fun n => insertSeq n ks s) (s', newness seen ks) ∧ s'.WF ∧
      s'.growing = false ∧ s'.capacity = s.capacity ∧
      s'.keys = seen.toFinset ∪ ks.toFinset
  | [], s, seen, hg, hgr, hk, _, _ => ⟨s, Returns.pure _, hg, hgr, rfl, by simp [hk]⟩
  | k :: ks, s, seen, hg, hgr, hk, hks, hcard => by
    have hk0 : k ≠ 0 := hks k (by simp)
    have hu : (k :: seen).toFinset ∪ ks.toFinset = seen.toFinset ∪ (k :: ks).toFinset := by
      ext x; simp
    have hex : 0 ∈ s.arr ∨ k ∈ s.arr := by
      by_cases hm : k ∈ s.arr
      · exact Or.inr hm
      · left
        apply hg.free
        have hxk : k ∉ s.keys := fun hh => hm (mem_keys.1 hh).2
        have : insert k s.keys ⊆ seen.toFinset ∪ (k :: ks).toFinset := by
          rw [hk]; intro y hy; simp at hy ⊢; tauto
        have h2 := Finset.card_le_card this
        rw [Finset.card_insert_of_notMem hxk] at h2
        unfold capacity at hcard
        omega
    obtain ⟨s1, hr, hg1, hk1, hlen, hgr1, _⟩ := insertRaw_spec hg hk0 hex
    obtain ⟨s2, hr2, hg2, hgr2, hcap, hk2⟩ := fixed_insertSeq ks s1 (k :: seen) hg1 (hgr1.trans hgr)
      (by rw [hk1, hk]; simp) (fun x hx => hks x (by simp [hx]))
      (by rw [hu]; unfold capacity at *; omega)
    refine ⟨s2, ?_, hg2, hgr2, by unfold capacity at *; omega, by rw [hk2, hu]⟩
    have hb : decide (k ∉ s.keys) = decide (k ∉ seen) := by rw [hk]; simp
    rw [hb] at hr
    have hmg : s.mustGrow = false := by simp [mustGrow, hgr]
    have hr' : Returns (fun n => s.insert n k) (s1, decide (k ∉ seen)) := by
      simp only [LpSet.insert, hmg]; exact hr
    exact hr'.bind (g := fun n r => (insertSeq n ks r.1).bind fun q => .done (q.1, r.2 :: q.2))
        (hr2.map (fun q => (q.1, decide (k ∉ seen) :: q.2)))

/-- **C74.** A fixed-size set built for `size` keys accepts every sequence with at most `size`
distinct non-zero keys: each answer says whether the key is new, `size()` is right, stored keys are
found, and missing keys are reported missing as long as the table is not completely full. -/
theorem C74_fixed_set (a size : Nat) (ks : List Nat) (hks : ∀ k ∈ ks, k ≠ 0)
    (hc : ks.toFinset.card ≤ size) :
    ∃ s, Returns (fun n => insertSeq n ks (LpSet.new false a size)) (s, newness [] ks) ∧
      size ≤ s.capacity ∧ s.size = ks.toFinset.card ∧
      (∀ q ∈ ks, Returns (fun n => s.contains n q) true) ∧
      (ks.toFinset.card < s.capacity →
        ∀ q, q ≠ 0 → q ∉ ks → Returns (fun n => s.contains n q) false) := by
  have hwf0 := wf_empty { growing := false, arr := [], items := 0, a := a } (n := max 1 size)
    (by omega)
  have hle := le_nextPow2 (max 1 size)
  have hcap : (LpSet.new false a size).capacity = nextPow2 (max 1 size) := by
    simp [LpSet.new, capacity]
  obtain ⟨s, hr, hg, hgr, hcap', hk⟩ := fixed_insertSeq ks (LpSet.new false a size) []
    hwf0 rfl (by simp [new_keys]) hks (by rw [hcap]; simp; omega)
  have hk' : s.keys = ks.toFinset := by rw [hk]; simp
  refine ⟨s, hr, by omega, by rw [← hk']; exact hg.items_eq, fun q hq => ?_, fun hc q hq hqn => ?_⟩
  · have hm : q ∈ s.keys := by rw [hk']; simpa using hq
    have := contains_spec hg (hks q hq) (Or.inr (mem_keys.1 hm).2)
    simpa [hm] using this
  · have hm : q ∉ s.keys := by rw [hk']; simpa using hqn
    have := contains_spec hg hq (Or.inl (hg.free (by rw [hk']; exact hc)))
    simpa [hm] using this

example : (∀ k ∈ [5, 3, 5, 8], k ≠ 0) ∧ [5, 3, 5, 8].toFinset.card ≤ 3 := by decide

/-- **C74, the limit.** Once a fixed-size set is completely full, inserting a further key never
returns. -/
theorem C74_fixed_set_full_diverges (a size : Nat) (ks : List Nat) (hks : ∀ k ∈ ks, k ≠ 0)
    (hc : ks.toFinset.card = (LpSet.new false a size).capacity) (q : Nat) (hq : q ≠ 0)
    (hqn : q ∉ ks) :
    ∃ s, Returns (fun n => insertSeq n ks (LpSet.new false a size)) (s, newness [] ks) ∧
      Diverges (fun n => s.insert n q) ∧ Diverges (fun n => s.contains n q) := by
  have hwf0 := wf_empty { growing := false, arr := [], items := 0, a := a } (n := max 1 size)
    (by omega)
  obtain ⟨s, hr, hg, hgr, hcap', hk⟩ := fixed_insertSeq ks (LpSet.new false a size) []
    hwf0 rfl (by simp [new_keys]) hks (by simp; omega)
  have hk' : s.keys = ks.toFinset := by rw [hk]; simp
  obtain ⟨p, hp⟩ := hg.pow
  have h0 : 0 ∉ s.arr := by
    intro h0
    have h3 : s.arr.countP (fun x => x != 0) = s.arr.length := by
      have : occ s.arr = s.arr.length := by
        rw [← hg.cnt, hg.items_eq, hk', hc]; unfold capacity at *; omega
      exact this
    rw [List.countP_eq_length] at h3
    have := h3 0 h0
    simp at this
  have hqn' : q ∉ s.arr := fun hh => by
    have : q ∈ s.keys := mem_keys.2 ⟨hq, hh⟩
    rw [hk'] at this
    exact hqn (by simpa using this)
  refine ⟨s, hr, ?_, contains_diverges hp h0 hqn'⟩
  have := insertRaw_diverges hp h0 hqn'
  have hmg : s.mustGrow = false := by simp [mustGrow, hgr]
  intro n
  simp only [LpSet.insert, hmg]
  exact this n

example : [5, 3, 5].toFinset.card = (LpSet.new false 1 2).capacity := by
  have : nextPow2 2 = 2 := nextPow2_pow 1
  simp [LpSet.new, capacity, this]

/-! ### C72 (set part) and equality -/

/-- **C72 (hash set).** Loading what `save` wrote (followed by any further archive content) restores
the identical set and leaves the rest of the archive. -/
theorem C72_set_roundtrip (s : LpSet) (rest : List Nat) :
    LpSet.load s.growing (s.save ++ rest) = some (s, rest) := by
  simp [LpSet.save, LpSet.load]

example : LpSet.load true (LpSet.save ⟨true, [0, 5, 0, 7], 2, 3⟩ ++ [1, 2]) =
    some (⟨true, [0, 5, 0, 7], 2, 3⟩, [1, 2]) := by decide

theorem eqLoop_spec {s : LpSet} (h : s.GInv) : ∀ l : List Nat,
    Returns (fun n => eqLoop n s l) (decide (listKeys l ⊆ s.keys))
  | [] => by simpa [eqLoop, listKeys] using Returns.pure true
  | x :: xs => by
    by_cases hx : x = 0
    · subst hx
      rw [listKeys_cons_zero]
      simpa [eqLoop] using eqLoop_spec h xs
    · simp only [eqLoop, ne_eq, hx, not_false_eq_true, if_true]
      refine (contains_spec h.toWF hx (Or.inl h.free)).bind
        (g := fun n c => if c = true then eqLoop n s xs else .done false) ?_
      rw [listKeys_cons hx]
      by_cases hm : x ∈ s.keys
      · simp only [hm, decide_true, if_true, Finset.insert_subset_iff, true_and]
        exact eqLoop_spec h xs
      · simpa [hm, Finset.insert_subset_iff] using Returns.pure false

/-- **C75.** `operator==` on sets built by client programs decides equality of the denoted sets. -/
theorem C75_set_equality (p q : SetProg) (hp : p.Valid) (hq : q.Valid) :
    ∃ s t, Returns (fun n => p.run n) s ∧ Returns (fun n => q.run n) t ∧
      Returns (fun n => s.eqSet n t) (decide (p.denote = q.denote)) := by
  obtain ⟨s, hr, hg, hk⟩ := p.run_spec hp
  obtain ⟨t, hrt, hgt, hkt⟩ := q.run_spec hq
  refine ⟨s, t, hr, hrt, ?_⟩
  have h1 : s.size = p.denote.card := by rw [← hk]; exact hg.items_eq
  have h2 : t.size = q.denote.card := by rw [← hkt]; exact hgt.items_eq
  unfold eqSet
  by_cases hs : p.denote.card = q.denote.card
  · have hne : ¬ (s.size ≠ t.size) := by rw [h1, h2]; simpa using hs
    simp only [if_neg hne]
    have := eqLoop_spec hg t.arr
    have e : listKeys t.arr = q.denote := by rw [← hkt]; rfl
    rw [e, hk] at this
    have hd : decide (q.denote ⊆ p.denote) = decide (p.denote = q.denote) := by
      apply decide_eq_decide.2
      constructor
      · intro hsub; exact (Finset.eq_of_subset_of_card_le hsub (by omega)).symm
      · intro he; rw [he]
    rw [hd] at this
    exact this
  · have hne : s.size ≠ t.size := by rw [h1, h2]; exact hs
    simp only [if_pos hne]
    have : decide (p.denote = q.denote) = false := by
      apply decide_eq_false
      intro he; apply hs; rw [he]
    rw [this]
    exact Returns.pure _

end Verif
