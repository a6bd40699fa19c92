import Verif.Lemmas.LpMultiMap
import Verif.Props.HashSet

/-!
# Properties of the sequential hash multimap: C09
-/
namespace Verif
open LpMultiMap

/-! ## Specification -/

/-- A client program that builds a multimap through the public interface. -/
inductive MultiProg where
  | new (a size : Nat)
  | insert (p : MultiProg) (k v : Nat)
  | merge (p q : MultiProg)
  | mergeFilter (p q : MultiProg) (f : SetProg)

/-- Specification: the inserted pairs (with multiplicity). -/
def MultiProg.denote : MultiProg → List (Nat × Nat)
  | .new _ _ => []
  | .insert p k v => (k, v) :: p.denote
  | .merge p q => q.denote ++ p.denote
  | .mergeFilter p q f => (q.denote ++ p.denote).filter (fun x => decide (x.1 ∉ f.denote))

/-- Specification: the values stored under a key (with multiplicity). -/
def valuesOf (k : Nat) (l : List (Nat × Nat)) : List Nat :=
  (l.filter (fun x => decide (x.1 = k))).map Prod.snd

/-- Preconditions: initial size at least 1, keys non-zero, valid filters. -/
def MultiProg.Valid : MultiProg → Prop
  | .new _ size => 1 ≤ size
  | .insert p k _ => p.Valid ∧ k ≠ 0
  | .merge p q => p.Valid ∧ q.Valid
  | .mergeFilter p q f => p.Valid ∧ q.Valid ∧ f.Valid

/-- Run the program on the model. -/
def MultiProg.run (fuel : Nat) : MultiProg → Res LpMultiMap
  | .new a size => .done (LpMultiMap.new a size)
  | .insert p k v => (p.run fuel).bind fun m => m.insert fuel k v
  | .merge p q => (p.run fuel).bind fun m => (q.run fuel).bind fun t => m.merge fuel t
  | .mergeFilter p q f => (p.run fuel).bind fun m => (q.run fuel).bind fun t =>
      (f.run fuel).bind fun u => m.mergeFilter fuel t u

/-! ## Proofs -/

theorem MultiProg.denote_ne_zero : ∀ (p : MultiProg), p.Valid → ∀ x ∈ p.denote, x.1 ≠ 0
  | .new _ _, _ => by simp [denote]
  | .insert p k v, h => by
    intro x hx
    rcases List.mem_cons.1 hx with rfl | hx
    · exact h.2
    · exact p.denote_ne_zero h.1 x hx
  | .merge p q, h => by
    intro x hx
    rcases List.mem_append.1 hx with hx | hx
    · exact q.denote_ne_zero h.2 x hx
    · exact p.denote_ne_zero h.1 x hx
  | .mergeFilter p q f, h => by
    intro x hx
    rcases List.mem_append.1 (List.mem_filter.1 hx).1 with hx | hx
    · exact q.denote_ne_zero h.2.1 x hx
    · exact p.denote_ne_zero h.1 x hx

theorem multi_new_wf (a : Nat) {size : Nat} (h : 1 ≤ size) :
    (LpMultiMap.new a size).WF ∧ (LpMultiMap.new a size).Abs [] :=
  ⟨LpMultiMap.wf_empty { keys := [], vals := [], items := 0, a := a } h,
   LpMultiMap.abs_empty { keys := [], vals := [], items := 0, a := a } _⟩

theorem MultiProg.run_spec : ∀ p : MultiProg, p.Valid →
    ∃ m, Returns (fun n => p.run n) m ∧ m.WF ∧ m.Abs p.denote
  | .new a size, h => ⟨_, Returns.pure _, multi_new_wf a h⟩
  | .insert p k v, h => by
    obtain ⟨m, hr, hw, ha⟩ := p.run_spec h.1
    obtain ⟨m', hr', hw', ha', _⟩ := LpMultiMap.insert_spec hw ha (p.denote_ne_zero h.1) v h.2
    refine ⟨m', ?_, hw', ha'⟩
    exact hr.bind (g := fun n m => m.insert n k v) hr'
  | .merge p q, h => by
    obtain ⟨m, hr, hw, ha⟩ := p.run_spec h.1
    obtain ⟨t, hrt, hwt, hat⟩ := q.run_spec h.2
    obtain ⟨m', hr', hw', ha'⟩ := LpMultiMap.merge_spec hw ha (p.denote_ne_zero h.1) hat
      (q.denote_ne_zero h.2)
    refine ⟨m', ?_, hw', ha'⟩
    exact hr.bind (g := fun n m => (q.run n).bind fun t => m.merge n t)
        (hrt.bind (g := fun n t => m.merge n t) hr')
  | .mergeFilter p q f, h => by
    obtain ⟨m, hr, hw, ha⟩ := p.run_spec h.1
    obtain ⟨t, hrt, hwt, hat⟩ := q.run_spec h.2.1
    obtain ⟨u, hru, hgu, hku⟩ := f.run_spec h.2.2
    obtain ⟨m', hr', hw', ha'⟩ := LpMultiMap.mergeFilter_spec hw ha (p.denote_ne_zero h.1) hat
      (q.denote_ne_zero h.2.1) hgu.toWF hgu.free
    refine ⟨m', ?_, hw', by rw [hku] at ha'; exact ha'⟩
    exact hr.bind (g := fun n m => (q.run n).bind fun t =>
        (f.run n).bind fun u => m.mergeFilter n t u)
        (hrt.bind (g := fun n t => (f.run n).bind fun u => m.mergeFilter n t u)
          (hru.bind (g := fun n u => m.mergeFilter n t u) hr'))

/-! ## Property theorems -/

/-- **C09 (partial).** Every client program terminates without undefined behaviour. In the resulting
multimap, as long as at least two slots are free, iterating over `get(k)` yields exactly the values
inserted under `k`, each as often as it was inserted; `size` counts the stored pairs.
Missing: tables with fewer than two free slots, where the claim is false
(`C09_get_one_free_violated`, `C09_get_full_violated`). -/
theorem C09_get_partial (p : MultiProg) (h : p.Valid) :
    ∃ m, Returns (fun n => p.run n) m ∧ m.size = p.denote.length ∧ m.size ≤ m.capacity ∧
      (m.size + 2 ≤ m.capacity → ∀ k, k ≠ 0 → ∃ vs,
        Returns (fun n => m.getAll n k) vs ∧ vs.Perm (valuesOf k p.denote)) := by
  obtain ⟨m, hr, hw, ha⟩ := p.run_spec h
  exact ⟨m, hr, LpMultiMap.items_eq hw ha, hw.items_le,
    fun h2 k hk => LpMultiMap.getAll_spec hw ha hk h2⟩

/-- **C09 (partial).** `contains` answers for every key as long as one slot is free, and for present
keys always. -/
theorem C09_contains_partial (p : MultiProg) (h : p.Valid) (k : Nat) (hk : k ≠ 0) :
    ∃ m, Returns (fun n => p.run n) m ∧
      (m.size < m.capacity ∨ valuesOf k p.denote ≠ [] →
        Returns (fun n => m.contains n k) (decide (valuesOf k p.denote ≠ []))) := by
  obtain ⟨m, hr, hw, ha⟩ := p.run_spec h
  have hiff : valuesOf k p.denote ≠ [] ↔ ∃ v, (k, v) ∈ p.denote := by
    simp [valuesOf]
  have hiff2 : k ∈ p.denote.map Prod.fst ↔ valuesOf k p.denote ≠ [] := by
    rw [hiff]; simp
  refine ⟨m, hr, fun h => ?_⟩
  have := LpMultiMap.contains_spec hw ha hk (by rw [← hiff]; exact h)
  simpa only [hiff2] using this

/-- **C09 is violated with a single free slot.** After inserting one pair into a multimap of capacity
2, iterating over `get` of that key yields nothing, whatever the hash multiplier, key and value. -/
theorem C09_get_one_free_violated (a k v : Nat) (hk : k ≠ 0) :
    ∃ m, Returns (fun n => (MultiProg.insert (.new a 2) k v).run n) m ∧ m.size = 1 ∧
      m.capacity = 2 ∧ Returns (fun n => m.getAll n k) [] := by
  have hc : nextPow2 2 = 2 := nextPow2_pow 1
  have hm : ∀ i, maskIdx 2 i = i % 2 := fun i => maskIdx_pow 1 i
  rcases Nat.mod_two_eq_zero_or_one (hash64 a k) with h | h
  · refine ⟨{ keys := [k, 0], vals := [some v, none], items := 1, a := a }, ⟨1, ?_⟩, rfl, rfl,
      ⟨3, ?_⟩⟩
    · intro n hn
      obtain ⟨f, rfl⟩ : ∃ f, n = f + 1 := ⟨n - 1, by omega⟩
      simp [MultiProg.run, Res.bind, LpMultiMap.new, LpMultiMap.insert, LpMultiMap.capacity, hc,
        LpMultiMap.insertRaw, LpMultiMap.freeLoop, hm, h, List.replicate]
    · intro n hn
      obtain ⟨f, rfl⟩ : ∃ f, n = f + 3 := ⟨n - 3, by omega⟩
      simp [LpMultiMap.getAll, LpMultiMap.get, LpMultiMap.getLoop, hm, h, hk, Res.bind,
        LpMultiMap.collect]
  · refine ⟨{ keys := [0, k], vals := [none, some v], items := 1, a := a }, ⟨1, ?_⟩, rfl, rfl,
      ⟨3, ?_⟩⟩
    · intro n hn
      obtain ⟨f, rfl⟩ : ∃ f, n = f + 1 := ⟨n - 1, by omega⟩
      simp [MultiProg.run, Res.bind, LpMultiMap.new, LpMultiMap.insert, LpMultiMap.capacity, hc,
        LpMultiMap.insertRaw, LpMultiMap.freeLoop, hm, h, List.replicate]
    · intro n hn
      obtain ⟨f, rfl⟩ : ∃ f, n = f + 3 := ⟨n - 3, by omega⟩
      simp [LpMultiMap.getAll, LpMultiMap.get, LpMultiMap.getLoop, hm, h, hk, Res.bind,
        LpMultiMap.collect]

/-- **C09 is violated on a full table.** After one insertion into a multimap of capacity 1, `get`
never returns, for any key. -/
theorem C09_get_full_violated (a k v x : Nat) (hk : k ≠ 0) :
    ∃ m, Returns (fun n => (MultiProg.insert (.new a 1) k v).run n) m ∧ m.size = 1 ∧
      Diverges (fun n => m.get n x) := by
  have hc : nextPow2 1 = 1 := nextPow2_pow 0
  have hm : ∀ i, maskIdx 1 i = 0 := fun i => by
    have := maskIdx_pow 0 i
    simpa [Nat.mod_one] using this
  refine ⟨{ keys := [k], vals := [some v], items := 1, a := a }, ⟨1, ?_⟩, rfl, ?_⟩
  · intro n hn
    obtain ⟨f, rfl⟩ : ∃ f, n = f + 1 := ⟨n - 1, by omega⟩
    simp [MultiProg.run, Res.bind, LpMultiMap.new, LpMultiMap.insert, LpMultiMap.capacity, hc,
      LpMultiMap.insertRaw, LpMultiMap.freeLoop, hm, List.replicate]
  · intro n
    have : ∀ n i f l, LpMultiMap.getLoop x [k] n i f l = .timeout := by
      intro n
      induction n with
      | zero => intros; rfl
      | succ n ih =>
        intro i f l
        simp [LpMultiMap.getLoop, hm, hk, ih]
    exact this _ _ _ _

/-- The hypotheses of the C09 theorems are met by a program with two values under one key, a foreign
key and a filtered merge. -/
example : (MultiProg.mergeFilter
    (.insert (.insert (.insert (.new 7 4) 3 30) 3 31) 5 50) (.insert (.new 7 4) 3 32)
    (.insert (.new 7 4) 5)).Valid := by
  simp [MultiProg.Valid, SetProg.Valid]

example : MultiProg.denote (.mergeFilter
    (.insert (.insert (.insert (.new 7 4) 3 30) 3 31) 5 50) (.insert (.new 7 4) 3 32)
    (.insert (.new 7 4) 5)) = [(3, 32), (3, 31), (3, 30)] := by decide

end Verif
