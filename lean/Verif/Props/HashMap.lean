import Verif.Lemmas.LpMap
import Verif.Props.HashSet

/-!
# Properties of the sequential hash map: C07, C08, C72 (map part), C76
-/
namespace Verif
open LpMap

/-! ## Specification -/

/-- A client program that builds a map through the public interface; filters are sets built by
`SetProg` programs. -/
inductive MapProg where
  | new (a size : Nat)
  | insert (p : MapProg) (k v : Nat)
  | merge (p q : MapProg)
  | mergeFilter (p q : MapProg) (f : SetProg)

/-- Specification: the finite function a program denotes. -/
def MapProg.denote : MapProg → Nat → Option Nat
  | .new _ _ => fun _ => none
  | .insert p k v => fun x => if x = k then some v else p.denote x
  | .merge p q => fun x => match q.denote x with
    | some v => some v
    | none => p.denote x
  | .mergeFilter p q f => fun x =>
      if x ∈ f.denote then none
      else match q.denote x with
        | some v => some v
        | none => p.denote x

/-- Specification: the keys with a value. -/
def MapProg.dom : MapProg → Finset Nat
  | .new _ _ => ∅
  | .insert p k _ => Insert.insert k p.dom
  | .merge p q => p.dom ∪ q.dom
  | .mergeFilter p q f => (p.dom ∪ q.dom) \ f.denote

/-- Preconditions: initial size at least 1, keys non-zero (asserted by the code), filters are valid
set programs. -/
def MapProg.Valid : MapProg → Prop
  | .new _ size => 1 ≤ size
  | .insert p k _ => p.Valid ∧ k ≠ 0
  | .merge p q => p.Valid ∧ q.Valid
  | .mergeFilter p q f => p.Valid ∧ q.Valid ∧ f.Valid

/-- Run the program on the model. -/
def MapProg.run (fuel : Nat) : MapProg → Res LpMap
  | .new a size => .done (LpMap.new a size)
  | .insert p k v => (p.run fuel).bind fun m => (m.insert fuel k v).bind fun r => .done r.1
  | .merge p q => (p.run fuel).bind fun m => (q.run fuel).bind fun t => m.merge fuel t
  | .mergeFilter p q f => (p.run fuel).bind fun m => (q.run fuel).bind fun t =>
      (f.run fuel).bind fun u => m.mergeFilter fuel t u

/-- `m` behaves like the finite function `f` with domain `D`, as far as the code allows: lookups of
absent keys return only while the table is not completely full. -/
structure MapBehavesAs (m : LpMap) (f : Nat → Option Nat) (D : Finset Nat) : Prop where
  insert : ∀ k v, k ≠ 0 → ∃ m', Returns (fun n => m.insert n k v) (m', decide (f k = none))
  get_present : ∀ k v, k ≠ 0 → f k = some v → Returns (fun n => m.get n k) v
  get_absent : ∀ k, k ≠ 0 → f k = none → m.size < m.capacity → Returns (fun n => m.get n k) 0
  get_absent_full : ∀ k, k ≠ 0 → f k = none → m.size = m.capacity → Diverges (fun n => m.get n k)
  size : m.size = D.card
  size_le : m.size ≤ m.capacity

/-! ## Proofs -/

theorem MapProg.dom_iff : ∀ (p : MapProg) (k : Nat), k ∈ p.dom ↔ p.denote k ≠ none
  | .new _ _, k => by simp [dom, denote]
  | .insert p k' v, k => by
    have := p.dom_iff k
    simp only [dom, denote, Finset.mem_insert, this]
    split <;> simp_all
  | .merge p q, k => by
    have h1 := p.dom_iff k
    have h2 := q.dom_iff k
    simp only [dom, denote, Finset.mem_union, h1, h2]
    cases q.denote k <;> simp
  | .mergeFilter p q f, k => by
    have h1 := p.dom_iff k
    have h2 := q.dom_iff k
    simp only [dom, denote, Finset.mem_union, Finset.mem_sdiff, h1, h2]
    by_cases hf : k ∈ f.denote
    · simp [hf]
    · cases q.denote k <;> simp [hf]

theorem MapProg.dom_ne_zero : ∀ (p : MapProg), p.Valid → 0 ∉ p.dom
  | .new _ _, _ => by simp [dom]
  | .insert p k' v, h => by simpa [dom] using ⟨Ne.symm h.2, p.dom_ne_zero h.1⟩
  | .merge p q, h => by simpa [dom] using ⟨p.dom_ne_zero h.1, q.dom_ne_zero h.2⟩
  | .mergeFilter p q f, h => by
    have h1 := p.dom_ne_zero h.1
    have h2 := q.dom_ne_zero h.2.1
    simp [dom, h1, h2]

theorem map_new_wf (a : Nat) {size : Nat} (h : 1 ≤ size) :
    (LpMap.new a size).WF ∧ (LpMap.new a size).Abs (fun _ => none) :=
  ⟨wf_empty { keys := [], vals := [], items := 0, a := a } h,
   abs_empty { keys := [], vals := [], items := 0, a := a } _⟩

theorem MapProg.run_spec : ∀ p : MapProg, p.Valid →
    ∃ m, Returns (fun n => p.run n) m ∧ m.WF ∧ m.Abs p.denote ∧
      (match p with | .merge .. => m.items < m.keys.length
                    | .mergeFilter .. => m.items < m.keys.length
                    | _ => True)
  | .new a size, h => ⟨_, Returns.pure _, (map_new_wf a h).1, (map_new_wf a h).2, trivial⟩
  | .insert p k v, h => by
    obtain ⟨m, hr, hw, ha, _⟩ := p.run_spec h.1
    obtain ⟨m', hr', hw', ha', _⟩ := insert_spec hw ha v h.2
    refine ⟨m', ?_, hw', abs_congr ha' (fun x _ => ?_), trivial⟩
    · exact hr.bind (g := fun n m => (m.insert n k v).bind fun r => .done r.1)
        (hr'.map (fun r => r.1))
    · simp only [denote, Function.update_apply]
  | .merge p q, h => by
    obtain ⟨m, hr, hw, ha, _⟩ := p.run_spec h.1
    obtain ⟨t, hrt, hwt, hat, _⟩ := q.run_spec h.2
    obtain ⟨m', hr', hw', ha', hlt⟩ := merge_spec hw ha hwt hat
    refine ⟨m', ?_, hw', abs_congr ha' (fun x _ => ?_), hlt⟩
    · exact hr.bind (g := fun n m => (q.run n).bind fun t => m.merge n t)
        (hrt.bind (g := fun n t => m.merge n t) hr')
    · simp only [denote, over, if_true]
      cases q.denote x <;> rfl
  | .mergeFilter p q f, h => by
    obtain ⟨m, hr, hw, ha, _⟩ := p.run_spec h.1
    obtain ⟨t, hrt, hwt, hat, _⟩ := q.run_spec h.2.1
    obtain ⟨u, hru, hgu, hku⟩ := f.run_spec h.2.2
    obtain ⟨m', hr', hw', ha', hlt⟩ := LpMap.mergeFilter_spec hw ha hwt hat hgu.toWF hgu.free
    refine ⟨m', ?_, hw', abs_congr ha' (fun x _ => ?_), hlt⟩
    · exact hr.bind (g := fun n m => (q.run n).bind fun t =>
        (f.run n).bind fun u => m.mergeFilter n t u)
        (hrt.bind (g := fun n t => (f.run n).bind fun u => m.mergeFilter n t u)
          (hru.bind (g := fun n u => m.mergeFilter n t u) hr'))
    · simp only [denote, hku]
      split
      · rfl
      · cases q.denote x <;> rfl

theorem run_insert {p : MapProg} {m m' : LpMap} {k v : Nat} {b : Bool}
    (hr : Returns (fun n => p.run n) m) (hi : Returns (fun n => m.insert n k v) (m', b)) :
    Returns (fun n => (MapProg.insert p k v).run n) m' := by
  show Returns (fun n => (p.run n).bind fun m => (m.insert n k v).bind fun r => .done r.1) m'
  exact hr.bind (g := fun n m => (m.insert n k v).bind fun r => .done r.1) (hi.map (fun r => r.1))

theorem map_behaves {m : LpMap} {f : Nat → Option Nat} (h : m.WF) (ha : m.Abs f) (D : Finset Nat)
    (hD : ∀ k, k ∈ D ↔ k ≠ 0 ∧ f k ≠ none) : MapBehavesAs m f D where
  insert k v hk := by
    obtain ⟨m', hr, _⟩ := insert_spec h ha v hk
    exact ⟨m', hr⟩
  get_present k v hk hf := LpMap.get_present h ha hk hf
  get_absent k hk hf hlt := LpMap.get_absent h ha hk hf hlt
  get_absent_full k hk hf he := get_full h ha hk hf he
  size := items_card h ha D hD
  size_le := h.items_le

/-! ## Property theorems -/

/-- **C07 (partial), C76.** Every client program built from construction (initial size ≥ 1),
insertion, merging and filtered merging terminates without undefined behaviour; the result maps every
key to the value of its last insertion (`MapProg.denote`), `insert` reports whether the key is new,
`size` is the number of keys. Missing: lookups of absent keys return 0 only while the table is not
completely full, and hang otherwise; full tables do arise (`C07_get_full_violated`). -/
theorem C07_map_refines_partial (p : MapProg) (h : p.Valid) :
    ∃ m, Returns (fun n => p.run n) m ∧ MapBehavesAs m p.denote p.dom := by
  obtain ⟨m, hr, hw, ha, _⟩ := p.run_spec h
  refine ⟨m, hr, map_behaves hw ha _ (fun k => ?_)⟩
  rw [← p.dom_iff]
  constructor
  · intro hk
    refine ⟨?_, hk⟩
    rintro rfl
    exact p.dom_ne_zero h hk
  · exact fun hk => hk.2

/-- **C76.** After a merge the table has a free slot, so lookups of all keys return: the value in the
second map, else the value in the first, else 0. -/
theorem C76_map_merge (p q : MapProg) (hp : p.Valid) (hq : q.Valid) (k : Nat) (hk : k ≠ 0) :
    ∃ m, Returns (fun n => (MapProg.merge p q).run n) m ∧
      Returns (fun n => m.get n k) (((q.denote k).or (p.denote k)).getD 0) ∧
      m.size = (p.dom ∪ q.dom).card := by
  obtain ⟨m, hr, hw, ha, hlt⟩ := (MapProg.merge p q).run_spec ⟨hp, hq⟩
  obtain ⟨m', hr', hb⟩ := C07_map_refines_partial (.merge p q) ⟨hp, hq⟩
  refine ⟨m, hr, ?_, ?_⟩
  · have hden : (MapProg.merge p q).denote k = (q.denote k).or (p.denote k) := by
      simp only [MapProg.denote]
      cases q.denote k <;> rfl
    cases hv : (q.denote k).or (p.denote k) with
    | none => exact LpMap.get_absent hw ha hk (hden.trans hv) hlt
    | some v => exact LpMap.get_present hw ha hk (hden.trans hv)
  · have := hr.unique hr'
    subst this
    exact hb.size

/-- **C76 (filtered).** The same for the filtered merge: filtered keys are absent. -/
theorem C76_map_mergeFilter (p q : MapProg) (f : SetProg) (hp : p.Valid) (hq : q.Valid)
    (hf : f.Valid) (k : Nat) (hk : k ≠ 0) :
    ∃ m, Returns (fun n => (MapProg.mergeFilter p q f).run n) m ∧
      Returns (fun n => m.get n k)
        (if k ∈ f.denote then 0 else ((q.denote k).or (p.denote k)).getD 0) ∧
      m.size = ((p.dom ∪ q.dom) \ f.denote).card := by
  obtain ⟨m, hr, hw, ha, hlt⟩ := (MapProg.mergeFilter p q f).run_spec ⟨hp, hq, hf⟩
  obtain ⟨m', hr', hb⟩ := C07_map_refines_partial (.mergeFilter p q f) ⟨hp, hq, hf⟩
  refine ⟨m, hr, ?_, ?_⟩
  · have hden : (MapProg.mergeFilter p q f).denote k =
        if k ∈ f.denote then none else (q.denote k).or (p.denote k) := by
      simp only [MapProg.denote]
      split
      · rfl
      · cases q.denote k <;> rfl
    split
    · rename_i h
      rw [if_pos h] at hden
      exact LpMap.get_absent hw ha hk hden hlt
    · rename_i h
      rw [if_neg h] at hden
      cases hv : (q.denote k).or (p.denote k) with
      | none => exact LpMap.get_absent hw ha hk (hden.trans hv) hlt
      | some v => exact LpMap.get_present hw ha hk (hden.trans hv)
  · have := hr.unique hr'
    subst this
    exact hb.size

example : (MapProg.mergeFilter (.insert (.new 3 1) 7 70) (.merge (.insert (.new 5 9) 7 71)
    (.insert (.new 1 2) 8 80)) (.insert (.new 7 4) 9)).Valid := by
  simp [MapProg.Valid, SetProg.Valid]

/-- **C07 violated.** Because the load factor is computed with an integer division, the table is
filled completely before it grows; then `get` of an absent key never returns. For every hash
multiplier: a map created for 4 entries with the keys 1, 2, 3, 4, queried for 5. -/
theorem C07_get_full_violated (a : Nat) :
    ∃ m, Returns (fun n => (MapProg.insert (.insert (.insert (.insert (.new a 4) 1 10) 2 20) 3 30)
        4 40).run n) m ∧ Diverges (fun n => m.get n 5) ∧ Diverges (fun n => m.contains n 5) := by
  -- capacity stays 4 throughout
  have e4 : nextPow2 4 = 4 := nextPow2_pow 2
  have step : ∀ (m : LpMap) (f : Nat → Option Nat) (k v : Nat), m.WF → m.Abs f → k ≠ 0 →
      f k = none → m.keys.length = 4 → m.items < 4 →
      ∃ m', Returns (fun n => m.insert n k v) (m', true) ∧ m'.WF ∧
        m'.Abs (Function.update f k (some v)) ∧ m'.keys.length = 4 := by
    intro m f k v hw ha hk hf hl hi
    obtain ⟨m', hr, hw', ha', hl', _, _⟩ := insertRaw_spec hw ha v hk (Or.inl (hw.free (by omega)))
    refine ⟨m', ?_, hw', ha', by omega⟩
    have hins : ∀ n, m.insert n k v = m.insertRaw n k v := by
      intro n
      unfold LpMap.insert capacity
      rw [if_neg (by omega), if_neg]
      rw [Nat.div_eq_of_lt (by omega)]; omega
    simp only [hins]
    rw [hf] at hr
    exact hr
  obtain ⟨hw0, ha0⟩ := map_new_wf a (size := 4) (by omega)
  have hl0 : (LpMap.new a 4).keys.length = 4 := by simp [LpMap.new, e4]
  have card : ∀ (m : LpMap) (f : Nat → Option Nat) (D : Finset Nat), m.WF → m.Abs f →
      (∀ k, k ∈ D ↔ k ≠ 0 ∧ f k ≠ none) → m.items = D.card := fun m f D => items_card (m := m) (D := D)
  have hi0 := card _ _ ∅ hw0 ha0 (by simp)
  obtain ⟨m1, hr1, hw1, ha1, hl1⟩ := step _ _ 1 10 hw0 ha0 (by omega) rfl hl0 (by rw [hi0]; simp)
  have hi1 := card _ _ {1} hw1 ha1 (by
    intro k
    simp only [Function.update_apply, Finset.mem_insert, Finset.mem_singleton]
    split_ifs <;> simp <;> omega)
  obtain ⟨m2, hr2, hw2, ha2, hl2⟩ := step _ _ 2 20 hw1 ha1 (by omega) (by simp [Function.update_apply])
    hl1 (by rw [hi1]; simp)
  have hi2 := card _ _ {1, 2} hw2 ha2 (by
    intro k
    simp only [Function.update_apply, Finset.mem_insert, Finset.mem_singleton]
    split_ifs <;> simp <;> omega)
  obtain ⟨m3, hr3, hw3, ha3, hl3⟩ := step _ _ 3 30 hw2 ha2 (by omega) (by simp [Function.update_apply])
    hl2 (by rw [hi2]; simp)
  have hi3 := card _ _ {1, 2, 3} hw3 ha3 (by
    intro k
    simp only [Function.update_apply, Finset.mem_insert, Finset.mem_singleton]
    split_ifs <;> simp <;> omega)
  obtain ⟨m4, hr4, hw4, ha4, hl4⟩ := step _ _ 4 40 hw3 ha3 (by omega) (by simp [Function.update_apply])
    hl3 (by rw [hi3]; simp)
  have hi4 := card _ _ {1, 2, 3, 4} hw4 ha4 (by
    intro k
    simp only [Function.update_apply, Finset.mem_insert, Finset.mem_singleton]
    split_ifs <;> simp <;> omega)
  have hd : Diverges (fun n => m4.get n 5) := get_full hw4 ha4 (by omega)
    (by simp [Function.update_apply]) (by rw [hi4, hl4]; simp)
  refine ⟨m4, ?_, hd, ?_⟩
  · exact run_insert (run_insert (run_insert (run_insert (Returns.pure (LpMap.new a 4)) hr1) hr2) hr3) hr4
  · intro n
    have := hd n
    simp only at this
    simp [LpMap.contains, this]

/-- **C08 (partial).** If no 0 was stored, `contains(k)` tells whether `k` was inserted, as long as
the table is not full. -/
theorem C08_contains_partial (p : MapProg) (h : p.Valid) :
    ∃ m, Returns (fun n => p.run n) m ∧ ∀ k, k ≠ 0 → p.denote k ≠ some 0 → m.size < m.capacity →
      Returns (fun n => m.contains n k) (decide (k ∈ p.dom)) := by
  obtain ⟨m, hr, hb⟩ := C07_map_refines_partial p h
  refine ⟨m, hr, fun k hk h0 hlt => ?_⟩
  cases hv : p.denote k with
  | none =>
    have : decide (k ∈ p.dom) = decide ((0 : Nat) ≠ 0) := by simp [p.dom_iff, hv]
    rw [this]
    exact (hb.get_absent k hk hv hlt).map (fun v => decide (v ≠ 0))
  | some v =>
    have hv0 : v ≠ 0 := by rintro rfl; exact h0 hv
    have : decide (k ∈ p.dom) = decide (v ≠ 0) := by simp [p.dom_iff, hv, hv0]
    rw [this]
    exact (hb.get_present k v hk hv).map (fun v => decide (v ≠ 0))

/-- **C08 violated.** A key stored with value 0 is reported as not contained. -/
theorem C08_contains_zero_violated (p : MapProg) (h : p.Valid) (k : Nat) (hk : k ≠ 0)
    (h0 : p.denote k = some 0) :
    k ∈ p.dom ∧ ∃ m, Returns (fun n => p.run n) m ∧ Returns (fun n => m.contains n k) false := by
  obtain ⟨m, hr, hb⟩ := C07_map_refines_partial p h
  exact ⟨(p.dom_iff k).2 (by rw [h0]; simp), m, hr,
    (hb.get_present k 0 hk h0).map (fun v => decide (v ≠ 0))⟩

example : (MapProg.insert (.new 3 4) 7 0).Valid ∧ (MapProg.insert (.new 3 4) 7 0).denote 7 = some 0 := by
  simp [MapProg.Valid, MapProg.denote]

/-- **C72 (map).** Loading what was saved gives the same map, whatever follows in the archive. -/
theorem C72_map_roundtrip (m : LpMap) (h : m.vals.length = m.keys.length) (rest : List (Option Nat)) :
    LpMap.load (m.save ++ rest) = some (m, rest) := by
  obtain ⟨keys, vals, items, a⟩ := m
  simp only at h
  have hmap : ∀ l : List Nat, List.mapM id (l.map some) = some l := by
    intro l
    induction l with
    | nil => rfl
    | cons x xs ih => simp [List.mapM_cons, ih]
  simp only [save, load, List.cons_append]
  rw [if_pos (by simp; omega)]
  have h1 : (keys.map some ++ vals ++ [some a] ++ rest).take keys.length = keys.map some := by
    rw [List.append_assoc, List.append_assoc, List.take_left' (by simp)]
  have h2 : (keys.map some ++ vals ++ [some a] ++ rest).drop keys.length = vals ++ ([some a] ++ rest) := by
    rw [List.append_assoc, List.append_assoc, List.drop_left' (by simp)]
  have h3 : (keys.map some ++ vals ++ [some a] ++ rest).drop (2 * keys.length) = some a :: rest := by
    rw [List.append_assoc, List.drop_left' (by simp; omega)]
    rfl
  rw [h1, h2, h3, hmap]
  simp [List.take_left' h]

end Verif
