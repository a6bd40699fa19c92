import Verif.Model.BitSetBack
import Verif.Props.BitSet

/-!
# C129: walking a bit set backwards
-/
namespace Verif
namespace BitSet

private theorem pred_pos {idx : Nat} (h0 : 0 < idx) (h : idx ≤ 2 ^ 32) : (idx + (2 ^ 64 - 1)) % 2 ^ 64 = idx - 1 ∧ key (idx - 1) = idx - 1 := by
  refine ⟨by omega, ?_⟩
  unfold key
  exact Nat.mod_eq_of_lt (by omega)

private theorem dec_found {s : BitSet} (h : s.Inv) : ∀ idx, idx ≤ s.hi - s.lo → (∃ k ∈ s.keys, k < s.lo + idx) →
    ∃ j, j < idx ∧ s.lo + j ∈ s.keys ∧ (∀ k ∈ s.keys, k < s.lo + idx → k ≤ s.lo + j) ∧ ∀ m, idx ≤ m → s.dec m idx = .done j := by
  have hmax := h.max
  intro idx
  induction idx with
  | zero =>
    rintro _ ⟨k, hk, hlt⟩
    have := ((mem_keys s k).mp hk).1
    omega
  | succ idx ih =>
    intro hi hex
    obtain ⟨w, hw1, hw2, _⟩ := bit_mem h (idx := idx) (by omega)
    obtain ⟨p1, p2⟩ := pred_pos (idx := idx + 1) (by omega) (by omega)
    rw [Nat.add_sub_cancel] at p1 p2
    have hstep : ∀ m, s.dec (m + 1) (idx + 1) = if test w idx then .done idx else s.dec m idx := by
      intro m
      simp only [dec, p1, p2, hw1]
    by_cases ht : test w idx = true
    · refine ⟨idx, by omega, hw2.mp ht, fun k _ hk => by omega, fun m hm => ?_⟩
      obtain ⟨m, rfl⟩ : ∃ m', m = m' + 1 := ⟨m - 1, by omega⟩
      rw [hstep, if_pos ht]
    · have hno : s.lo + idx ∉ s.keys := fun hk => ht (hw2.mpr hk)
      have hk' : ∀ k ∈ s.keys, k < s.lo + (idx + 1) → k < s.lo + idx := by
        intro k hk hlt
        have : k ≠ s.lo + idx := by rintro rfl; exact hno hk
        omega
      obtain ⟨k, hk, hlt⟩ := hex
      obtain ⟨j, j1, j2, j3, j4⟩ := ih (by omega) ⟨k, hk, hk' k hk hlt⟩
      refine ⟨j, by omega, j2, fun k hk hlt => j3 k hk (hk' k hk hlt), fun m hm => ?_⟩
      obtain ⟨m, rfl⟩ : ∃ m', m = m' + 1 := ⟨m - 1, by omega⟩
      rw [hstep, if_neg ht, j4 m (by omega)]

private theorem dec_none {s : BitSet} (h : s.Inv) (hsz : s.hi - s.lo < 2 ^ 32) : ∀ idx, idx ≤ s.hi - s.lo → (∀ k ∈ s.keys, s.lo + idx ≤ k) →
    ∀ m, idx + 1 ≤ m → s.dec m idx = .ub := by
  have hmax := h.max
  intro idx
  induction idx with
  | zero =>
    intro _ _ m hm
    obtain ⟨m, rfl⟩ : ∃ m', m = m' + 1 := ⟨m - 1, by omega⟩
    have e : (0 + (2 ^ 64 - 1)) % 2 ^ 64 = 2 ^ 64 - 1 := by norm_num
    have e2 : key (2 ^ 64 - 1) / 32 = 2 ^ 27 - 1 := by unfold key; norm_num
    have e3 : s.arr[2 ^ 27 - 1]? = none := by
      rw [List.getElem?_eq_none_iff, h.len]
      have := h.lo32
      have := h.hi32
      omega
    simp only [dec, e, e2, e3]
  | succ idx ih =>
    intro hi hno m hm
    obtain ⟨m, rfl⟩ : ∃ m', m = m' + 1 := ⟨m - 1, by omega⟩
    obtain ⟨w, hw1, hw2, _⟩ := bit_mem h (idx := idx) (by omega)
    obtain ⟨p1, p2⟩ := pred_pos (idx := idx + 1) (by omega) (by omega)
    rw [Nat.add_sub_cancel] at p1 p2
    have ht : ¬ test w idx = true := fun ht => by have := hno _ (hw2.mp ht); omega
    simp only [dec, p1, p2, hw1]
    rw [if_neg ht]
    exact ih (by omega) (fun k hk => by have := hno k hk; omega) m (by omega)

/-- **C129** For every bit set a client can build and every position up to `end()`: if there is an id of the set before the position,
`operator--` returns and leads to the greatest of them. -/
theorem C129_dec (p : BitProg) (hp : p.Valid) (idx : Nat) (hi : idx ≤ p.range.2 - p.range.1) (hex : ∃ k ∈ p.ids, k < p.range.1 + idx) :
    ∃ s j, p.run = some s ∧ Returns (fun n => s.dec n idx) j ∧ p.range.1 + j ∈ p.ids ∧ j < idx ∧
      ∀ k ∈ p.ids, k < p.range.1 + idx → k ≤ p.range.1 + j := by
  obtain ⟨s, e1, e2, e3, e4, e5, _⟩ := p.run_ok hp
  obtain ⟨j, j1, j2, j3, j4⟩ := dec_found e2 idx (by rw [e3, e4]; exact hi) (by rw [e3, e5]; exact hex)
  rw [e3, e5] at j2 j3
  exact ⟨s, j, e1, ⟨idx, j4⟩, j2, j1, j3⟩

/-- **C129** Before the first id `operator--` does not stop at the beginning: the test `m_idx >= 0` always holds, and the code accesses the
array out of bounds. -/
theorem C129_before_first_violated (p : BitProg) (hp : p.Valid) (hsz : p.range.2 - p.range.1 < 2 ^ 32) (idx : Nat)
    (hi : idx ≤ p.range.2 - p.range.1) (hno : ∀ k ∈ p.ids, p.range.1 + idx ≤ k) :
    ∃ s, p.run = some s ∧ Undefined (fun n => s.dec n idx) := by
  obtain ⟨s, e1, e2, e3, e4, e5, _⟩ := p.run_ok hp
  rw [← e5, ← e3] at hno
  rw [← e3, ← e4] at hi hsz
  exact ⟨s, e1, idx + 1, dec_none e2 hsz idx hi hno⟩

private theorem backLoop_spec {s : BitSet} (h : s.Inv) (b : Nat) (hb : b < s.hi - s.lo → s.lo + b ∈ s.keys) (hb' : ∀ j, j < b → s.lo + j ∉ s.keys) :
    ∀ idx, b ≤ idx → idx ≤ s.hi - s.lo → ∃ l : List Nat, l.Pairwise (· > ·) ∧ (∀ x, x ∈ l ↔ x ∈ s.keys ∧ x < s.lo + idx) ∧
      ∀ m, idx + 1 ≤ m → s.backLoop b m idx = .done l := by
  intro idx
  induction idx using Nat.strong_induction_on with
  | _ idx ih =>
    intro hbi hi
    by_cases he : idx = b
    · subst he
      refine ⟨[], List.Pairwise.nil, fun x => ?_, fun m hm => ?_⟩
      · simp only [List.not_mem_nil, false_iff, not_and]
        intro hx hlt
        have := ((mem_keys s x).mp hx).1
        exact hb' (x - s.lo) (by omega) (by rwa [Nat.add_sub_cancel' this.1])
      · obtain ⟨m, rfl⟩ : ∃ m', m = m' + 1 := ⟨m - 1, by omega⟩
        simp [backLoop]
    · obtain ⟨j, j1, j2, j3, j4⟩ := dec_found h idx hi ⟨s.lo + b, hb (by omega), by omega⟩
      have hbj : b ≤ j := by
        by_contra hc
        exact hb' j (by omega) j2
      obtain ⟨l, l1, l2, l3⟩ := ih j j1 hbj (by omega)
      refine ⟨(s.lo + j) :: l, ?_, fun x => ?_, fun m hm => ?_⟩
      · rw [List.pairwise_cons]
        exact ⟨fun x hx => ((l2 x).mp hx).2, l1⟩
      · rw [List.mem_cons, l2]
        constructor
        · rintro (rfl | ⟨h1, h2⟩)
          · exact ⟨j2, by omega⟩
          · exact ⟨h1, by omega⟩
        · rintro ⟨h1, h2⟩
          have := j3 x h1 h2
          rcases Nat.eq_or_lt_of_le this with h3 | h3
          · exact .inl h3
          · exact .inr ⟨h1, h3⟩
      · obtain ⟨m, rfl⟩ : ∃ m', m = m' + 1 := ⟨m - 1, by omega⟩
        simp only [backLoop]
        rw [if_neg he, j4 (m + 1) (by omega), Res.bind_done, l3 m (by omega), Res.bind_done]

/-- **C129** For every bit set a client can build, the loop from `end()` back to `begin()` terminates without undefined behaviour and visits
exactly the ids of the set in descending order. -/
theorem C129_backwards (p : BitProg) (hp : p.Valid) :
    ∃ s l, p.run = some s ∧ Returns s.backwards l ∧ l.Pairwise (· > ·) ∧ ∀ k, k ∈ l ↔ k ∈ p.ids := by
  obtain ⟨s, e1, e2, e3, e4, e5, _⟩ := p.run_ok hp
  obtain ⟨b, b1, _, b3, b4, b5⟩ := advT_spec e2 0 (by omega)
  obtain ⟨l, l1, l2, l3⟩ := backLoop_spec e2 b b4 (fun j hj => b5 j (by omega) hj) (s.hi - s.lo) b3 (le_refl _)
  refine ⟨s, l, e1, ⟨s.hi - s.lo + 1, fun m hm => ?_⟩, l1, fun k => ?_⟩
  · unfold backwards
    rw [b1]
    exact l3 m hm
  · rw [l2, ← e5]
    refine ⟨fun h => h.1, fun h => ⟨h, ?_⟩⟩
    have := ((mem_keys s k).mp h).1
    omega

/-! ### Examples -/

private def ex : BitProg := .set (.set (.set (.new 40 200) 47) 160) 63

private theorem ex_valid : ex.Valid := by unfold ex; simp [BitProg.Valid, BitProg.range]

example : ∃ s, ex.run = some s ∧ s.backwards 300 = .done [160, 63, 47] := ⟨_, rfl, by decide +kernel⟩

example : ∃ s l, ex.run = some s ∧ Returns s.backwards l ∧ l.Pairwise (· > ·) ∧ ∀ k, k ∈ l ↔ k ∈ ex.ids := C129_backwards ex ex_valid

example : ∃ s j, ex.run = some s ∧ Returns (fun n => s.dec n 100) j ∧ 32 + j ∈ ex.ids := by
  obtain ⟨s, j, h1, h2, h3, _⟩ := C129_dec ex ex_valid 100 (by decide) ⟨63, by decide, by decide⟩
  exact ⟨s, j, h1, h2, h3⟩

/-- The decrement of `begin()`, which is at 47 = 32 + 15. -/
example : ∃ s, ex.run = some s ∧ s.advT 0 = some 15 ∧ Undefined (fun n => s.dec n 15) := by
  obtain ⟨s, h1, h2⟩ := C129_before_first_violated ex ex_valid (by decide) 15 (by decide) (by decide)
  refine ⟨s, h1, ?_, h2⟩
  obtain rfl := Option.some.inj (h1 : _ = some s)
  decide +kernel

end BitSet
end Verif
