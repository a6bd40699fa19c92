import Verif.Lemmas.BitSet
import Mathlib.Data.List.Basic

/-!
# Lemmas about batch construction, iteration and serialisation of the bit set
-/
namespace Verif
namespace BitSet

/-! Batch construction -/

theorem fillOnes_get : ∀ (n i : Nat) (arr : List (BitVec 32)) (j : Nat),
    (fillOnes n i arr)[j]? =
      if i ≤ j ∧ j < i + n ∧ j < arr.length then some (BitVec.allOnes 32) else arr[j]?
  | 0, i, arr, j => by
    rw [if_neg (by omega)]; rfl
  | n + 1, i, arr, j => by
    rw [fillOnes, fillOnes_get n (i + 1), List.length_set]
    by_cases h1 : i + 1 ≤ j ∧ j < i + 1 + n ∧ j < arr.length
    · rw [if_pos h1, if_pos (by omega)]
    · rw [if_neg h1, List.getElem?_set]
      by_cases h2 : i = j
      · subst h2
        by_cases h3 : i < arr.length
        · simp [h3]
        · simp [h3]
      · rw [if_neg h2, if_neg (by omega)]

theorem fillOnes_length : ∀ (n i : Nat) (arr : List (BitVec 32)),
    (fillOnes n i arr).length = arr.length
  | 0, _, _ => rfl
  | n + 1, i, arr => by rw [fillOnes, fillOnes_length n, List.length_set]

theorem first_bits (r j : Nat) : (BitVec.allOnes 32 <<< r).getLsbD j = decide (j < 32 ∧ r ≤ j) := by
  rw [BitVec.getLsbD_shiftLeft, BitVec.getLsbD_allOnes]
  by_cases h1 : j < 32 <;> by_cases h2 : j < r
  · simp [h1, h2]
  · simp [h1, h2, Nat.not_lt.1 h2]; omega
  · simp [h1]
  · simp [h1]

theorem last_bits {q j : Nat} (hq : q < 32) (hj : j < 32) :
    (BitVec.allOnes 32 >>> (32 - q)).getLsbD j = decide (j < q) := by
  rw [BitVec.getLsbD_ushiftRight, BitVec.getLsbD_allOnes]
  congr 1
  rw [eq_iff_iff]
  omega

theorem batchSet_spec {s : BitSet} (h : s.Inv) {f t : Nat} (h1 : s.lo ≤ f) (h2 : f ≤ t)
    (h3 : t ≤ s.hi) (h4 : t % 32 ≠ 0) :
    ∃ r, s.batchSet f t = some r ∧ r.Inv ∧ r.lo = s.lo ∧ r.hi = s.hi ∧ r.ones = t - f ∧
      ∀ x, x ∈ r.keys ↔ (f ≤ x ∧ x < t) ∨
        (x ∈ s.keys ∧ ¬ (f / 32 * 32 ≤ x ∧ x < (t + 31) / 32 * 32)) := by
  have hlo := h.lo32
  have hhi := h.hi32
  have hlen := h.len
  have ht : t < s.hi := by omega
  have hfb : (f - s.lo) / 32 < s.arr.length := by omega
  have htb : (t - 1 - s.lo) / 32 < s.arr.length := by omega
  unfold batchSet
  rw [if_neg (by omega)]
  simp only
  rw [if_neg (by omega), if_neg h4]
  generalize hF : (f - s.lo) / 32 = fb at *
  generalize hT : (t - 1 - s.lo) / 32 = tb at *
  refine ⟨_, rfl, ⟨hlo, hhi, h.le, by simp [fillOnes_length, hlen], h.max⟩, rfl, rfl, rfl, ?_⟩
  intro x
  rw [mem_keys, mem_keys]
  simp only
  by_cases hx : s.lo ≤ x ∧ x < s.hi
  swap
  · constructor
    · intro hh; exact absurd hh.1 hx
    · rintro (hh | hh)
      · omega
      · exact absurd hh.1.1 hx
  have hxm : (x - s.lo) % 32 < 32 := Nat.mod_lt _ (by omega)
  rw [bitAt_set (by rw [fillOnes_length, List.length_set]; exact htb)]
  by_cases hxt : (x - s.lo) / 32 = tb
  · rw [if_pos hxt, BitVec.getLsbD_and, last_bits (Nat.mod_lt _ (by omega)) hxm]
    by_cases hbb : tb = fb
    · rw [if_pos hbb, List.getD_eq_getElem?_getD, fillOnes_get, if_neg (by omega), hbb,
        List.getElem?_set_self hfb]
      simp only [Option.getD_some, first_bits, Bool.and_eq_true, decide_eq_true_eq]
      have : ((x - s.lo) % 32 < t % 32 ∧ (x - s.lo) % 32 < 32 ∧ f % 32 ≤ (x - s.lo) % 32) ↔
        (f ≤ x ∧ x < t) := by omega
      rw [this]
      constructor
      · exact fun hh => Or.inl hh.2
      · rintro (hh | hh)
        · exact ⟨hx, hh⟩
        · exact absurd hh.2 (by omega)
    · rw [if_neg hbb, BitVec.getLsbD_allOnes]
      simp only [Bool.and_eq_true, decide_eq_true_eq]
      have : ((x - s.lo) % 32 < t % 32 ∧ (x - s.lo) % 32 < 32) ↔ (f ≤ x ∧ x < t) := by omega
      rw [this]
      constructor
      · exact fun hh => Or.inl hh.2
      · rintro (hh | hh)
        · exact ⟨hx, hh⟩
        · exact absurd hh.2 (by omega)
  · rw [if_neg hxt]
    unfold bitAt
    rw [List.getD_eq_getElem?_getD, fillOnes_get, List.length_set]
    by_cases hmid : fb + 1 ≤ (x - s.lo) / 32 ∧ (x - s.lo) / 32 < fb + 1 + (tb - (fb + 1)) ∧
        (x - s.lo) / 32 < s.arr.length
    · rw [if_pos hmid]
      simp only [Option.getD_some, BitVec.getLsbD_allOnes, hxm, decide_true, and_true]
      constructor
      · exact fun _ => Or.inl (by omega)
      · exact fun _ => hx
    · rw [if_neg hmid]
      by_cases hxf : fb = (x - s.lo) / 32
      · rw [← hxf, List.getElem?_set_self hfb]
        simp only [Option.getD_some, first_bits, decide_eq_true_eq]
        have : ((x - s.lo) % 32 < 32 ∧ f % 32 ≤ (x - s.lo) % 32) ↔ (f ≤ x ∧ x < t) := by omega
        rw [this]
        constructor
        · exact fun hh => Or.inl hh.2
        · rintro (hh | hh)
          · exact ⟨hx, hh⟩
          · exact absurd hh.2 (by omega)
      · rw [List.getElem?_set_ne hxf, ← List.getD_eq_getElem?_getD]
        have hout : ¬ (f / 32 * 32 ≤ x ∧ x < (t + 31) / 32 * 32) := by omega
        have hout2 : ¬ (f ≤ x ∧ x < t) := by omega
        tauto

/-! Iteration -/

theorem bit_mem {s : BitSet} (h : s.Inv) {idx : Nat} (hi : idx < s.hi - s.lo) :
    ∃ w, s.arr[idx / 32]? = some w ∧ (test w idx = true ↔ s.lo + idx ∈ s.keys) ∧
      (w = 0#32 → ∀ j, j / 32 = idx / 32 → s.lo + j ∉ s.keys) := by
  have hlo := h.lo32
  have hhi := h.hi32
  have hlen := h.len
  have hlt : idx / 32 < s.arr.length := by omega
  refine ⟨_, List.getElem?_eq_getElem hlt, ?_, ?_⟩
  · rw [test_eq, mem_keys, Nat.add_sub_cancel_left]
    unfold bitAt
    rw [List.getD_eq_getElem?_getD, List.getElem?_eq_getElem hlt, Option.getD_some]
    have : s.lo ≤ s.lo + idx ∧ s.lo + idx < s.hi := by omega
    tauto
  · intro hw j hj
    rw [mem_keys, Nat.add_sub_cancel_left]
    unfold bitAt
    rw [hj, List.getD_eq_getElem?_getD, List.getElem?_eq_getElem hlt, Option.getD_some, hw]
    simp

theorem advT_spec {s : BitSet} (h : s.Inv) (idx : Nat) (hi : idx ≤ s.hi - s.lo) :
    ∃ i, s.advT idx = some i ∧ idx ≤ i ∧ i ≤ s.hi - s.lo ∧
      (i < s.hi - s.lo → s.lo + i ∈ s.keys) ∧ ∀ j, idx ≤ j → j < i → s.lo + j ∉ s.keys := by
  have hlo := h.lo32
  have hhi := h.hi32
  rw [advT]
  by_cases hlt : idx < s.hi - s.lo
  · rw [dif_pos hlt]
    obtain ⟨w, hw1, hw2, hw3⟩ := bit_mem h hlt
    rw [hw1]
    simp only
    by_cases ht : test w idx = true
    · rw [if_pos ht]
      exact ⟨idx, rfl, le_refl _, hi, fun _ => hw2.1 ht, fun j h1 h2 => by omega⟩
    · rw [if_neg ht]
      have hpos := stride_pos w idx
      have hs : idx + stride w idx ≤ s.hi - s.lo ∧
          ∀ j, idx ≤ j → j < idx + stride w idx → s.lo + j ∉ s.keys := by
        unfold stride
        split
        · refine ⟨by omega, fun j h1 h2 => ?_⟩
          have : j = idx := by omega
          subst this
          exact fun hk => ht (hw2.2 hk)
        · split
          · refine ⟨by omega, fun j h1 h2 => ?_⟩
            have : j = idx := by omega
            subst this
            exact fun hk => ht (hw2.2 hk)
          · rename_i h5 h6
            refine ⟨by omega, fun j h1 h2 => hw3 (by simpa using h6) j (by omega)⟩
      obtain ⟨i, hi1, hi2, hi3, hi4, hi5⟩ := advT_spec h (idx + stride w idx) hs.1
      refine ⟨i, hi1, by omega, hi3, hi4, fun j h1 h2 => ?_⟩
      by_cases hj : j < idx + stride w idx
      · exact hs.2 j h1 hj
      · exact hi5 j (by omega) h2
  · rw [dif_neg hlt]
    exact ⟨idx, rfl, le_refl _, hi, fun hh => absurd hh hlt, fun j h1 h2 => by omega⟩
termination_by s.hi - s.lo - idx
decreasing_by have := stride_pos w idx; omega

theorem forLoop_spec {s : BitSet} (h : s.Inv) : ∀ (d idx : Nat), d = s.hi - s.lo - idx →
    idx ≤ s.hi - s.lo → (idx < s.hi - s.lo → s.lo + idx ∈ s.keys) →
    ∃ l : List Nat, l.Pairwise (· < ·) ∧ (∀ x, x ∈ l ↔ x ∈ s.keys ∧ s.lo + idx ≤ x) ∧
      ∀ m, d + 1 ≤ m → s.forLoop m idx = .done l := by
  intro d
  induction d using Nat.strong_induction_on with
  | _ d ih =>
    intro idx hd hle hmem
    by_cases he : idx = s.hi - s.lo
    · refine ⟨[], List.Pairwise.nil, ?_, ?_⟩
      · intro x
        simp only [List.not_mem_nil, false_iff, not_and]
        intro hx
        have := ((mem_keys s x).1 hx).1
        omega
      · intro m hm
        obtain ⟨m, rfl⟩ : ∃ m', m = m' + 1 := ⟨m - 1, by omega⟩
        rw [forLoop, if_pos he]
    · have hlt : idx < s.hi - s.lo := by omega
      obtain ⟨w, hw1, hw2, hw3⟩ := bit_mem h hlt
      have hst : stride w idx = 1 := by
        have hne : w ≠ 0#32 := fun h0 => hw3 h0 idx rfl (hmem hlt)
        unfold stride
        split
        · rfl
        · rw [if_pos (by simpa using hne)]
      obtain ⟨i, hi1, hi2, hi3, hi4, hi5⟩ := advT_spec h (idx + 1) (by omega)
      obtain ⟨l, hl1, hl2, hl3⟩ := ih (s.hi - s.lo - i) (by omega) i rfl hi3 hi4
      refine ⟨(s.lo + idx) :: l, ?_, ?_, ?_⟩
      · rw [List.pairwise_cons]
        refine ⟨fun x hx => ?_, hl1⟩
        have := ((hl2 x).1 hx).2
        omega
      · intro x
        rw [List.mem_cons, hl2]
        constructor
        · rintro (rfl | ⟨h1, h2⟩)
          · exact ⟨hmem hlt, le_refl _⟩
          · exact ⟨h1, by omega⟩
        · rintro ⟨h1, h2⟩
          by_cases hx : x = s.lo + idx
          · exact Or.inl hx
          · refine Or.inr ⟨h1, ?_⟩
            by_contra hlt'
            exact hi5 (x - s.lo) (by omega) (by omega) (by
              rwa [show s.lo + (x - s.lo) = x by omega])
      · intro m hm
        obtain ⟨m, rfl⟩ : ∃ m', m = m' + 1 := ⟨m - 1, by omega⟩
        rw [forLoop, if_neg he]
        have hn : s.next idx = some i := by
          unfold next
          rw [hw1]
          simp only [hst]
          exact hi1
        rw [hn]
        simp only [hl3 m (by omega)]
        rfl

theorem iterate_spec {s : BitSet} (h : s.Inv) :
    ∃ l : List Nat, Returns s.iterate l ∧ l.Pairwise (· < ·) ∧ ∀ x, x ∈ l ↔ x ∈ s.keys := by
  obtain ⟨i, hi1, _, hi3, hi4, hi5⟩ := advT_spec h 0 (by omega)
  obtain ⟨l, hl1, hl2, hl3⟩ := forLoop_spec h _ i rfl hi3 hi4
  refine ⟨l, ⟨s.hi - s.lo - i + 1, fun m hm => ?_⟩, hl1, fun x => ?_⟩
  · unfold iterate
    rw [hi1]
    exact hl3 m hm
  · rw [hl2]
    constructor
    · exact fun hh => hh.1
    · intro hx
      refine ⟨hx, ?_⟩
      have hb := ((mem_keys s x).1 hx).1
      by_contra hlt
      exact hi5 (x - s.lo) (by omega) (by omega) (by
        rwa [show s.lo + (x - s.lo) = x by omega])

/-! Serialisation -/

theorem load_save (s : BitSet) (rest : List Nat) : load (s.save ++ rest) = some (s, rest) := by
  unfold save
  simp only [List.cons_append, load, List.length_append, List.length_map]
  rw [if_pos (by omega)]
  have e1 : (List.map (fun x => x.toNat) s.arr ++ rest).take s.arr.length =
      List.map (fun x => x.toNat) s.arr := List.take_left' (by simp)
  have e2 : (List.map (fun x => x.toNat) s.arr ++ rest).drop s.arr.length = rest :=
    List.drop_left' (by simp)
  rw [e1, e2, List.map_map]
  congr 2
  have : (BitVec.ofNat 32 ∘ fun x : BitVec 32 => x.toNat) = id := by
    funext x; simp
  rw [this, List.map_id]

end BitSet
end Verif
