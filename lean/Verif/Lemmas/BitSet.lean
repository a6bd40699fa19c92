import Verif.Lemmas.Popcount32
import Mathlib.Data.Finset.Card
import Mathlib.Order.Interval.Finset.Nat

/-!
# Lemmas about the bit set
-/
namespace Verif
namespace BitSet

/-- Bit `i` of a sequence of blocks. -/
def bitAt (arr : List (BitVec 32)) (i : Nat) : Bool := (arr.getD (i / 32) 0#32).getLsbD (i % 32)

/-- Class invariant. -/
structure Inv (s : BitSet) : Prop where
  lo32 : s.lo % 32 = 0
  hi32 : s.hi % 32 = 0
  le : s.lo ≤ s.hi
  len : s.arr.length = (s.hi - s.lo) / 32
  max : s.hi ≤ 2 ^ 32

/-- The ids in the set. -/
def keys (s : BitSet) : Finset Nat := (Finset.Ico s.lo s.hi).filter fun i => bitAt s.arr (i - s.lo)

theorem mem_keys (s : BitSet) (i : Nat) :
    i ∈ s.keys ↔ (s.lo ≤ i ∧ i < s.hi) ∧ bitAt s.arr (i - s.lo) = true := by
  unfold keys
  rw [Finset.mem_filter, Finset.mem_Ico]

theorem shift_bit (r j : Nat) (hr : r < 32) : (1#32 <<< r).getLsbD j = decide (j = r) := by
  rw [BitVec.getLsbD_shiftLeft, BitVec.getLsbD_one]
  by_cases h : j = r
  · subst h; simp [hr]
  · have : ¬ (j < 32 ∧ ¬ j < r ∧ j - r = 0) := by omega
    simp [h]
    omega

theorem and_shift (w : BitVec 32) (r : Nat) (hr : r < 32) :
    ((w &&& (1#32 <<< r)) != 0#32) = w.getLsbD r := by
  cases h : w.getLsbD r
  · have : w &&& (1#32 <<< r) = 0#32 := by
      apply BitVec.eq_of_getLsbD_eq
      intro i hi
      rw [BitVec.getLsbD_and, shift_bit r i hr]
      by_cases hir : i = r
      · subst hir; simp [h]
      · simp [hir]
    simp [this]
  · have : w &&& (1#32 <<< r) ≠ 0#32 := by
      intro h0
      have := congrArg (fun x => BitVec.getLsbD x r) h0
      simp only [BitVec.getLsbD_and, shift_bit r r hr, h] at this
      simp at this
    simpa using this

theorem test_eq (w : BitVec 32) (idx : Nat) : test w idx = w.getLsbD (idx % 32) := by
  unfold test
  rw [and_shift w _ (Nat.mod_lt _ (by omega))]
  by_cases h : w = 0#32
  · subst h; simp
  · simp [h]

theorem Inv.index {s : BitSet} (h : s.Inv) {i : Nat} (h1 : s.lo ≤ i) (h2 : i < s.hi) :
    (i - s.lo) / 32 < s.arr.length ∧ i % 32 = (i - s.lo) % 32 := by
  have := h.lo32
  have := h.hi32
  rw [h.len]
  omega

theorem Inv.get {s : BitSet} (h : s.Inv) {i : Nat} (h1 : s.lo ≤ i) (h2 : i < s.hi) :
    ∃ w, s.block i = some w ∧ s.arr[(i - s.lo) / 32]? = some w ∧
      w.getLsbD (i % 32) = bitAt s.arr (i - s.lo) := by
  obtain ⟨h3, h4⟩ := h.index h1 h2
  refine ⟨s.arr[(i - s.lo) / 32], ?_, List.getElem?_eq_getElem h3, ?_⟩
  · unfold block
    rw [if_neg (by omega), List.getElem?_eq_getElem h3]
  · unfold bitAt
    rw [h4, List.getD_eq_getElem?_getD, List.getElem?_eq_getElem h3]
    rfl

theorem isSet_spec {s : BitSet} (h : s.Inv) {k : Nat} (hk : k < 2 ^ 32) :
    s.isSet k = some (decide (k ∈ s.keys)) := by
  unfold isSet
  have hkey : key k = k := Nat.mod_eq_of_lt hk
  simp only [hkey]
  by_cases hb : s.lo ≤ k ∧ k < s.hi
  · rw [if_pos hb]
    obtain ⟨w, h1, _, h3⟩ := h.get hb.1 hb.2
    rw [h1]
    simp only [Option.map_some, test_eq, h3, Option.some.injEq]
    rw [Bool.eq_iff_iff, decide_eq_true_iff, mem_keys]
    exact ⟨fun h => ⟨hb, h⟩, fun h => h.2⟩
  · rw [if_neg hb]
    have : k ∉ s.keys := by rw [mem_keys]; exact fun h => hb h.1
    simp [this]

theorem bitAt_set {arr : List (BitVec 32)} {b : Nat} (hb : b < arr.length) (w : BitVec 32) (i : Nat) :
    bitAt (arr.set b w) i = if i / 32 = b then w.getLsbD (i % 32) else bitAt arr i := by
  unfold bitAt
  rw [List.getD_eq_getElem?_getD, List.getElem?_set]
  by_cases h : b = i / 32
  · subst h; simp [hb]
  · rw [if_neg h, if_neg (fun hx => h hx.symm), List.getD_eq_getElem?_getD]

theorem testAndSet_spec {s : BitSet} (h : s.Inv) {k : Nat} (h1 : s.lo ≤ k) (h2 : k < s.hi) :
    ∃ s', s.testAndSet k = some (s', decide (k ∈ s.keys)) ∧ s'.Inv ∧ s'.lo = s.lo ∧ s'.hi = s.hi ∧
      s'.keys = insert k s.keys ∧ s'.ones = s.ones + (if k ∈ s.keys then 0 else 1) := by
  have hk : k < 2 ^ 32 := Nat.lt_of_lt_of_le h2 h.max
  have hkey : key k = k := Nat.mod_eq_of_lt hk
  obtain ⟨w, hw1, hw2, hw3⟩ := h.get h1 h2
  obtain ⟨hlt, hmod⟩ := h.index h1 h2
  unfold testAndSet
  simp only [hkey, isSet_spec h hk, hw1, Option.bind_some]
  refine ⟨_, rfl, ⟨h.lo32, h.hi32, h.le, by simpa using h.len, h.max⟩, rfl, rfl, ?_, ?_⟩
  · ext i
    rw [Finset.mem_insert, mem_keys]
    simp only
    rw [mem_keys]
    have hlo := h.lo32
    by_cases hi : s.lo ≤ i ∧ i < s.hi
    · rw [bitAt_set hlt]
      split
      · rename_i hb
        rw [BitVec.getLsbD_or, shift_bit _ _ (Nat.mod_lt _ (by omega))]
        have e : w.getLsbD ((i - s.lo) % 32) = bitAt s.arr (i - s.lo) := by
          unfold bitAt
          rw [hb, List.getD_eq_getElem?_getD, hw2]
          rfl
        rw [e]
        have : ((i - s.lo) % 32 = k % 32) ↔ i = k := by omega
        simp only [Bool.or_eq_true, decide_eq_true_eq, this]
        tauto
      · rename_i hb
        have : i ≠ k := by rintro rfl; exact hb rfl
        tauto
    · have : i ≠ k := by rintro rfl; exact hi ⟨h1, h2⟩
      tauto
  · by_cases hm : k ∈ s.keys <;> simp [hm]

theorem testAndUnset_spec {s : BitSet} (h : s.Inv) {k : Nat} (h1 : s.lo ≤ k) (h2 : k < s.hi) :
    ∃ s', s.testAndUnset k = some (s', decide (k ∈ s.keys)) ∧ s'.Inv ∧ s'.lo = s.lo ∧ s'.hi = s.hi ∧
      s'.keys = s.keys.erase k ∧ s'.ones = s.ones - (if k ∈ s.keys then 1 else 0) := by
  have hk : k < 2 ^ 32 := Nat.lt_of_lt_of_le h2 h.max
  have hkey : key k = k := Nat.mod_eq_of_lt hk
  obtain ⟨w, hw1, hw2, hw3⟩ := h.get h1 h2
  obtain ⟨hlt, hmod⟩ := h.index h1 h2
  unfold testAndUnset
  simp only [hkey, isSet_spec h hk, hw1, Option.bind_some]
  refine ⟨_, rfl, ⟨h.lo32, h.hi32, h.le, by simpa using h.len, h.max⟩, rfl, rfl, ?_, ?_⟩
  · ext i
    rw [Finset.mem_erase, mem_keys]
    simp only
    rw [mem_keys]
    have hlo := h.lo32
    by_cases hi : s.lo ≤ i ∧ i < s.hi
    · rw [bitAt_set hlt]
      split
      · rename_i hb
        rw [BitVec.getLsbD_and, BitVec.getLsbD_not, shift_bit _ _ (Nat.mod_lt _ (by omega))]
        have e : w.getLsbD ((i - s.lo) % 32) = bitAt s.arr (i - s.lo) := by
          unfold bitAt
          rw [hb, List.getD_eq_getElem?_getD, hw2]
          rfl
        rw [e]
        have h3 : ((i - s.lo) % 32 = k % 32) ↔ i = k := by omega
        have h4 : (i - s.lo) % 32 < 32 := by omega
        simp only [h4, decide_true, Bool.true_and, Bool.and_eq_true, Bool.not_eq_true',
          decide_eq_false_iff_not, h3]
        tauto
      · rename_i hb
        have : i ≠ k := by rintro rfl; exact hb rfl
        tauto
    · have : i ≠ k := by rintro rfl; exact hi ⟨h1, h2⟩
      tauto
  · by_cases hm : k ∈ s.keys <;> simp [hm]

theorem new_inv {l u : Nat} (h : l ≤ u) (hu : u ≤ 2 ^ 32) :
    (new l u).Inv ∧ (new l u).keys = ∅ := by
  constructor
  · refine ⟨?_, ?_, ?_, ?_, ?_⟩ <;> simp only [new, List.length_replicate] <;> omega
  · ext i
    rw [mem_keys]
    simp only [Finset.notMem_empty, iff_false, not_and]
    intro _
    simp only [new, bitAt]
    rw [List.getD_eq_getElem?_getD, List.getElem?_replicate]
    split <;> simp

/-! Counting -/

theorem countP_blocks : ∀ arr : List (BitVec 32),
    (List.range (32 * arr.length)).countP (bitAt arr) = countOnes arr
  | [] => by simp [countOnes]
  | w :: arr => by
    have ih := countP_blocks arr
    have e : 32 * (w :: arr).length = 32 + 32 * arr.length := by simp; omega
    rw [e, List.range_add, List.countP_append, List.countP_map]
    simp only [countOnes, List.map_cons, List.sum_cons] at ih ⊢
    rw [Misc.C29_popcount32, ← ih]
    refine congrArg₂ (· + ·) ?_ ?_
    · apply List.countP_congr
      intro j hj
      have hj : j < 32 := List.mem_range.1 hj
      unfold bitAt
      rw [Nat.div_eq_of_lt hj, Nat.mod_eq_of_lt hj]
      rfl
    · apply List.countP_congr
      intro j _
      simp only [Function.comp, bitAt]
      have h1 : (32 + j) / 32 = j / 32 + 1 := by omega
      have h2 : (32 + j) % 32 = j % 32 := by omega
      rw [h1, h2, List.getD_cons_succ]

theorem card_keys {s : BitSet} (h : s.Inv) : s.keys.card = countOnes s.arr := by
  rw [← countP_blocks]
  have h1 := h.lo32
  have h2 := h.hi32
  have h3 := h.le
  have hn : 32 * s.arr.length = s.hi - s.lo := by rw [h.len]; omega
  rw [hn]
  have : s.keys = ((List.range (s.hi - s.lo)).filter (bitAt s.arr)).toFinset.map (addLeftEmbedding s.lo) := by
    ext i
    rw [mem_keys]
    simp only [Finset.mem_map, List.mem_toFinset, List.mem_filter, List.mem_range,
      addLeftEmbedding_apply]
    constructor
    · rintro ⟨h4, h5⟩
      exact ⟨i - s.lo, ⟨by omega, h5⟩, by omega⟩
    · rintro ⟨j, ⟨h4, h5⟩, rfl⟩
      refine ⟨by omega, ?_⟩
      rwa [Nat.add_sub_cancel_left]
  rw [this, Finset.card_map, List.toFinset_card_of_nodup (List.nodup_range.filter _),
    List.countP_eq_length_filter]

/-! Range operations -/

theorem mapM_eq_some {α β : Type} {f : α → Option β} {g : α → β} : ∀ {l : List α},
    (∀ x ∈ l, f x = some (g x)) → l.mapM f = some (l.map g)
  | [], _ => rfl
  | x :: l, h => by
    rw [List.mapM_cons, h x (by simp), mapM_eq_some (fun y hy => h y (by simp [hy]))]
    rfl

/-- The block at id `i` (a multiple of 32), zero outside the range. -/
def blk (s : BitSet) (i : Nat) : BitVec 32 :=
  if s.lo ≤ i ∧ i < s.hi then s.arr.getD ((i - s.lo) / 32) 0#32 else 0#32

theorem blockOr0_eq {s : BitSet} (h : s.Inv) (i : Nat) : s.blockOr0 i = some (blk s i) := by
  unfold blockOr0 blk
  split
  · rename_i hi
    rw [List.getD_eq_getElem?_getD, List.getElem?_eq_getElem (h.index hi.1 hi.2).1]
    rfl
  · rfl

theorem blk_bit {s : BitSet} (h : s.Inv) (i : Nat) :
    (blk s (i / 32 * 32)).getLsbD (i % 32) = decide (i ∈ s.keys) := by
  have h1 := h.lo32
  have h2 := h.hi32
  rw [Bool.eq_iff_iff, decide_eq_true_iff, mem_keys]
  unfold blk
  by_cases hi : s.lo ≤ i ∧ i < s.hi
  · rw [if_pos (by omega)]
    unfold bitAt
    have e1 : (i / 32 * 32 - s.lo) / 32 = (i - s.lo) / 32 := by omega
    have e2 : (i - s.lo) % 32 = i % 32 := by omega
    rw [e1, e2]
    tauto
  · rw [if_neg (by omega)]
    simp
    omega

theorem range_keys {lo hi : Nat} (hlo : lo % 32 = 0) (hhi : hi % 32 = 0) (hle : lo ≤ hi)
    (hmax : hi ≤ 2 ^ 32) (g : Nat → BitVec 32) (ones : Nat) :
    (BitSet.mk lo hi ((List.range ((hi - lo) / 32)).map fun j => g (lo + 32 * j)) ones).Inv ∧
    ∀ i, i ∈ (BitSet.mk lo hi ((List.range ((hi - lo) / 32)).map fun j => g (lo + 32 * j)) ones).keys ↔
      (lo ≤ i ∧ i < hi) ∧ (g (i / 32 * 32)).getLsbD (i % 32) = true := by
  constructor
  · exact ⟨hlo, hhi, hle, by simp, hmax⟩
  · intro i
    rw [mem_keys]
    simp only
    by_cases hi' : lo ≤ i ∧ i < hi
    · unfold bitAt
      have hlt : (i - lo) / 32 < (hi - lo) / 32 := by omega
      have e1 : lo + 32 * ((i - lo) / 32) = i / 32 * 32 := by omega
      have e2 : (i - lo) % 32 = i % 32 := by omega
      rw [List.getD_eq_getElem?_getD, List.getElem?_map, List.getElem?_range hlt]
      simp only [Option.map_some, Option.getD_some, e1, e2]
    · tauto

theorem merge_spec {s o : BitSet} (hs : s.Inv) (ho : o.Inv) :
    ∃ r, s.merge o = some r ∧ r.Inv ∧ r.lo = min s.lo o.lo ∧ r.hi = Max.max s.hi o.hi ∧
      r.keys = s.keys ∪ o.keys ∧ r.ones = r.keys.card := by
  have h1 := hs.lo32
  have h2 := hs.hi32
  have h3 := ho.lo32
  have h4 := ho.hi32
  have h5 := hs.le
  have h6 := ho.le
  have h7 := hs.max
  have h8 := ho.max
  have hm : ((List.range ((Max.max s.hi o.hi - min s.lo o.lo) / 32)).mapM fun j =>
    (s.blockOr0 (min s.lo o.lo + 32 * j)).bind fun x =>
      (o.blockOr0 (min s.lo o.lo + 32 * j)).bind fun y => some (x ||| y)) =
      some ((List.range ((Max.max s.hi o.hi - min s.lo o.lo) / 32)).map fun j =>
        (fun i => blk s i ||| blk o i) (min s.lo o.lo + 32 * j)) := by
    apply mapM_eq_some
    intro j _
    rw [blockOr0_eq hs, blockOr0_eq ho]
    rfl
  unfold merge
  simp only [hm, Option.bind_some]
  obtain ⟨hinv, hkeys⟩ := range_keys (lo := min s.lo o.lo) (hi := Max.max s.hi o.hi) (by omega)
    (by omega) (by omega) (by omega) (fun i => blk s i ||| blk o i)
    (countOnes ((List.range ((Max.max s.hi o.hi - min s.lo o.lo) / 32)).map fun j =>
        (fun i => blk s i ||| blk o i) (min s.lo o.lo + 32 * j)))
  refine ⟨_, rfl, hinv, rfl, rfl, ?_, (card_keys hinv).symm⟩
  ext i
  rw [hkeys i, Finset.mem_union, BitVec.getLsbD_or, blk_bit hs, blk_bit ho]
  simp only [Bool.or_eq_true, decide_eq_true_eq, mem_keys]
  constructor
  · exact fun h => h.2
  · intro h
    refine ⟨?_, h⟩
    rcases h with h | h <;> have := h.1 <;> omega

theorem mergeFilter_spec {s o f : BitSet} (hs : s.Inv) (ho : o.Inv) (hf : f.Inv) :
    ∃ r, s.mergeFilter o f = some r ∧ r.Inv ∧ r.lo = min s.lo o.lo ∧ r.hi = Max.max s.hi o.hi ∧
      r.keys = (s.keys ∪ o.keys) \ f.keys ∧ r.ones = r.keys.card := by
  have h1 := hs.lo32
  have h2 := hs.hi32
  have h3 := ho.lo32
  have h4 := ho.hi32
  have h5 := hs.le
  have h6 := ho.le
  have h7 := hs.max
  have h8 := ho.max
  have hm : ((List.range ((Max.max s.hi o.hi - min s.lo o.lo) / 32)).mapM fun j =>
    (s.blockOr0 (min s.lo o.lo + 32 * j)).bind fun x =>
      (o.blockOr0 (min s.lo o.lo + 32 * j)).bind fun y =>
        (f.blockOr0 (min s.lo o.lo + 32 * j)).bind fun z => some ((x ||| y) &&& ~~~z)) =
      some ((List.range ((Max.max s.hi o.hi - min s.lo o.lo) / 32)).map fun j =>
        (fun i => (blk s i ||| blk o i) &&& ~~~(blk f i)) (min s.lo o.lo + 32 * j)) := by
    apply mapM_eq_some
    intro j _
    rw [blockOr0_eq hs, blockOr0_eq ho, blockOr0_eq hf]
    rfl
  unfold mergeFilter
  simp only [hm, Option.bind_some]
  obtain ⟨hinv, hkeys⟩ := range_keys (lo := min s.lo o.lo) (hi := Max.max s.hi o.hi) (by omega)
    (by omega) (by omega) (by omega) (fun i => (blk s i ||| blk o i) &&& ~~~(blk f i))
    (countOnes ((List.range ((Max.max s.hi o.hi - min s.lo o.lo) / 32)).map fun j =>
        (fun i => (blk s i ||| blk o i) &&& ~~~(blk f i)) (min s.lo o.lo + 32 * j)))
  refine ⟨_, rfl, hinv, rfl, rfl, ?_, (card_keys hinv).symm⟩
  ext i
  have hlt : i % 32 < 32 := Nat.mod_lt _ (by omega)
  rw [hkeys i, Finset.mem_sdiff, Finset.mem_union, BitVec.getLsbD_and, BitVec.getLsbD_or,
    BitVec.getLsbD_not, blk_bit hs, blk_bit ho, blk_bit hf]
  simp only [Bool.or_eq_true, Bool.and_eq_true, decide_eq_true_eq, hlt, decide_true, Bool.true_and,
    Bool.not_eq_true', decide_eq_false_iff_not]
  constructor
  · exact fun h => h.2
  · intro h
    refine ⟨?_, h⟩
    have h := h.1
    simp only [mem_keys] at h
    rcases h with h | h <;> have := h.1 <;> omega

theorem resize_spec {s : BitSet} (hs : s.Inv) {l u : Nat} (hu : u ≤ 2 ^ 32) :
    ∃ r, s.resize l u = some r ∧ r.Inv ∧ r.lo = min s.lo (l / 32 * 32) ∧
      r.hi = Max.max s.hi ((u + 31) / 32 * 32) ∧ r.keys = s.keys ∧ r.ones = s.ones := by
  have h1 := hs.lo32
  have h2 := hs.hi32
  have h5 := hs.le
  have h7 := hs.max
  have hlen := hs.len
  unfold resize
  generalize hL : min s.lo (l / 32 * 32) = L
  generalize hU : Max.max s.hi ((u + 31) / 32 * 32) = U
  have hm : ((List.range ((U - L) / 32)).mapM fun j =>
      if j < (s.lo - L) / 32 then some 0#32
      else if j < (s.hi - L) / 32 then s.arr[j - (s.lo - L) / 32]? else some 0#32) =
      some ((List.range ((U - L) / 32)).map fun j => (fun i => blk s i) (L + 32 * j)) := by
    apply mapM_eq_some
    intro j hj
    have hj := List.mem_range.1 hj
    simp only [blk]
    by_cases hj1 : j < (s.lo - L) / 32
    · rw [if_pos hj1, if_neg (by omega)]
    rw [if_neg hj1]
    by_cases hj2 : j < (s.hi - L) / 32
    · rw [if_pos hj2]
      · rw [if_pos (by omega)]
        have e : (L + 32 * j - s.lo) / 32 = j - (s.lo - L) / 32 := by omega
        have hb : j - (s.lo - L) / 32 < s.arr.length := by omega
        rw [e, List.getD_eq_getElem?_getD, List.getElem?_eq_getElem hb]
        rfl
    · rw [if_neg hj2, if_neg (by omega)]
  simp only [hm, Option.bind_some]
  obtain ⟨hinv, hkeys⟩ := range_keys (lo := L) (hi := U) (by omega)
    (by omega) (by omega) (by omega) (fun i => blk s i) s.ones
  refine ⟨_, rfl, hinv, rfl, rfl, ?_, rfl⟩
  ext i
  rw [hkeys i, blk_bit hs]
  simp only [decide_eq_true_eq, mem_keys]
  constructor
  · exact fun h => h.2
  · intro h
    refine ⟨?_, h⟩
    have := h.1
    omega

theorem block_card {s : BitSet} (h : s.Inv) {i : Nat} (h1 : s.lo ≤ i) (h2 : i + 32 ≤ s.hi)
    (h3 : i % 32 = 0) {v : BitVec 32} (h4 : s.arr[(i - s.lo) / 32]? = some v) :
    (s.keys.filter (fun x => i ≤ x ∧ x < i + 32)).card = (popcount32 v).toNat := by
  have hlo := h.lo32
  rw [Misc.C29_popcount32]
  have hbit : ∀ j, j < 32 → (i + j ∈ s.keys ↔ v.getLsbD j = true) := by
    intro j hj
    rw [mem_keys]
    have e1 : (i + j - s.lo) / 32 = (i - s.lo) / 32 := by omega
    have e2 : (i + j - s.lo) % 32 = j := by omega
    unfold bitAt
    rw [e1, e2, List.getD_eq_getElem?_getD, h4]
    have : s.lo ≤ i + j ∧ i + j < s.hi := by omega
    simp only [Option.getD_some]
    tauto
  have e : s.keys.filter (fun x => i ≤ x ∧ x < i + 32) =
      ((List.range 32).filter (fun j => v.getLsbD j)).toFinset.map (addLeftEmbedding i) := by
    ext x
    simp only [Finset.mem_filter, Finset.mem_map, List.mem_toFinset, List.mem_filter,
      List.mem_range, addLeftEmbedding_apply]
    constructor
    · rintro ⟨h5, h6⟩
      refine ⟨x - i, ⟨by omega, ?_⟩, by omega⟩
      rw [← hbit (x - i) (by omega)]
      rwa [show i + (x - i) = x by omega]
    · rintro ⟨j, ⟨h5, h6⟩, rfl⟩
      exact ⟨(hbit j h5).2 h6, by omega⟩
  rw [e, Finset.card_map, List.toFinset_card_of_nodup (List.nodup_range.filter _),
    List.countP_eq_length_filter]

set_option maxHeartbeats 1000000 in
theorem filterLoop_spec {f : BitSet} (hf : f.Inv) : ∀ (n i : Nat) (s : BitSet), s.Inv →
    i % 32 = 0 → (n ≠ 0 → s.lo ≤ i ∧ f.lo ≤ i ∧ i + 32 * n ≤ s.hi ∧ i + 32 * n ≤ f.hi) →
    ∃ r, filterLoop f n i s = some r ∧ r.Inv ∧ r.lo = s.lo ∧ r.hi = s.hi ∧
      (∀ x, x ∈ r.keys ↔ x ∈ s.keys ∧ ¬ ((i ≤ x ∧ x < i + 32 * n) ∧ x ∈ f.keys)) ∧
      r.ones = s.ones + (r.keys.filter (fun x => i ≤ x ∧ x < i + 32 * n)).card
  | 0, i, s, hs, _, _ => by
    refine ⟨s, rfl, hs, rfl, rfl, ?_, ?_⟩
    · intro x
      constructor
      · intro h
        exact ⟨h, fun hx => by omega⟩
      · exact fun h => h.1
    · have : s.keys.filter (fun x => i ≤ x ∧ x < i + 32 * 0) = ∅ := by
        rw [Finset.filter_eq_empty_iff]
        intro x _
        omega
      rw [this]; rfl
  | n + 1, i, s, hs, hi, hb => by
    obtain ⟨hb1, hb2, hb3, hb4⟩ := hb (by omega)
    obtain ⟨w, hw1, hw2, _⟩ := hs.get hb1 (by omega)
    obtain ⟨z, hz1, hz2, _⟩ := hf.get hb2 (by omega)
    have hlt := (hs.index hb1 (by omega)).1
    have hslo := hs.lo32
    have hflo := hf.lo32
    simp only [filterLoop, hw1, hz1, Option.bind_some]
    let s1 : BitSet := { s with arr := s.arr.set ((i - s.lo) / 32) (w &&& ~~~z),
                                ones := s.ones + (popcount32 (w &&& ~~~z)).toNat }
    have hs1 : s1.Inv := ⟨hs.lo32, hs.hi32, hs.le, by simpa [s1] using hs.len, hs.max⟩
    have hk1 : ∀ x, x ∈ s1.keys ↔ x ∈ s.keys ∧ ¬ ((i ≤ x ∧ x < i + 32) ∧ x ∈ f.keys) := by
      intro x
      rw [mem_keys, mem_keys, mem_keys]
      simp only [s1]
      by_cases hx : s.lo ≤ x ∧ x < s.hi
      · rw [bitAt_set hlt]
        by_cases hxi : i ≤ x ∧ x < i + 32
        · have e1 : (x - s.lo) / 32 = (i - s.lo) / 32 := by omega
          have e2 : (x - f.lo) / 32 = (i - f.lo) / 32 := by omega
          have e3 : (x - f.lo) % 32 = (x - s.lo) % 32 := by omega
          have hlt' : (x - s.lo) % 32 < 32 := Nat.mod_lt _ (by omega)
          rw [if_pos e1, BitVec.getLsbD_and, BitVec.getLsbD_not]
          have hw : bitAt s.arr (x - s.lo) = w.getLsbD ((x - s.lo) % 32) := by
            unfold bitAt
            rw [e1, List.getD_eq_getElem?_getD, hw2]; rfl
          have hz : bitAt f.arr (x - f.lo) = z.getLsbD ((x - s.lo) % 32) := by
            unfold bitAt
            rw [e2, e3, List.getD_eq_getElem?_getD, hz2]; rfl
          rw [hw, hz]
          simp only [hlt', decide_true, Bool.true_and, Bool.and_eq_true, Bool.not_eq_true']
          have : f.lo ≤ x ∧ x < f.hi := by omega
          rw [← Bool.not_eq_true]
          tauto
        · have e1 : (x - s.lo) / 32 ≠ (i - s.lo) / 32 := by omega
          rw [if_neg e1]
          tauto
      · tauto
    obtain ⟨r, hr1, hr2, hr3, hr4, hr5, hr6⟩ := filterLoop_spec hf n (i + 32) s1 hs1 (by omega)
      (by intro _; simp only [s1]; omega)
    refine ⟨r, hr1, hr2, hr3, hr4, ?_, ?_⟩
    · intro x
      rw [hr5 x, hk1 x]
      have : (i ≤ x ∧ x < i + 32 * (n + 1)) ↔ (i ≤ x ∧ x < i + 32) ∨ (i + 32 ≤ x ∧ x < i + 32 + 32 * n) := by
        omega
      rw [this]
      tauto
    · rw [hr6]
      simp only [s1]
      have hsplit : r.keys.filter (fun x => i ≤ x ∧ x < i + 32 * (n + 1)) =
          r.keys.filter (fun x => i ≤ x ∧ x < i + 32) ∪
          r.keys.filter (fun x => i + 32 ≤ x ∧ x < i + 32 + 32 * n) := by
        ext x
        simp only [Finset.mem_filter, Finset.mem_union]
        have : (i ≤ x ∧ x < i + 32 * (n + 1)) ↔
          (i ≤ x ∧ x < i + 32) ∨ (i + 32 ≤ x ∧ x < i + 32 + 32 * n) := by omega
        rw [this]
        tauto
      rw [hsplit, Finset.card_union_of_disjoint (by
        rw [Finset.disjoint_left]
        intro x hx hx'
        simp only [Finset.mem_filter] at hx hx'
        omega)]
      have hblock : (r.keys.filter (fun x => i ≤ x ∧ x < i + 32)).card =
          (popcount32 (w &&& ~~~z)).toNat := by
        have hget : s1.arr[(i - s1.lo) / 32]? = some (w &&& ~~~z) := by
          simp only [s1]
          rw [List.getElem?_set_self hlt]
        rw [← block_card hs1 (by simpa [s1] using hb1) (by simp only [s1]; omega) hi hget]
        congr 1
        ext x
        simp only [Finset.mem_filter, hr5 x]
        constructor
        · rintro ⟨h1, h2⟩
          exact ⟨h1.1, h2⟩
        · rintro ⟨h1, h2⟩
          exact ⟨⟨h1, fun h3 => by omega⟩, h2⟩
      rw [hblock]
      omega

theorem filter_spec {s f : BitSet} (hs : s.Inv) (hf : f.Inv) :
    ∃ r, s.filter f = some r ∧ r.Inv ∧ r.lo = s.lo ∧ r.hi = s.hi ∧ r.keys = s.keys \ f.keys ∧
      r.ones = (r.keys.filter (fun x => f.lo ≤ x ∧ x < f.hi)).card := by
  have h1 := hs.lo32
  have h2 := hs.hi32
  have h3 := hf.lo32
  have h4 := hf.hi32
  have hs0 : ({ s with ones := 0 } : BitSet).Inv := ⟨hs.lo32, hs.hi32, hs.le, hs.len, hs.max⟩
  unfold filter
  obtain ⟨r, hr1, hr2, hr3, hr4, hr5, hr6⟩ := filterLoop_spec hf
    ((min s.hi f.hi - Max.max s.lo f.lo) / 32) (Max.max s.lo f.lo) _ hs0 (by omega) (by
      intro _; simp only; omega)
  refine ⟨r, hr1, hr2, hr3, hr4, ?_, ?_⟩
  · ext x
    rw [hr5 x, Finset.mem_sdiff]
    constructor
    · rintro ⟨h5, h6⟩
      refine ⟨h5, fun h7 => h6 ⟨?_, h7⟩⟩
      have h5' := ((mem_keys _ x).1 h5).1
      have h7' := ((mem_keys _ x).1 h7).1
      simp only at h5'
      omega
    · rintro ⟨h5, h6⟩
      exact ⟨h5, fun h7 => h6 h7.2⟩
  · rw [hr6]
    simp only [Nat.zero_add]
    congr 1
    ext x
    simp only [Finset.mem_filter]
    constructor
    · rintro ⟨h5, h6⟩
      exact ⟨h5, by omega⟩
    · rintro ⟨h5, h6⟩
      refine ⟨h5, ?_⟩
      have h5' := ((mem_keys _ x).1 h5).1
      rw [hr3, hr4] at h5'
      simp only at h5'
      omega

end BitSet
end Verif
