import Verif.Model.LpSet
import Mathlib.Data.List.Count
import Mathlib.Data.List.GetD
import Mathlib.Tactic.Ring
import Mathlib.Data.Finset.Card
import Mathlib.Data.Finset.Dedup

/-!
# Linear probing: facts about the slot array, shared by all hash containers
-/
namespace Verif

theorem nextPow2_pos {x : Nat} (h : 0 < x) : nextPow2 x = 2 ^ Nat.clog 2 x := by
  unfold nextPow2
  rw [if_neg (by omega)]

theorem le_nextPow2 (x : Nat) : x ≤ nextPow2 x := by
  unfold nextPow2
  split
  · omega
  · exact Nat.le_pow_clog (by omega) _

theorem nextPow2_isPow {x : Nat} (h : 0 < x) : ∃ k, nextPow2 x = 2 ^ k := ⟨_, nextPow2_pos h⟩

theorem nextPow2_pow (k : Nat) : nextPow2 (2 ^ k) = 2 ^ k := by
  rw [nextPow2_pos (Nat.pow_pos (by omega))]
  rw [Nat.clog_pow 2 k (by omega)]

/-- Slot read of a cyclic array. -/
def sl (arr : List Nat) (i : Nat) : Nat := arr.getD (i % arr.length) 0

theorem maskIdx_pow (k idx : Nat) : maskIdx (2 ^ k) idx = idx % 2 ^ k := by
  unfold maskIdx
  rw [if_neg (by have := Nat.pow_pos (n := k) (show 0 < 2 by omega); omega)]
  exact Nat.and_two_pow_sub_one_eq_mod idx k

theorem getElem?_mask {arr : List Nat} {k : Nat} (h : arr.length = 2 ^ k) (idx : Nat) :
    arr[maskIdx arr.length idx]? = some (sl arr idx) := by
  have hp : 0 < 2 ^ k := Nat.pow_pos (by omega)
  have hl : idx % arr.length < arr.length := Nat.mod_lt _ (by omega)
  have : maskIdx arr.length idx = idx % arr.length := by rw [h, maskIdx_pow]
  rw [this]
  unfold sl
  rw [List.getD_eq_getElem _ _ hl, List.getElem?_eq_getElem hl]

theorem sl_mod (arr : List Nat) (i : Nat) : sl arr (i % arr.length) = sl arr i := by
  unfold sl; rw [Nat.mod_mod]

theorem sl_mod_add (arr : List Nat) (i j : Nat) : sl arr (i % arr.length + j) = sl arr (i + j) := by
  unfold sl; rw [Nat.mod_add_mod]

theorem sl_mem {arr : List Nat} (h : 0 < arr.length) (i : Nat) : sl arr i ∈ arr := by
  have hl : i % arr.length < arr.length := Nat.mod_lt _ h
  unfold sl
  rw [List.getD_eq_getElem _ _ hl]
  exact List.getElem_mem _

theorem sl_getElem (arr : List Nat) (i : Nat) (h : i < arr.length) : sl arr i = arr[i] := by
  unfold sl
  rw [Nat.mod_eq_of_lt h, List.getD_eq_getElem _ _ h]

theorem mem_iff_sl {arr : List Nat} (x : Nat) : x ∈ arr ↔ ∃ i, i < arr.length ∧ sl arr i = x := by
  rw [List.mem_iff_getElem]
  constructor
  · rintro ⟨i, hi, h⟩
    exact ⟨i, hi, by rw [sl_getElem _ _ hi, h]⟩
  · rintro ⟨i, hi, h⟩
    exact ⟨i, hi, by rw [← sl_getElem _ _ hi, h]⟩

theorem sl_set {arr : List Nat} (h : 0 < arr.length) (i v j : Nat) :
    sl (arr.set (i % arr.length) v) j = if j % arr.length = i % arr.length then v else sl arr j := by
  have hl : j % arr.length < arr.length := Nat.mod_lt _ h
  unfold sl
  rw [List.length_set]
  rw [List.getD_eq_getElem _ _ (by rw [List.length_set]; exact hl), List.getD_eq_getElem _ _ hl]
  rw [List.getElem_set]
  split <;> rename_i h1 <;> split <;> rename_i h2
  · rfl
  · exact absurd h1.symm h2
  · exact absurd h2.symm h1
  · rfl

/-- Key `k` with hash value `h` sits at probe distance `d`: no free slot and no other copy of `k`
before it. -/
def AtDist (arr : List Nat) (h k d : Nat) : Prop :=
  sl arr (h + d) = k ∧ ∀ e, e < d → sl arr (h + e) ≠ 0 ∧ sl arr (h + e) ≠ k

/-- The linear probing invariant: every stored key is reachable from its hash position. -/
def PathOk (hash : Nat → Nat) (arr : List Nat) : Prop :=
  ∀ i, i < arr.length → sl arr i ≠ 0 →
    ∃ d, (hash (sl arr i) + d) % arr.length = i ∧ AtDist arr (hash (sl arr i)) (sl arr i) d

/-- First position of a probe sequence that is free or holds `k`. -/
theorem exists_stop {arr : List Nat} (hn : 0 < arr.length) (h k : Nat)
    (hex : 0 ∈ arr ∨ k ∈ arr) :
    ∃ d, (sl arr (h + d) = 0 ∨ sl arr (h + d) = k) ∧
      ∀ e, e < d → sl arr (h + e) ≠ 0 ∧ sl arr (h + e) ≠ k := by
  have hP : ∃ d, (sl arr (h + d) = 0 ∨ sl arr (h + d) = k) := by
    have : ∃ i, i < arr.length ∧ (sl arr i = 0 ∨ sl arr i = k) := by
      rcases hex with h0 | h0
      · obtain ⟨i, hi, e⟩ := (mem_iff_sl 0).1 h0; exact ⟨i, hi, Or.inl e⟩
      · obtain ⟨i, hi, e⟩ := (mem_iff_sl k).1 h0; exact ⟨i, hi, Or.inr e⟩
    obtain ⟨i, hi, hv⟩ := this
    refine ⟨i + (arr.length - h % arr.length), ?_⟩
    have : sl arr (h + (i + (arr.length - h % arr.length))) = sl arr i := by
      rw [← sl_mod_add]
      have hh : h % arr.length < arr.length := Nat.mod_lt _ hn
      have : h % arr.length + (i + (arr.length - h % arr.length)) = i + arr.length := by omega
      rw [this]
      unfold sl
      rw [Nat.add_mod_right]
    rw [this]; exact hv
  classical
  refine ⟨Nat.find hP, Nat.find_spec hP, fun e he => ?_⟩
  have := Nat.find_min hP he
  exact not_or.1 this

theorem AtDist.mem {arr : List Nat} (hn : 0 < arr.length) {h k d : Nat} (hd : AtDist arr h k d) :
    k ∈ arr := by rw [← hd.1]; exact sl_mem hn _

theorem AtDist.unique {arr : List Nat} {h k d d' : Nat} (hd : AtDist arr h k d)
    (hd' : AtDist arr h k d') : d = d' := by
  rcases Nat.lt_trichotomy d d' with h1 | h1 | h1
  · exact absurd hd.1 (hd'.2 d h1).2
  · exact h1
  · exact absurd hd'.1 (hd.2 d' h1).2

/-- With the path invariant, a stored key sits at a unique slot. -/
theorem PathOk.inj {hash : Nat → Nat} {arr : List Nat} (hp : PathOk hash arr) {i j : Nat}
    (hi : i < arr.length) (hj : j < arr.length) (h0 : sl arr i ≠ 0) (he : sl arr i = sl arr j) :
    i = j := by
  obtain ⟨d, h1, h2⟩ := hp i hi h0
  obtain ⟨d', h1', h2'⟩ := hp j hj (he ▸ h0)
  rw [← he] at h1' h2'
  have := h2.unique h2'
  rw [this] at h1
  rw [← h1, ← h1']

/-- If the probe sequence of `k ≠ 0` runs into a free slot before finding `k`, `k` is not stored. -/
theorem PathOk.not_mem {hash : Nat → Nat} {arr : List Nat} (hp : PathOk hash arr) {k d : Nat}
    (hk : k ≠ 0) (h0 : sl arr (hash k + d) = 0)
    (hb : ∀ e, e < d → sl arr (hash k + e) ≠ 0 ∧ sl arr (hash k + e) ≠ k) : k ∉ arr := by
  intro hm
  obtain ⟨i, hi, he⟩ := (mem_iff_sl k).1 hm
  obtain ⟨d', h1, h2⟩ := hp i hi (by rw [he]; exact hk)
  rw [he] at h1 h2
  rcases Nat.lt_trichotomy d d' with h | h | h
  · exact (h2.2 d h).1 h0
  · subst h
    exact hk (h2.1.symm.trans h0)
  · exact (hb d' h).2 h2.1

theorem PathOk.set {hash : Nat → Nat} {arr : List Nat} (hn : 0 < arr.length)
    (hp : PathOk hash arr) {k d : Nat}
    (h0 : sl arr (hash k + d) = 0)
    (hb : ∀ e, e < d → sl arr (hash k + e) ≠ 0 ∧ sl arr (hash k + e) ≠ k) :
    PathOk hash (arr.set ((hash k + d) % arr.length) k) := by
  have key : ∀ h' k' d', AtDist arr h' k' d' → k' ≠ 0 → k' ≠ k →
      AtDist (arr.set ((hash k + d) % arr.length) k) h' k' d' := by
    intro h' k' d' hd hk0 hkk
    refine ⟨?_, fun e he => ?_⟩
    · rw [sl_set hn]
      split
      · rename_i hx
        exfalso
        apply hk0
        rw [← hd.1, ← h0]
        unfold sl; rw [hx]
      · exact hd.1
    · rw [sl_set hn]
      split
      · rename_i hx
        exfalso
        apply (hd.2 e he).1
        rw [← h0]; unfold sl; rw [hx]
      · exact hd.2 e he
  intro i hi hne
  rw [List.length_set] at hi ⊢
  have hslk : sl (arr.set ((hash k + d) % arr.length) k) ((hash k + d) % arr.length) = k := by
    rw [sl_set hn, Nat.mod_mod, if_pos rfl]
  by_cases hk0 : k = 0
  · -- storing the key 0 leaves the slot free
    subst hk0
    have hsame : ∀ j, sl (arr.set ((hash 0 + d) % arr.length) 0) j = sl arr j := by
      intro j
      rw [sl_set hn]
      split
      · rename_i hx
        rw [← h0]; unfold sl; rw [hx]
      · rfl
    rw [hsame] at hne
    obtain ⟨d', h1, h2⟩ := hp i hi hne
    refine ⟨d', by rw [hsame]; exact h1, ?_⟩
    rw [hsame]
    refine ⟨by rw [hsame]; exact h2.1, fun e he => by rw [hsame]; exact h2.2 e he⟩
  by_cases hii : i = (hash k + d) % arr.length
  · subst hii
    refine ⟨d, by rw [hslk], ?_⟩
    rw [hslk]
    refine ⟨by rw [sl_set hn, if_pos rfl], fun e he => ?_⟩
    rw [sl_set hn]
    have : ¬ (hash k + e) % arr.length = (hash k + d) % arr.length := by
      intro hx
      apply (hb e he).1
      rw [← h0]; unfold sl; rw [hx]
    rw [if_neg this]
    exact hb e he
  · have hsl : sl (arr.set ((hash k + d) % arr.length) k) i = sl arr i := by
      rw [sl_set hn, if_neg]
      rw [Nat.mod_eq_of_lt hi]
      exact hii
    rw [hsl] at hne ⊢
    obtain ⟨d', h1, h2⟩ := hp i hi hne
    refine ⟨d', h1, key _ _ _ h2 hne ?_⟩
    intro hxx
    exact hp.not_mem hk0 h0 hb (by rw [← hxx]; exact sl_mem hn _)

theorem pathOk_replicate (hash : Nat → Nat) (n : Nat) : PathOk hash (List.replicate n 0) := by
  intro i hi h
  exfalso
  apply h
  have := sl_mem (arr := List.replicate n 0) (by omega) i
  exact List.eq_of_mem_replicate this

/-- number of occupied slots -/
def occ (arr : List Nat) : Nat := arr.countP (fun x => x != 0)

theorem occ_replicate (n : Nat) : occ (List.replicate n 0) = 0 := by
  unfold occ
  rw [List.countP_eq_zero]
  intro x hx
  simp [List.eq_of_mem_replicate hx]

theorem occ_le (arr : List Nat) : occ arr ≤ arr.length := List.countP_le_length

theorem zero_mem_of_occ_lt {arr : List Nat} (h : occ arr < arr.length) : 0 ∈ arr := by
  by_contra h0
  have : occ arr = arr.length := by
    unfold occ
    rw [List.countP_eq_length]
    intro x hx
    simp only [bne_iff_ne, ne_eq]
    rintro rfl
    exact h0 hx
  omega

theorem occ_set : ∀ {arr : List Nat} {i k : Nat}, i < arr.length → arr[i]? = some 0 → k ≠ 0 →
    occ (arr.set i k) = occ arr + 1
  | [], i, k, h, _, _ => by simp at h
  | x :: xs, 0, k, _, h0, hk => by
      simp at h0
      subst h0
      simp [occ, List.countP_cons, hk]
  | x :: xs, i + 1, k, h, h0, hk => by
      have := occ_set (arr := xs) (i := i) (k := k) (by simpa using h) (by simpa using h0) hk
      simp only [occ, List.set_cons_succ, List.countP_cons] at this ⊢
      omega

theorem mem_set_free {arr : List Nat} {i k x : Nat} (hi : i < arr.length) (h0 : arr[i]? = some 0)
    (hx : x ≠ 0) : x ∈ arr.set i k ↔ x ∈ arr ∨ x = k := by
  rw [List.getElem?_eq_getElem hi] at h0
  injection h0 with h0
  constructor
  · intro h
    rcases List.mem_or_eq_of_mem_set h with h | h
    · exact Or.inl h
    · exact Or.inr h
  · rintro (h | h)
    · obtain ⟨j, hj, e⟩ := List.mem_iff_getElem.1 h
      rw [List.mem_iff_getElem]
      refine ⟨j, by rw [List.length_set]; exact hj, ?_⟩
      rw [List.getElem_set]
      split
      · rename_i hij
        subst hij
        rw [h0] at e
        exact absurd e.symm hx
      · exact e
    · subst h
      exact List.mem_set hi _

/-- Under the path invariant no key is stored twice. -/
theorem PathOk.nodup {hash : Nat → Nat} {arr : List Nat} (hp : PathOk hash arr) :
    (arr.filter (fun x => x != 0)).Nodup := by
  have hpw : List.Pairwise (fun x y => x ≠ 0 → x ≠ y) arr := by
    rw [List.pairwise_iff_getElem]
    intro i j hi hj hij h0 he
    have := hp.inj hi hj (by rw [sl_getElem _ _ hi]; exact h0)
      (by rw [sl_getElem _ _ hi, sl_getElem _ _ hj]; exact he)
    omega
  have := hpw.filter (fun x => x != 0)
  refine List.Pairwise.imp_of_mem ?_ this
  intro a b ha _ hab
  exact hab (by simpa using (List.mem_filter.1 ha).2)

/-- Under the path invariant the number of occupied slots is the number of distinct keys. -/
theorem PathOk.occ_eq_card {hash : Nat → Nat} {arr : List Nat} (hp : PathOk hash arr) :
    occ arr = (arr.toFinset.erase 0).card := by
  have hnd := hp.nodup
  have h1 : occ arr = (arr.filter (fun x => x != 0)).length := List.countP_eq_length_filter
  rw [h1, ← List.toFinset_card_of_nodup hnd]
  congr 1
  ext x
  simp [and_comm]

end Verif
