import Verif.Lemmas.Probe

/-!
# Invariants of the sequential hash set
-/
namespace Verif
namespace LpSet

theorem insertLoop_mod {arr : List Nat} {p : Nat} (hl : arr.length = 2 ^ p) (k fuel i : Nat) :
    insertLoop k arr fuel (i % arr.length) = insertLoop k arr fuel i := by
  cases fuel with
  | zero => rfl
  | succ f =>
    simp only [insertLoop]
    rw [getElem?_mask hl, getElem?_mask hl, sl_mod]
    have : maskIdx arr.length (i % arr.length) = maskIdx arr.length i := by
      rw [hl, maskIdx_pow, maskIdx_pow, Nat.mod_mod]
    rw [this]

theorem insertLoop_skip {arr : List Nat} {p : Nat} (hl : arr.length = 2 ^ p) (k : Nat) :
    ∀ (d fuel i : Nat), (∀ e, e < d → sl arr (i + e) ≠ 0 ∧ sl arr (i + e) ≠ k) →
      insertLoop k arr (d + fuel) i = insertLoop k arr fuel (i + d)
  | 0, fuel, i, _ => by simp
  | d + 1, fuel, i, h => by
    have e1 : d + 1 + fuel = (d + fuel) + 1 := by omega
    rw [e1]
    conv_lhs => unfold insertLoop
    simp only
    rw [getElem?_mask hl]
    have h0 := h 0 (by omega)
    simp only [Nat.add_zero] at h0
    simp only [h0.1, h0.2, if_false, ne_eq, not_false_eq_true, if_true]
    have : maskIdx arr.length i + 1 = i % arr.length + 1 := by rw [hl, maskIdx_pow]
    rw [this, ← insertLoop_mod hl, Nat.mod_add_mod, insertLoop_mod hl]
    rw [insertLoop_skip hl k d fuel (i + 1)]
    · congr 1; omega
    · intro e he
      have := h (e + 1) (by omega)
      have e2 : i + 1 + e = i + (e + 1) := by omega
      rw [e2]; exact this

theorem containsLoop_mod {arr : List Nat} {p : Nat} (hl : arr.length = 2 ^ p) (k fuel i : Nat) :
    containsLoop k arr fuel (i % arr.length) = containsLoop k arr fuel i := by
  cases fuel with
  | zero => rfl
  | succ f =>
    simp only [containsLoop]
    rw [getElem?_mask hl, getElem?_mask hl, sl_mod]
    have : maskIdx arr.length (i % arr.length) = maskIdx arr.length i := by
      rw [hl, maskIdx_pow, maskIdx_pow, Nat.mod_mod]
    rw [this]

theorem containsLoop_skip {arr : List Nat} {p : Nat} (hl : arr.length = 2 ^ p) (k : Nat) :
    ∀ (d fuel i : Nat), (∀ e, e < d → sl arr (i + e) ≠ 0 ∧ sl arr (i + e) ≠ k) →
      containsLoop k arr (d + fuel) i = containsLoop k arr fuel (i + d)
  | 0, fuel, i, _ => by simp
  | d + 1, fuel, i, h => by
    have e1 : d + 1 + fuel = (d + fuel) + 1 := by omega
    rw [e1]
    conv_lhs => unfold containsLoop
    simp only
    rw [getElem?_mask hl]
    have h0 := h 0 (by omega)
    simp only [Nat.add_zero] at h0
    simp only [h0.1, h0.2, if_false]
    have : maskIdx arr.length i + 1 = i % arr.length + 1 := by rw [hl, maskIdx_pow]
    rw [this, ← containsLoop_mod hl, Nat.mod_add_mod, containsLoop_mod hl]
    rw [containsLoop_skip hl k d fuel (i + 1)]
    · congr 1; omega
    · intro e he
      have := h (e + 1) (by omega)
      have e2 : i + 1 + e = i + (e + 1) := by omega
      rw [e2]; exact this

/-- The stored keys. -/
def keys (s : LpSet) : Finset Nat := s.arr.toFinset.erase 0

theorem mem_keys {s : LpSet} {x : Nat} : x ∈ s.keys ↔ x ≠ 0 ∧ x ∈ s.arr := by
  simp [keys]

/-- Representation invariant. -/
structure WF (s : LpSet) : Prop where
  pow : ∃ p, s.arr.length = 2 ^ p
  path : PathOk (hash64 s.a) s.arr
  cnt : s.items = occ s.arr

theorem WF.pos {s : LpSet} (h : s.WF) : 0 < s.arr.length := by
  obtain ⟨p, hp⟩ := h.pow
  rw [hp]; exact Nat.pow_pos (by omega)

theorem WF.items_eq {s : LpSet} (h : s.WF) : s.items = s.keys.card := by
  rw [h.cnt, h.path.occ_eq_card]; rfl

theorem WF.free {s : LpSet} (h : s.WF) (hlt : s.keys.card < s.arr.length) : 0 ∈ s.arr := by
  apply zero_mem_of_occ_lt
  rw [← h.cnt, h.items_eq]; exact hlt

theorem wf_empty (s : LpSet) {n : Nat} (hn : 0 < n) :
    WF { s with arr := List.replicate (nextPow2 n) 0, items := 0 } where
  pow := by
    obtain ⟨p, hp⟩ := nextPow2_isPow hn
    exact ⟨p, by simp [hp]⟩
  path := pathOk_replicate _ _
  cnt := (occ_replicate _).symm

theorem keys_empty (s : LpSet) (n : Nat) :
    keys { s with arr := List.replicate n 0, items := 0 } = ∅ := by
  ext x
  simp only [keys, Finset.mem_erase, List.mem_toFinset, Finset.notMem_empty, iff_false]
  rintro ⟨h1, h2⟩
  exact h1 (List.eq_of_mem_replicate h2)

/-- Effect of the probe loop of `insert`. -/
theorem insertRaw_spec {s : LpSet} (h : s.WF) {k : Nat} (hk : k ≠ 0)
    (hex : 0 ∈ s.arr ∨ k ∈ s.arr) :
    ∃ s', Returns (fun f => s.insertRaw f k) (s', decide (k ∉ s.keys)) ∧ s'.WF ∧
      s'.keys = insert k s.keys ∧ s'.arr.length = s.arr.length ∧ s'.growing = s.growing ∧
      s'.a = s.a := by
  obtain ⟨p, hp⟩ := h.pow
  have hpos := h.pos
  obtain ⟨d, hd, hb⟩ := exists_stop hpos (hash64 s.a k) k hex
  have hret : ∀ m, d + 1 ≤ m → insertLoop k s.arr m (hash64 s.a k) =
      insertLoop k s.arr (m - d - 1 + 1) (hash64 s.a k + d) := by
    intro m hm
    rw [← insertLoop_skip hp k d _ _ hb]
    congr 1; omega
  by_cases hkm : sl s.arr (hash64 s.a k + d) = k
  · -- already present
    have hmem : k ∈ s.arr := by rw [← hkm]; exact sl_mem hpos _
    have hkk : k ∈ s.keys := mem_keys.2 ⟨hk, hmem⟩
    refine ⟨s, ⟨d + 1, fun m hm => ?_⟩, h, (Finset.insert_eq_of_mem hkk).symm, rfl, rfl, rfl⟩
    simp only [insertRaw]
    rw [hret m hm]
    simp only [insertLoop]
    rw [getElem?_mask hp, hkm]
    simp [hkk]
  · have h0 : sl s.arr (hash64 s.a k + d) = 0 := hd.resolve_right hkm
    have hnm : k ∉ s.arr := h.path.not_mem hk h0 hb
    have hkk : k ∉ s.keys := fun hx => hnm (mem_keys.1 hx).2
    have hidx : (hash64 s.a k + d) % s.arr.length < s.arr.length := Nat.mod_lt _ hpos
    have hget : s.arr[(hash64 s.a k + d) % s.arr.length]? = some 0 := by
      have := getElem?_mask hp (hash64 s.a k + d)
      rw [hp, maskIdx_pow, ← hp, h0] at this
      exact this
    refine ⟨{ s with arr := s.arr.set ((hash64 s.a k + d) % s.arr.length) k, items := s.items + 1 },
      ⟨d + 1, fun m hm => ?_⟩, ⟨⟨p, by simp [hp]⟩, ?_, ?_⟩, ?_, by simp, rfl, rfl⟩
    · simp only [insertRaw]
      rw [hret m hm]
      simp only [insertLoop]
      rw [getElem?_mask hp, h0]
      have hm2 : maskIdx s.arr.length (hash64 s.a k + d) = (hash64 s.a k + d) % s.arr.length := by
        rw [hp, maskIdx_pow]
      simp [hkk, Ne.symm hk, hm2]
    · exact h.path.set hpos h0 hb
    · simp only
      rw [occ_set hidx hget hk, h.cnt]
    · ext x
      by_cases hx : x = 0
      · subst hx
        simp [keys, Ne.symm hk]
      · rw [mem_keys, Finset.mem_insert, mem_keys]
        simp only
        rw [mem_set_free hidx hget hx]
        tauto

/-- `contains` decides membership whenever the loop can stop. -/
theorem contains_spec {s : LpSet} (h : s.WF) {k : Nat} (hk : k ≠ 0)
    (hex : 0 ∈ s.arr ∨ k ∈ s.arr) :
    Returns (fun f => s.contains f k) (decide (k ∈ s.keys)) := by
  obtain ⟨p, hp⟩ := h.pow
  have hpos := h.pos
  obtain ⟨d, hd, hb⟩ := exists_stop hpos (hash64 s.a k) k hex
  refine ⟨d + 1, fun m hm => ?_⟩
  have hret : containsLoop k s.arr m (hash64 s.a k) =
      containsLoop k s.arr (m - d - 1 + 1) (hash64 s.a k + d) := by
    rw [← containsLoop_skip hp k d _ _ hb]
    congr 1; omega
  simp only [contains]
  rw [hret]
  simp only [containsLoop]
  rw [getElem?_mask hp]
  by_cases hkm : sl s.arr (hash64 s.a k + d) = k
  · have hmem : k ∈ s.arr := by rw [← hkm]; exact sl_mem hpos _
    have hkk : k ∈ s.keys := mem_keys.2 ⟨hk, hmem⟩
    simp [hkm, hkk]
  · have h0 : sl s.arr (hash64 s.a k + d) = 0 := hd.resolve_right hkm
    have hnm : k ∉ s.arr := h.path.not_mem hk h0 hb
    have hkk : k ∉ s.keys := fun hx => hnm (mem_keys.1 hx).2
    simp [h0, hkk, Ne.symm hk]

/-- On a full array, looking up an absent key never returns. -/
theorem contains_diverges {s : LpSet} {p : Nat} (hp : s.arr.length = 2 ^ p) {k : Nat}
    (h0 : 0 ∉ s.arr) (hk : k ∉ s.arr) : Diverges (fun f => s.contains f k) := by
  have hpos : 0 < s.arr.length := by rw [hp]; exact Nat.pow_pos (by omega)
  intro n
  simp only [contains]
  have := containsLoop_skip hp k n 0 (hash64 s.a k) (fun e _ =>
    ⟨fun hx => h0 (by rw [← hx]; exact sl_mem hpos _), fun hx => hk (by rw [← hx]; exact sl_mem hpos _)⟩)
  rw [Nat.add_zero] at this
  rw [this]
  rfl

/-- On a full array, inserting an absent key (without growth) never returns. -/
theorem insertRaw_diverges {s : LpSet} {p : Nat} (hp : s.arr.length = 2 ^ p) {k : Nat}
    (h0 : 0 ∉ s.arr) (hk : k ∉ s.arr) : Diverges (fun f => s.insertRaw f k) := by
  have hpos : 0 < s.arr.length := by rw [hp]; exact Nat.pow_pos (by omega)
  intro n
  simp only [insertRaw]
  have := insertLoop_skip hp k n 0 (hash64 s.a k) (fun e _ =>
    ⟨fun hx => h0 (by rw [← hx]; exact sl_mem hpos _), fun hx => hk (by rw [← hx]; exact sl_mem hpos _)⟩)
  rw [Nat.add_zero] at this
  rw [this]
  rfl

/-- Keys of a raw list of slots. -/
def listKeys (l : List Nat) : Finset Nat := l.toFinset.erase 0

theorem listKeys_cons_zero (l : List Nat) : listKeys (0 :: l) = listKeys l := by
  ext x; simp [listKeys]

theorem listKeys_cons {x : Nat} (hx : x ≠ 0) (l : List Nat) :
    listKeys (x :: l) = insert x (listKeys l) := by
  ext y; simp only [listKeys, List.toFinset_cons, Finset.mem_erase, Finset.mem_insert,
    List.mem_toFinset]
  constructor
  · tauto
  · rintro (h | h)
    · subst h; exact ⟨hx, Or.inl rfl⟩
    · exact ⟨h.1, Or.inr h.2⟩

theorem reinsertAll_spec : ∀ (l : List Nat) {s : LpSet}, s.WF →
    (s.keys ∪ listKeys l).card ≤ s.arr.length →
    ∃ s', Returns (fun f => reinsertAll f l s) s' ∧ s'.WF ∧ s'.keys = s.keys ∪ listKeys l ∧
      s'.arr.length = s.arr.length ∧ s'.growing = s.growing ∧ s'.a = s.a
  | [], s, h, _ => ⟨s, Returns.pure _, h, by simp [listKeys], rfl, rfl, rfl⟩
  | x :: xs, s, h, hcard => by
    by_cases hx : x = 0
    · subst hx
      rw [listKeys_cons_zero] at hcard ⊢
      simpa [reinsertAll] using reinsertAll_spec xs h hcard
    · rw [listKeys_cons hx] at hcard ⊢
      have hex : 0 ∈ s.arr ∨ x ∈ s.arr := by
        by_cases hm : x ∈ s.arr
        · exact Or.inr hm
        · left
          apply h.free
          have hxk : x ∉ s.keys := fun hh => hm (mem_keys.1 hh).2
          have : insert x s.keys ⊆ s.keys ∪ insert x (listKeys xs) := by
            intro y hy
            rw [Finset.mem_insert] at hy
            rw [Finset.mem_union, Finset.mem_insert]
            tauto
          have h2 := Finset.card_le_card this
          rw [Finset.card_insert_of_notMem hxk] at h2
          omega
      obtain ⟨s1, hr, hwf, hk, hlen, hg, ha⟩ := insertRaw_spec h hx hex
      have hu : s1.keys ∪ listKeys xs = s.keys ∪ insert x (listKeys xs) := by
        rw [hk]; ext y; simp only [Finset.mem_union, Finset.mem_insert]; tauto
      obtain ⟨s2, hr2, hwf2, hk2, hlen2, hg2, ha2⟩ := reinsertAll_spec xs hwf
        (by rw [hu, hlen]; exact hcard)
      refine ⟨s2, ?_, hwf2, by rw [hk2, hu], hlen2.trans hlen, hg2.trans hg, ha2.trans ha⟩
      simp only [reinsertAll, ne_eq, hx, not_false_eq_true, if_true]
      exact hr.bind (g := fun f r => reinsertAll f xs r.1) hr2

theorem rehash_spec {s : LpSet} (hpos : 0 < n) (hn : s.keys.card ≤ n) :
    ∃ s', Returns (fun f => s.rehash f n) s' ∧ s'.WF ∧ s'.keys = s.keys ∧
      s'.arr.length = nextPow2 n ∧ s'.growing = s.growing ∧ s'.a = s.a := by
  obtain ⟨s', hr, hwf, hk, hlen, hg, ha⟩ := reinsertAll_spec s.arr (wf_empty s hpos) (by
    rw [keys_empty, Finset.empty_union]
    simp only [List.length_replicate]
    exact le_trans hn (le_nextPow2 n))
  refine ⟨s', hr, hwf, ?_, ?_, hg, ha⟩
  · rw [hk, keys_empty, Finset.empty_union]; rfl
  · rw [hlen]; simp

/-- Invariant of growing sets whose capacity is at least 2: at most half full. -/
structure GInv (s : LpSet) : Prop extends WF s where
  grow : s.growing = true
  two : 2 ≤ s.arr.length
  half : 2 * s.keys.card ≤ s.arr.length

theorem GInv.free {s : LpSet} (h : s.GInv) : 0 ∈ s.arr := by
  apply h.toWF.free
  have := h.half; have := h.two; omega

theorem GInv.even {s : LpSet} (h : s.GInv) : ∃ m, s.arr.length = 2 * m := by
  obtain ⟨p, hp⟩ := h.pow
  have := h.two
  cases p with
  | zero => simp at hp; omega
  | succ p => exact ⟨2 ^ p, by rw [hp, Nat.pow_succ]; omega⟩

theorem insert_spec {s : LpSet} (h : s.GInv) {k : Nat} (hk : k ≠ 0) :
    ∃ s', Returns (fun f => s.insert f k) (s', decide (k ∉ s.keys)) ∧ s'.GInv ∧
      s'.keys = insert k s.keys ∧ s.arr.length ≤ s'.arr.length ∧ s'.a = s.a := by
  have hit := h.items_eq
  have h2 := h.two
  have hh := h.half
  have hc : (insert k s.keys).card ≤ s.keys.card + 1 := Finset.card_insert_le _ _
  by_cases hg : s.mustGrow = true
  · have hn : s.keys.card ≤ s.capacity * 2 := by unfold capacity; omega
    obtain ⟨s1, hr, hwf, hk1, hlen, hgr, ha⟩ := rehash_spec (s := s)
      (n := s.capacity * 2) (by unfold capacity; omega) hn
    have hlen' : s1.arr.length = 2 * s.arr.length := by
      rw [hlen]
      obtain ⟨p, hp⟩ := h.pow
      unfold capacity
      rw [hp, ← Nat.pow_succ, nextPow2_pow, Nat.pow_succ]; omega
    obtain ⟨s2, hr2, hwf2, hk2, hlen2, hgr2, ha2⟩ := insertRaw_spec hwf hk (Or.inl (hwf.free (by
      rw [hk1, hlen']; omega)))
    refine ⟨s2, ?_, ⟨hwf2, hgr2.trans (hgr.trans h.grow), by omega, ?_⟩, by rw [hk2, hk1], by omega,
      ha2.trans ha⟩
    · simp only [LpSet.insert, hg, if_true]
      rw [hk1] at hr2
      exact hr.bind (g := fun f s' => insertRaw f s' k) hr2
    · rw [hk2, hk1, hlen2, hlen']; omega
  · obtain ⟨s2, hr2, hwf2, hk2, hlen2, hgr2, ha2⟩ := insertRaw_spec h.toWF hk (Or.inl h.free)
    refine ⟨s2, ?_, ⟨hwf2, hgr2.trans h.grow, by omega, ?_⟩, hk2, by omega, ha2⟩
    · simp only [LpSet.insert, hg]
      exact hr2
    · obtain ⟨m, hm⟩ := h.even
      have : ¬ s.arr.length ≤ 2 * s.items := by
        intro hx
        apply hg
        simp only [mustGrow, h.grow, capacity, Bool.true_and, Bool.and_eq_true, decide_eq_true_eq, hx,
          true_and, Bool.not_eq_true', Bool.and_eq_false_iff, beq_eq_false_iff_ne]
        left; omega
      rw [hk2, hlen2]
      omega

theorem insertAll_spec : ∀ (l : List Nat) {s : LpSet}, s.GInv →
    ∃ s', Returns (fun f => insertAll f l s) s' ∧ s'.GInv ∧ s'.keys = s.keys ∪ listKeys l ∧
      s.arr.length ≤ s'.arr.length ∧ s'.a = s.a
  | [], s, h => ⟨s, Returns.pure _, h, by simp [listKeys], le_rfl, rfl⟩
  | x :: xs, s, h => by
    by_cases hx : x = 0
    · subst hx
      rw [listKeys_cons_zero]
      simpa [insertAll] using insertAll_spec xs h
    · rw [listKeys_cons hx]
      obtain ⟨s1, hr, hg, hk, hlen, ha⟩ := insert_spec h hx
      obtain ⟨s2, hr2, hg2, hk2, hlen2, ha2⟩ := insertAll_spec xs hg
      refine ⟨s2, ?_, hg2, ?_, by omega, ha2.trans ha⟩
      · simp only [insertAll, ne_eq, hx, not_false_eq_true, if_true]
        exact hr.bind (g := fun f r => insertAll f xs r.1) hr2
      · rw [hk2, hk]; ext y; simp only [Finset.mem_union, Finset.mem_insert]; tauto

theorem merge_spec {s t : LpSet} (h : s.GInv) (ht : t.WF) :
    ∃ s', Returns (fun f => s.merge f t) s' ∧ s'.GInv ∧ s'.keys = s.keys ∪ t.keys := by
  have hh := h.half
  have h2 := h.two
  have htp := ht.pos
  obtain ⟨s1, hr, hwf, hk, hlen, hg, ha⟩ := rehash_spec (s := s) (n := s.capacity + t.capacity)
    (by unfold capacity; omega) (by unfold capacity; omega)
  have hle := le_nextPow2 (s.capacity + t.capacity)
  have hG : s1.GInv := ⟨hwf, hg.trans h.grow, by unfold capacity at *; omega,
    by rw [hk]; unfold capacity at *; omega⟩
  obtain ⟨s2, hr2, hg2, hk2, hlen2, ha2⟩ := insertAll_spec t.arr hG
  refine ⟨s2, hr.bind (g := fun f s' => insertAll f t.arr s') hr2, hg2, ?_⟩
  rw [hk2, hk]; rfl

theorem reinsertFiltered_spec (F : LpSet) (hF : F.WF) (hF0 : 0 ∈ F.arr) (cmp : Bool) :
    ∀ (l : List Nat) {s : LpSet}, s.WF →
    (s.keys ∪ (listKeys l).filter (fun x => decide (x ∈ F.keys) = cmp)).card ≤ s.arr.length →
    ∃ s', Returns (fun f => reinsertFiltered f F cmp l s) s' ∧ s'.WF ∧
      s'.keys = s.keys ∪ (listKeys l).filter (fun x => decide (x ∈ F.keys) = cmp) ∧
      s'.arr.length = s.arr.length ∧ s'.growing = s.growing ∧ s'.a = s.a
  | [], s, h, _ => ⟨s, Returns.pure _, h, by simp [listKeys], rfl, rfl, rfl⟩
  | x :: xs, s, h, hcard => by
    by_cases hx : x = 0
    · subst hx
      rw [listKeys_cons_zero] at hcard ⊢
      simpa [reinsertFiltered] using reinsertFiltered_spec F hF hF0 cmp xs h hcard
    · rw [listKeys_cons hx] at hcard ⊢
      have hcont := contains_spec hF hx (Or.inl hF0)
      by_cases hc : decide (x ∈ F.keys) = cmp
      · rw [Finset.filter_insert, if_pos hc] at hcard ⊢
        have hex : 0 ∈ s.arr ∨ x ∈ s.arr := by
          by_cases hm : x ∈ s.arr
          · exact Or.inr hm
          · left
            apply h.free
            have hxk : x ∉ s.keys := fun hh => hm (mem_keys.1 hh).2
            have : insert x s.keys ⊆ s.keys ∪ insert x ((listKeys xs).filter
                (fun x => decide (x ∈ F.keys) = cmp)) := by
              intro y hy
              rw [Finset.mem_insert] at hy
              rw [Finset.mem_union, Finset.mem_insert]
              tauto
            have h2 := Finset.card_le_card this
            rw [Finset.card_insert_of_notMem hxk] at h2
            omega
        obtain ⟨s1, hr, hwf, hk, hlen, hg, ha⟩ := insertRaw_spec h hx hex
        have hu : s1.keys ∪ (listKeys xs).filter (fun x => decide (x ∈ F.keys) = cmp) =
            s.keys ∪ insert x ((listKeys xs).filter (fun x => decide (x ∈ F.keys) = cmp)) := by
          rw [hk]; ext y; simp only [Finset.mem_union, Finset.mem_insert]; tauto
        obtain ⟨s2, hr2, hwf2, hk2, hlen2, hg2, ha2⟩ := reinsertFiltered_spec F hF hF0 cmp xs hwf
          (by rw [hu, hlen]; exact hcard)
        refine ⟨s2, ?_, hwf2, by rw [hk2, hu], hlen2.trans hlen, hg2.trans hg, ha2.trans ha⟩
        simp only [reinsertFiltered, ne_eq, hx, not_false_eq_true, if_true]
        refine hcont.bind (g := fun f c => if c = cmp then
          (insertRaw f s x).bind fun r => reinsertFiltered f F cmp xs r.1
          else reinsertFiltered f F cmp xs s) ?_
        simp only [hc, if_true]
        exact hr.bind (g := fun f r => reinsertFiltered f F cmp xs r.1) hr2
      · rw [Finset.filter_insert, if_neg hc] at hcard ⊢
        obtain ⟨s2, hr2, hrest⟩ := reinsertFiltered_spec F hF hF0 cmp xs h hcard
        refine ⟨s2, ?_, hrest⟩
        simp only [reinsertFiltered, ne_eq, hx, not_false_eq_true, if_true]
        refine hcont.bind (g := fun f c => if c = cmp then
          (insertRaw f s x).bind fun r => reinsertFiltered f F cmp xs r.1
          else reinsertFiltered f F cmp xs s) ?_
        simp only [hc, if_false]
        exact hr2

theorem rehashFilter_spec {s F : LpSet} (hF : F.WF) (hF0 : 0 ∈ F.arr) (cmp : Bool) {n : Nat}
    (hpos : 0 < n) (hn : s.keys.card ≤ n) :
    ∃ s', Returns (fun f => s.rehashFilter f n F cmp) s' ∧ s'.WF ∧
      s'.keys = s.keys.filter (fun x => decide (x ∈ F.keys) = cmp) ∧
      s'.arr.length = nextPow2 n ∧ s'.growing = s.growing ∧ s'.a = s.a := by
  obtain ⟨s', hr, hwf, hk, hlen, hg, ha⟩ := reinsertFiltered_spec F hF hF0 cmp s.arr
    (wf_empty s hpos) (by
    rw [keys_empty, Finset.empty_union]
    simp only [List.length_replicate]
    exact le_trans (le_trans (Finset.card_filter_le _ _) hn) (le_nextPow2 n))
  refine ⟨s', hr, hwf, ?_, ?_, hg, ha⟩
  · rw [hk, keys_empty, Finset.empty_union]; rfl
  · rw [hlen]; simp

theorem filter_spec {s F : LpSet} (h : s.GInv) (hF : F.WF) (hF0 : 0 ∈ F.arr) :
    ∃ s', Returns (fun f => s.filter f F) s' ∧ s'.GInv ∧ s'.keys = s.keys \ F.keys := by
  have hh := h.half
  have h2 := h.two
  obtain ⟨s', hr, hwf, hk, hlen, hg, ha⟩ := rehashFilter_spec (s := s) hF hF0 false
    (n := s.capacity) (by unfold capacity; omega) (by unfold capacity; omega)
  have hkk : s'.keys = s.keys \ F.keys := by
    rw [hk]; ext x; simp
  have hle := le_nextPow2 s.capacity
  refine ⟨s', hr, ⟨hwf, hg.trans h.grow, by unfold capacity at *; omega, ?_⟩, hkk⟩
  rw [hkk]
  have : (s.keys \ F.keys).card ≤ s.keys.card := Finset.card_le_card Finset.sdiff_subset
  unfold capacity at *; omega

theorem insertFiltered_spec (F : LpSet) (hF : F.WF) (hF0 : 0 ∈ F.arr) (cmp : Bool) :
    ∀ (l : List Nat) {s : LpSet}, s.GInv →
    ∃ s', Returns (fun f => insertFiltered f F cmp l s) s' ∧ s'.GInv ∧
      s'.keys = s.keys ∪ (listKeys l).filter (fun x => decide (x ∈ F.keys) = cmp)
  | [], s, h => ⟨s, Returns.pure _, h, by simp [listKeys]⟩
  | x :: xs, s, h => by
    by_cases hx : x = 0
    · subst hx
      rw [listKeys_cons_zero]
      simpa [insertFiltered] using insertFiltered_spec F hF hF0 cmp xs h
    · rw [listKeys_cons hx]
      have hcont := contains_spec hF hx (Or.inl hF0)
      by_cases hc : decide (x ∈ F.keys) = cmp
      · rw [Finset.filter_insert, if_pos hc]
        obtain ⟨s1, hr, hg, hk, hlen, ha⟩ := insert_spec h hx
        obtain ⟨s2, hr2, hg2, hk2⟩ := insertFiltered_spec F hF hF0 cmp xs hg
        refine ⟨s2, ?_, hg2, ?_⟩
        · simp only [insertFiltered, ne_eq, hx, not_false_eq_true, if_true]
          refine hcont.bind (g := fun f c => if c = cmp then
            (LpSet.insert f s x).bind fun r => insertFiltered f F cmp xs r.1
            else insertFiltered f F cmp xs s) ?_
          simp only [hc, if_true]
          exact hr.bind (g := fun f r => insertFiltered f F cmp xs r.1) hr2
        · rw [hk2, hk]; ext y; simp only [Finset.mem_union, Finset.mem_insert]; tauto
      · rw [Finset.filter_insert, if_neg hc]
        obtain ⟨s2, hr2, hrest⟩ := insertFiltered_spec F hF hF0 cmp xs h
        refine ⟨s2, ?_, hrest⟩
        simp only [insertFiltered, ne_eq, hx, not_false_eq_true, if_true]
        refine hcont.bind (g := fun f c => if c = cmp then
          (LpSet.insert f s x).bind fun r => insertFiltered f F cmp xs r.1
          else insertFiltered f F cmp xs s) ?_
        simp only [hc, if_false]
        exact hr2

theorem mergeFilter_spec {s t F : LpSet} (h : s.GInv) (ht : t.WF) (hF : F.WF) (hF0 : 0 ∈ F.arr)
    (cmp : Bool) (hne : s.keys.Nonempty ∨ t.keys.Nonempty) :
    ∃ s', Returns (fun f => s.mergeFilter f t F cmp) s' ∧ s'.GInv ∧
      s'.keys = (s.keys \ F.keys) ∪ t.keys.filter (fun x => decide (x ∈ F.keys) = cmp) := by
  have hp : 0 < s.keys.card + t.keys.card := by
    rcases hne with hne | hne
    · have := hne.card_pos; omega
    · have := hne.card_pos; omega
  have hs : s.size = s.keys.card := h.items_eq
  have hts : t.size = t.keys.card := ht.items_eq
  obtain ⟨s1, hr, hwf, hk, hlen, hg, ha⟩ := rehashFilter_spec (s := s) hF hF0 false
    (n := 2 * (s.size + t.size)) (by omega) (by omega)
  have hkk : s1.keys = s.keys \ F.keys := by
    rw [hk]; ext x; simp
  have hle := le_nextPow2 (2 * (s.size + t.size))
  have hc : s1.keys.card ≤ s.keys.card := by rw [hkk]; exact Finset.card_le_card Finset.sdiff_subset
  have hG : s1.GInv := ⟨hwf, hg.trans h.grow, by omega, by omega⟩
  obtain ⟨s2, hr2, hg2, hk2⟩ := insertFiltered_spec F hF hF0 cmp t.arr hG
  refine ⟨s2, hr.bind (g := fun f s' => insertFiltered f F cmp t.arr s') hr2, hg2, ?_⟩
  rw [hk2, hkk]; rfl

theorem copyLoop_spec : ∀ (src dst : List Nat) (i : Nat), dst.length = i + src.length →
    copyLoop src i dst = dst.take i ++ src
  | [], dst, i, h => by
    simp at h
    simp [copyLoop, ← h]
  | x :: xs, dst, i, h => by
    have h' : dst.length = i + 1 + xs.length := by simp at h; omega
    rw [copyLoop, copyLoop_spec xs (dst.set i x) (i + 1) (by simpa using h')]
    have hi : i < dst.length := by omega
    rw [List.take_add_one, List.take_set_of_le (by omega)]
    simp [hi]

theorem copy_eq {s : LpSet} (h : s.WF) : s.copy = s := by
  obtain ⟨p, hp⟩ := h.pow
  have hpos := h.pos
  have : max 1 s.arr.length = s.arr.length := by omega
  unfold copy new
  simp only [this]
  rw [copyLoop_spec]
  · simp
  · rw [hp, nextPow2_pow]; simp

end LpSet
end Verif
