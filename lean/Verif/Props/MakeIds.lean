import Verif.Model.MakeIds
import Verif.Props.Simplex
import Verif.Props.HashSet

/-!
# C71: the ids of a point container
-/
namespace Verif
namespace PointId

theorem insertEach_seq (fuel : Nat) : ∀ (l : List (BitVec 64)) (s : LpSet),
    insertEach fuel l s = (insertSeq fuel (l.map BitVec.toNat) s).bind fun r => .done r.1
  | [], s => rfl
  | i :: l, s => by
    rw [insertEach, List.map_cons, insertSeq]
    cases LpSet.insert fuel s i.toNat with
    | ub => rfl
    | timeout => rfl
    | done r =>
      simp only [Res.bind_done]
      rw [insertEach_seq fuel l r.1]
      cases insertSeq fuel (l.map BitVec.toNat) r.1 <;> rfl

theorem mem_finiteIds {p : Points} (h : p.offset.toNat + p.finiteSize.toNat ≤ 2 ^ 64) (i : BitVec 64) :
    i ∈ finiteIds p ↔ p.offset.toNat < i.toNat ∧ i.toNat < p.offset.toNat + p.finiteSize.toNat := by
  have ho := p.offset.isLt
  have hs := p.finiteSize.isLt
  have hi := i.isLt
  simp only [finiteIds, List.mem_map, List.mem_range'_1]
  constructor
  · rintro ⟨k, hk, rfl⟩
    rw [BitVec.toNat_add, BitVec.toNat_ofNat]
    omega
  · rintro ⟨h1, h2⟩
    refine ⟨i.toNat - p.offset.toNat, by omega, BitVec.eq_of_toNat_eq ?_⟩
    rw [BitVec.toNat_add, BitVec.toNat_ofNat]
    omega

theorem mem_infiniteIds {D : Nat} (hD : D < 31) (i : BitVec 64) : i ∈ infiniteIds D ↔ isFinite D i = false := by
  have hp : 2 ^ D < 2 ^ 64 := Nat.pow_lt_pow_right (by omega) (by omega)
  have hi := i.isLt
  rw [C34_isFinite D hD]
  simp only [infiniteIds, List.mem_map, List.mem_range, nINF_toNat (show D < 64 by omega)]
  constructor
  · rintro ⟨k, hk, rfl⟩
    rw [BitVec.toNat_add, BitVec.toNat_ofNat, cINF_toNat (by omega)]
    omega
  · intro h
    refine ⟨i.toNat - (2 ^ 64 - 2 ^ D), by omega, BitVec.eq_of_toNat_eq ?_⟩
    rw [BitVec.toNat_add, BitVec.toNat_ofNat, cINF_toNat (by omega)]
    omega

/-- The ids inserted are those contained. -/
theorem mem_ids {D : Nat} (hD : D < 31) {p : Points} (h : p.offset.toNat + p.finiteSize.toNat ≤ 2 ^ 64) (i : BitVec 64) :
    i ∈ finiteIds p ++ infiniteIds D ↔ contains D p i = true := by
  rw [List.mem_append, mem_finiteIds h, mem_infiniteIds hD]
  by_cases hf : isFinite D i = true
  · rw [C34_contains_finite D p i hf]
    simp [hf]
  · have hf' : isFinite D i = false := by simpa using hf
    have := C34_infIndex D hD i hf'
    simp only [hf', or_true, true_iff]
    rw [contains, if_neg hf, decide_eq_true_eq, BitVec.lt_def, this.2.2]
    exact this.2.1

/-- **C71**: `makePointIds` returns for every hash function, and the set contains exactly the ids that the container contains.
The container has offset + size ≤ 2⁶⁴. -/
theorem C71_makePointIds {D : Nat} (hD0 : 0 < D) (hD : D < 31) (a : Nat) (p : Points)
    (h : p.offset.toNat + p.finiteSize.toNat ≤ 2 ^ 64) (hs : p.finiteSize.toNat + 2 ^ D < 2 ^ 64) :
    ∃ s, Returns (fun n => makePointIds n a D p) s ∧
      ∀ i : BitVec 64, i ≠ 0 → Returns (fun n => s.contains n i.toNat) (contains D p i) := by
  have hp : 2 ^ 1 ≤ 2 ^ D := Nat.pow_le_pow_right (by omega) hD0
  have hp' : 2 ^ D < 2 ^ 64 := Nat.pow_lt_pow_right (by omega) (by omega)
  have hsize : 2 ≤ (size D p).toNat := by
    rw [size, BitVec.toNat_add, nINF_toNat (by omega), Nat.mod_eq_of_lt hs]
    omega
  obtain ⟨s, hr, _, hc⟩ := C01_insert_sequence a _ hsize ((finiteIds p ++ infiniteIds D).map BitVec.toNat) (by
    intro k hk
    obtain ⟨i, hi, rfl⟩ := List.mem_map.mp hk
    rw [List.mem_append, mem_finiteIds h, mem_infiniteIds hD, C34_isFinite D hD] at hi
    omega)
  refine ⟨s, ?_, fun i hi => ?_⟩
  · obtain ⟨n, hn⟩ := hr
    exact ⟨n, fun m hm => by
      show insertEach m _ _ = _
      have hm := hn m hm
      dsimp only at hm
      rw [insertEach_seq, hm, Res.bind_done]⟩
  · have := hc i.toNat (fun h0 => hi (BitVec.eq_of_toNat_eq (by simpa using h0)))
    convert this using 2
    rw [eq_comm, Bool.eq_iff_iff, decide_eq_true_eq, ← mem_ids hD h, List.mem_map]
    constructor
    · rintro ⟨j, hj, he⟩
      rwa [← BitVec.eq_of_toNat_eq he]
    · exact fun hj => ⟨i, hj, rfl⟩

theorem finiteIds_nodup {p : Points} : (finiteIds p).Nodup := by
  refine List.Nodup.map_on ?_ List.nodup_range'
  intro i hi j hj he
  have hs := p.finiteSize.isLt
  rw [List.mem_range'_1] at hi hj
  have := congrArg BitVec.toNat he
  rw [BitVec.toNat_add, BitVec.toNat_add, BitVec.toNat_ofNat, BitVec.toNat_ofNat] at this
  have ho := p.offset.isLt
  omega

theorem infiniteIds_nodup {D : Nat} : (infiniteIds D).Nodup := by
  refine List.Nodup.map_on ?_ List.nodup_range
  intro i hi j hj he
  have hs := (nINF D).isLt
  rw [List.mem_range] at hi hj
  have := congrArg BitVec.toNat he
  rw [BitVec.toNat_add, BitVec.toNat_add, BitVec.toNat_ofNat, BitVec.toNat_ofNat] at this
  have ho := (cINF D).isLt
  omega

theorem ids_nodup {D : Nat} (hD : D < 31) {p : Points} (h' : p.offset.toNat + p.finiteSize.toNat ≤ 2 ^ 64)
    (h : p.offset.toNat + p.finiteSize.toNat ≤ 2 ^ 64 - 2 ^ D) : ((finiteIds p ++ infiniteIds D).map BitVec.toNat).Nodup := by
  refine List.Nodup.map (fun _ _ => BitVec.eq_of_toNat_eq) (List.Nodup.append finiteIds_nodup infiniteIds_nodup ?_)
  intro i hi hj
  rw [mem_finiteIds h'] at hi
  rw [mem_infiniteIds hD, C34_isFinite D hD] at hj
  omega

theorem ids_ne_zero {D : Nat} (hD : D < 31) {p : Points} (h : p.offset.toNat + p.finiteSize.toNat ≤ 2 ^ 64) :
    ∀ k ∈ (finiteIds p ++ infiniteIds D).map BitVec.toNat, k ≠ 0 := by
  have hp' : 2 ^ D < 2 ^ 64 := Nat.pow_lt_pow_right (by omega) (by omega)
  intro k hk
  obtain ⟨i, hi, rfl⟩ := List.mem_map.mp hk
  rw [List.mem_append, mem_finiteIds h, mem_infiniteIds hD, C34_isFinite D hD] at hi
  omega

theorem size_sub_one {D : Nat} {p : Points} (hsz : (size D p).toNat = p.finiteSize.toNat + 2 ^ D) (h1 : 1 ≤ p.finiteSize.toNat) :
    (size D p - 1#64).toNat = p.finiteSize.toNat - 1 + 2 ^ D := by
  generalize size D p = x at hsz ⊢
  generalize 2 ^ D = y at hsz ⊢
  have h1' : (1#64).toNat = 1 := rfl
  rw [BitVec.toNat_sub_of_le (by rw [BitVec.le_def, hsz, h1']; omega), hsz, h1']
  omega

/-- The container is equal to its set of ids: the size of the set is the size of the container without the reserved point 0.
The container has at least the reserved point, and its finite ids are below the infinite ones. -/
theorem C71_equal {D : Nat} (hD0 : 0 < D) (hD : D < 31) (a : Nat) (p : Points) (h1 : 1 ≤ p.finiteSize.toNat)
    (h : p.offset.toNat + p.finiteSize.toNat ≤ 2 ^ 64 - 2 ^ D) (hs : p.finiteSize.toNat + 2 ^ D < 2 ^ 64) :
    ∃ s, Returns (fun n => makePointIds n a D p) s ∧
      ∀ l : List Nat, (∀ k ∈ l, ∃ i : BitVec 64, i.toNat = k ∧ contains D p i = true) → eqIds D p s.size l = true := by
  have hp : 2 ^ 1 ≤ 2 ^ D := Nat.pow_le_pow_right (by omega) hD0
  have hp' : 2 ^ D < 2 ^ 64 := Nat.pow_lt_pow_right (by omega) (by omega)
  have h' : p.offset.toNat + p.finiteSize.toNat ≤ 2 ^ 64 := by omega
  have hsz : (size D p).toNat = p.finiteSize.toNat + 2 ^ D := by
    rw [size, BitVec.toNat_add, nINF_toNat (by omega), Nat.mod_eq_of_lt hs]
  obtain ⟨s, hr, hcard, _⟩ := C01_insert_sequence a _ (show 2 ≤ (size D p).toNat by omega)
    ((finiteIds p ++ infiniteIds D).map BitVec.toNat) (ids_ne_zero hD h')
  refine ⟨s, ?_, fun l hl => ?_⟩
  · obtain ⟨n, hn⟩ := hr
    exact ⟨n, fun m hm => by
      show insertEach m _ _ = _
      have hm := hn m hm
      dsimp only at hm
      rw [insertEach_seq, hm, Res.bind_done]⟩
  · have hnd := ids_nodup hD (by omega) h
    have hl1 : (finiteIds p).length = p.finiteSize.toNat - 1 := by rw [finiteIds, List.length_map, List.length_range']
    have hl2 : (infiniteIds D).length = 2 ^ D := by rw [infiniteIds, List.length_map, List.length_range, nINF_toNat (by omega)]
    rw [List.toFinset_card_of_nodup hnd, List.length_map, List.length_append, hl1, hl2] at hcard
    have hsub : (size D p - 1#64).toNat = s.size := by
      rw [size_sub_one hsz h1, hcard]
    rw [eqIds, if_neg (not_not.mpr hsub), List.all_eq_true]
    intro k hk
    obtain ⟨i, rfl, hi⟩ := hl k hk
    rw [BitVec.ofNat_toNat, BitVec.setWidth_eq]
    exact hi

/-- A container with offset 5 and seven slots in dimension 2: points 6 to 11 and four infinite points. -/
example : (⟨5#64, 7#64⟩ : Points).offset.toNat + (⟨5#64, 7#64⟩ : Points).finiteSize.toNat ≤ 2 ^ 64 - 2 ^ 2 ∧
    contains 2 ⟨5#64, 7#64⟩ 11#64 = true ∧ contains 2 ⟨5#64, 7#64⟩ 12#64 = false ∧ contains 2 ⟨5#64, 7#64⟩ 5#64 = false ∧
    contains 2 ⟨5#64, 7#64⟩ (cINF 2 + 3#64) = true := by decide

end PointId
end Verif
