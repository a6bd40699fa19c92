import Verif.Model.DC
import Verif.Props.Simplex
import Verif.Lemmas.DelaunayMerge

/-! Vertex lists, facets and face fingerprints. -/
namespace Verif
namespace DC
open Del (Across)

theorem fpOf_acc (hash : Nat → BitVec 32) (l : List Nat) (a : BitVec 32) :
    l.foldl (fun a v => a ^^^ hash v) a = a ^^^ fpOf hash l := by
  induction l generalizing a with
  | nil => simp [fpOf]
  | cons v l ih =>
    have e : fpOf hash (v :: l) = l.foldl (fun a v => a ^^^ hash v) (0#32 ^^^ hash v) := rfl
    rw [e, List.foldl_cons, ih, ih (0#32 ^^^ hash v), BitVec.zero_xor, BitVec.xor_assoc]

theorem fpOf_cons (hash : Nat → BitVec 32) (v : Nat) (l : List Nat) :
    fpOf hash (v :: l) = hash v ^^^ fpOf hash l := by
  have e : fpOf hash (v :: l) = l.foldl (fun a v => a ^^^ hash v) (0#32 ^^^ hash v) := rfl
  rw [e, fpOf_acc, BitVec.zero_xor]

theorem fpOf_perm (hash : Nat → BitVec 32) {l m : List Nat} (h : l.Perm m) : fpOf hash l = fpOf hash m := by
  induction h with
  | nil => rfl
  | cons v _ ih => rw [fpOf_cons, fpOf_cons, ih]
  | swap a b l =>
    simp only [fpOf_cons]
    rw [← BitVec.xor_assoc, ← BitVec.xor_assoc, BitVec.xor_comm (hash b)]
  | trans _ _ h1 h2 => rw [h1, h2]

theorem fpOf_erase (hash : Nat → BitVec 32) {l : List Nat} {v : Nat} (hv : v ∈ l) :
    fpOf hash l ^^^ hash v = fpOf hash (l.erase v) := by
  rw [fpOf_perm hash (List.perm_cons_erase hv), fpOf_cons, BitVec.xor_comm, ← BitVec.xor_assoc, BitVec.xor_self,
    BitVec.zero_xor]

/-- Simplices on both sides of a facet compute the same face fingerprint. -/
theorem faceKey_across (hash : Nat → BitVec 32) {a b : List Nat} (ha : a.Nodup) (hb : b.Nodup) {d : Nat}
    (hd : d < a.length) (h : Across a.toFinset (a.getD d 0) b.toFinset) :
    ∃ d' < b.length, faceKey hash b d' = faceKey hash a d := by
  obtain ⟨hv, u, hu, e⟩ := h
  have hub : u ∈ b := by
    rw [← List.mem_toFinset, e]; exact Finset.mem_insert_self _ _
  obtain ⟨d', hd', hu'⟩ := List.mem_iff_getElem.mp hub
  refine ⟨d', hd', ?_⟩
  have hbu : b.getD d' 0 = u := by
    rw [List.getD_eq_getElem?_getD, List.getElem?_eq_getElem hd', hu', Option.getD_some]
  unfold faceKey
  rw [hbu, fpOf_erase hash hub, fpOf_erase hash (List.mem_toFinset.mp hv)]
  congr 1
  refine fpOf_perm hash ?_
  rw [List.perm_ext_iff_of_nodup (hb.erase u) (ha.erase _)]
  intro w
  rw [hb.mem_erase_iff, ha.mem_erase_iff, ← List.mem_toFinset (l := b), e, Finset.mem_insert, Finset.mem_erase,
    List.mem_toFinset]
  constructor
  · rintro ⟨h1, h2 | h2⟩
    · exact absurd h2 h1
    · exact h2
  · rintro ⟨h1, h2⟩
    refine ⟨?_, Or.inr ⟨h1, h2⟩⟩
    rintro rfl
    exact hu (List.mem_toFinset.mpr h2)

/-- The test of `updateNeighbors` for adjacency across a facet. -/
theorem shared_across {D : Nat} {a b : List Nat} (ha : a.Pairwise (· < ·)) (hb : b.Pairwise (· < ·))
    (hla : a.length = D + 1) (hlb : b.length = D + 1) {v : Nat} (hv : v ∈ a) :
    (Simplex.shared a b = D ∧ Simplex.containsVs v b = false) ↔ Across a.toFinset v b.toFinset := by
  have hc : Simplex.containsVs v b = true ↔ v ∈ b :=
    Simplex.C31_contains ⟨0, b, [], 0#32, 0⟩ v (hb.imp (fun h => le_of_lt h))
  have hca : a.toFinset.card = D + 1 := by
    rw [List.toFinset_card_of_nodup (ha.imp (fun h => ne_of_lt h)), hla]
  have hcb : b.toFinset.card = D + 1 := by
    rw [List.toFinset_card_of_nodup (hb.imp (fun h => ne_of_lt h)), hlb]
  have hva : v ∈ a.toFinset := List.mem_toFinset.mpr hv
  rw [Simplex.shared_eq _ _ ha hb, ← Bool.not_eq_true, hc, ← List.mem_toFinset]
  generalize a.toFinset = A at *
  generalize b.toFinset = B at *
  constructor
  · rintro ⟨h1, h2⟩
    have hsub : A ∩ B ⊆ A.erase v := by
      intro w hw
      rw [Finset.mem_inter] at hw
      exact Finset.mem_erase.mpr ⟨fun h => h2 (h ▸ hw.2), hw.1⟩
    have heq : A ∩ B = A.erase v := Finset.eq_of_subset_of_card_le hsub (by
      rw [Finset.card_erase_of_mem hva, hca, h1]; omega)
    have hone : (B \ A).card = 1 := by
      have := Finset.card_sdiff_add_card_inter B A
      rw [Finset.inter_comm, h1, hcb] at this
      omega
    obtain ⟨u, hu⟩ := Finset.card_eq_one.mp hone
    have huB : u ∈ B \ A := by rw [hu]; exact Finset.mem_singleton_self _
    rw [Finset.mem_sdiff] at huB
    refine ⟨hva, u, huB.2, ?_⟩
    rw [← heq]
    ext w
    rw [Finset.mem_insert, Finset.mem_inter]
    constructor
    · intro hw
      by_cases hwA : w ∈ A
      · exact Or.inr ⟨hwA, hw⟩
      · left
        have : w ∈ B \ A := Finset.mem_sdiff.mpr ⟨hw, hwA⟩
        rw [hu] at this
        exact Finset.mem_singleton.mp this
    · rintro (rfl | h)
      · exact huB.1
      · exact h.2
  · rintro ⟨_, u, hu, rfl⟩
    have huv : u ≠ v := fun h => hu (h ▸ hva)
    have heq : A ∩ insert u (A.erase v) = A.erase v := by
      ext w
      rw [Finset.mem_inter, Finset.mem_insert, Finset.mem_erase]
      constructor
      · rintro ⟨h1, rfl | h2⟩
        · exact absurd h1 hu
        · exact h2
      · rintro ⟨h1, h2⟩
        exact ⟨h2, Or.inr ⟨h1, h2⟩⟩
    refine ⟨by rw [heq, Finset.card_erase_of_mem hva, hca]; omega, ?_⟩
    rw [Finset.mem_insert]
    rintro (h | h)
    · exact huv h.symm
    · exact Finset.notMem_erase _ _ h

theorem getD_mem {l : List Nat} {d : Nat} (h : d < l.length) : l.getD d 0 ∈ l := by
  rw [List.getD_eq_getElem?_getD, List.getElem?_eq_getElem h, Option.getD_some]
  exact List.getElem_mem h

theorem mem_getD {l : List Nat} {n : Nat} (h : n ∈ l) : ∃ d < l.length, l.getD d 0 = n := by
  obtain ⟨d, hd, e⟩ := List.mem_iff_getElem.mp h
  exact ⟨d, hd, by rw [List.getD_eq_getElem?_getD, List.getElem?_eq_getElem hd, Option.getD_some, e]⟩

end DC
end Verif
