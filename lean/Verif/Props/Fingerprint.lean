import Verif.Props.CrossCheck
import Mathlib.Data.Multiset.Basic

/-!
# C58: fingerprint of a triangulation
-/
namespace Verif
namespace DC

/-- **C58 (value).** Entry `k` of the fingerprint is the exclusive or of the simplex fingerprints with last byte
`k`. -/
theorem C58_value (hash : Nat → BitVec 32) (T : Tri) (l : List Nat) (k : Nat) :
    genFp hash T l k =
      ((l.map fun s => fpOf hash (T.vs s)).filter fun f => decide (f.toNat % 256 = k)).foldl (· ^^^ ·) 0#32 := by
  have key : ∀ (l : List Nat) (a : Nat → BitVec 32),
      l.foldl (fun a s => xorInto (fpOf hash (T.vs s)) a) a k =
      ((l.map fun s => fpOf hash (T.vs s)).filter fun f => decide (f.toNat % 256 = k)).foldl (· ^^^ ·) (a k) := by
    intro l
    induction l with
    | nil => intro a; rfl
    | cons s l ih =>
      intro a
      rw [List.foldl_cons, ih, List.map_cons, List.filter_cons]
      have hb : (fpOf hash (T.vs s) &&& 0xFF#32).toNat = (fpOf hash (T.vs s)).toNat % 256 := by
        rw [BitVec.toNat_and]
        exact Nat.and_two_pow_sub_one_eq_mod _ 8
      rw [xorInto, hb]
      by_cases h : (fpOf hash (T.vs s)).toNat % 256 = k
      · rw [if_pos (by simpa using h), List.foldl_cons, h, Function.update_self]
      · rw [if_neg (by simpa using h), Function.update_of_ne (Ne.symm h)]
  exact key l _

/-- **C58.** The fingerprint depends only on the multiset of the vertex sets of the valid simplices: not on ids,
the order of the iteration, or the order of the vertices. -/
theorem C58_order (hash : Nat → BitVec 32) {T T' : Tri} {l l' : List Nat}
    (h : (l.map fun i => (T.vs i : Multiset Nat)).Perm (l'.map fun i => (T'.vs i : Multiset Nat))) :
    genFp hash T l = genFp hash T' l' := by
  have hp : (l.map fun s => fpOf hash (T.vs s)).Perm (l'.map fun s => fpOf hash (T'.vs s)) := by
    let g : Multiset Nat → BitVec 32 := Quotient.lift (fpOf hash) fun a b hab => fpOf_perm hash hab
    have := h.map g
    rwa [List.map_map, List.map_map] at this
  funext k
  rw [C58_value, C58_value]
  haveI : RightCommutative fun (a v : BitVec 32) => a ^^^ v :=
    ⟨fun a b c => by rw [BitVec.xor_assoc, BitVec.xor_assoc, BitVec.xor_comm b]⟩
  exact (hp.filter _).foldl_eq _

/-- **C58 (storage).** Two triangulations with the same simplices have the same fingerprint. -/
theorem C58_same (hash : Nat → BitVec 32) {T T' : Tri} {l l' : List Nat} (hl : T.Lists l) (hl' : T'.Lists l')
    (f : Nat → Nat) (hf : ∀ i, T.contains i = true → T'.contains (f i) = true ∧ (T'.vs (f i)).Perm (T.vs i))
    (hinj : ∀ i j, T.contains i = true → T.contains j = true → f i = f j → i = j)
    (hsurj : ∀ j, T'.contains j = true → ∃ i, T.contains i = true ∧ f i = j) :
    genFp hash T l = genFp hash T' l' := by
  apply C58_order
  have hp : (l.map f).Perm l' := by
    refine (List.perm_ext_iff_of_nodup ?_ hl'.1).mpr fun j => ?_
    · rw [List.nodup_map_iff_inj_on hl.1]
      exact fun i hi j hj => hinj i j ((hl.2 i).mp hi) ((hl.2 j).mp hj)
    · rw [List.mem_map, hl'.2]
      constructor
      · rintro ⟨i, hi, rfl⟩; exact (hf i ((hl.2 i).mp hi)).1
      · intro hj
        obtain ⟨i, hi, he⟩ := hsurj j hj
        exact ⟨i, (hl.2 i).mpr hi, he⟩
  refine List.Perm.trans ?_ (hp.map fun i => (T'.vs i : Multiset Nat))
  rw [List.map_map]
  refine List.Perm.of_eq (List.map_congr_left fun i hi => ?_)
  exact (Multiset.coe_eq_coe.mpr (hf i ((hl.2 i).mp hi)).2).symm

/-- Two storages of the same two triangles, with other ids and other order. -/
example :
    let T := triOf 1 [([1, 2, 3], [2, sINF, sINF]), ([2, 3, 4], [sINF, sINF, 1])] []
    let T' := triOf 7 [([2, 3, 4], [sINF, sINF, 8]), ([1, 2, 3], [7, sINF, sINF])] []
    T.Lists [1, 2] ∧ T'.Lists [7, 8] ∧ genFp wHash T [1, 2] = genFp wHash T' [7, 8] ∧
      genFp wHash T [1, 2] 18 = 18#32 := by
  refine ⟨triOf_lists (by decide), triOf_lists (by decide), ?_, by decide +kernel⟩
  refine C58_same wHash (triOf_lists (by decide)) (triOf_lists (by decide)) (fun i => 9 - i) ?_ ?_ ?_
  · intro i hi
    rw [triOf_contains (by decide)] at hi
    have : i = 1 ∨ i = 2 := by simp at hi; omega
    rcases this with rfl | rfl
    · exact ⟨(triOf_contains (by decide)).mpr (by decide), List.Perm.refl _⟩
    · exact ⟨(triOf_contains (by decide)).mpr (by decide), List.Perm.refl _⟩
  · intro i j hi hj he
    rw [triOf_contains (by decide)] at hi hj
    simp at hi hj he
    omega
  · intro j hj
    rw [triOf_contains (by decide)] at hj
    simp at hj
    exact ⟨9 - j, (triOf_contains (by decide)).mpr (by simp; omega), by omega⟩

end DC
end Verif
