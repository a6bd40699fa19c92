import Verif.Model.Simplex
import Verif.Props.Misc
import Mathlib.Data.List.Perm.Basic
import Mathlib.Data.List.Nodup
import Mathlib.Data.Finset.Card
import Mathlib.Data.Finset.Basic

/-!
# C31-C34: simplices, fingerprints and point ids
-/
namespace Verif

/-! ### C34 -/
namespace PointId

theorem cINF_toNat {D : Nat} (h : D < 64) : (cINF D).toNat = 2 ^ 64 - 2 ^ D := by
  have hp : 2 ^ D < 2 ^ 64 := Nat.pow_lt_pow_right (by omega) h
  have hpos : 0 < 2 ^ D := Nat.two_pow_pos D
  have e : cINF D = ~~~(BitVec.ofNat 64 (2 ^ D) - 1#64) := by
    unfold cINF
    ext i hi
    simp only [BitVec.getElem_xor, BitVec.getElem_not, BitVec.getElem_zero, Bool.not_false,
      Bool.true_xor]
  have e2 : (BitVec.ofNat 64 (2 ^ D) - 1#64).toNat = 2 ^ D - 1 := by
    have hx : (BitVec.ofNat 64 (2 ^ D)).toNat = 2 ^ D := by
      rw [BitVec.toNat_ofNat, Nat.mod_eq_of_lt hp]
    rw [BitVec.toNat_sub, hx]
    simp only [BitVec.toNat_ofNat]
    omega
  rw [e, BitVec.toNat_not, e2]
  omega

theorem nINF_toNat {D : Nat} (h : D < 64) : (nINF D).toNat = 2 ^ D := by
  have hp : 2 ^ D < 2 ^ 64 := Nat.pow_lt_pow_right (by omega) h
  have hpos : 0 < 2 ^ D := Nat.two_pow_pos D
  unfold nINF
  rw [BitVec.toNat_add, BitVec.toNat_sub, cINF_toNat h]
  simp only [BitVec.toNat_not, BitVec.toNat_ofNat]
  omega

theorem infIndex_toNat {D : Nat} (h : D < 64) (i : BitVec 64) :
    (infIndex D i).toNat = i.toNat % 2 ^ D := by
  have hp : 2 ^ D < 2 ^ 64 := Nat.pow_lt_pow_right (by omega) h
  have hpos : 0 < 2 ^ D := Nat.two_pow_pos D
  unfold infIndex
  rw [BitVec.toNat_and, BitVec.toNat_not, cINF_toNat h]
  have : 2 ^ 64 - 1 - (2 ^ 64 - 2 ^ D) = 2 ^ D - 1 := by omega
  rw [this, Nat.and_comm, Nat.and_two_pow_sub_one_eq_mod]

theorem isFinite_iff {D : Nat} (h : D < 64) (i : BitVec 64) :
    isFinite D i = true ↔ i.toNat < 2 ^ 64 - 2 ^ D := by
  have hp : 2 ^ D < 2 ^ 64 := Nat.pow_lt_pow_right (by omega) h
  have hpos : 0 < 2 ^ D := Nat.two_pow_pos D
  have key : ((i &&& cINF D) = cINF D) ↔ 2 ^ 64 - 2 ^ D ≤ i.toNat := by
    constructor
    · intro he
      have := congrArg BitVec.toNat he
      rw [BitVec.toNat_and, cINF_toNat h] at this
      rw [← this]
      exact Nat.and_le_left
    · intro hle
      apply BitVec.eq_of_toNat_eq
      have hi := i.isLt
      have hd : i.toNat = 2 ^ D * (2 ^ (64 - D) - 1) + i.toNat % 2 ^ D := by
        have e1 : 2 ^ D * (2 ^ (64 - D) - 1) = 2 ^ 64 - 2 ^ D := by
          rw [Nat.mul_sub, ← Nat.pow_add, Nat.mul_one]
          congr 2; omega
        have e2 : i.toNat / 2 ^ D = 2 ^ (64 - D) - 1 := by
          have hpow : 2 ^ 64 = 2 ^ (64 - D) * 2 ^ D := by rw [← Nat.pow_add]; congr 1; omega
          apply Nat.le_antisymm
          · have : i.toNat / 2 ^ D < 2 ^ (64 - D) := by
              rw [Nat.div_lt_iff_lt_mul hpos, ← hpow]; exact hi
            omega
          · rw [Nat.le_div_iff_mul_le hpos, Nat.mul_comm, e1]; exact hle
        have := Nat.div_add_mod i.toNat (2 ^ D)
        rw [e2] at this
        exact this.symm
      rw [BitVec.toNat_and]
      apply Nat.eq_of_testBit_eq
      intro k
      rw [Nat.testBit_and]
      have hc : (cINF D).toNat = 2 ^ D * (2 ^ (64 - D) - 1) + 0 := by
        rw [cINF_toNat h, Nat.mul_sub, ← Nat.pow_add, Nat.mul_one]
        congr 2; omega
      rw [hc, hd]
      have hm : i.toNat % 2 ^ D < 2 ^ D := Nat.mod_lt _ hpos
      rw [Nat.testBit_two_pow_mul_add _ hm, Nat.testBit_two_pow_mul_add _ hpos]
      by_cases hk : k < D
      · simp [hk]
      · simp [hk]
  unfold isFinite
  rw [Bool.not_eq_true', beq_eq_false_iff_ne, Ne, key]
  omega

/-- **C34** (ids): exactly the `2^D` largest ids are infinite. -/
theorem C34_isFinite (D : Nat) (h : D < 31) (i : BitVec 64) :
    isFinite D i = false ↔ 2 ^ 64 - 2 ^ D ≤ i.toNat := by
  rw [← Bool.not_eq_true, isFinite_iff (by omega)]
  omega

/-- **C34** (numbering): `infIndex` numbers the infinite ids `0, 1, ..., 2^D - 1` in order. -/
theorem C34_infIndex (D : Nat) (h : D < 31) (i : BitVec 64) (hi : isFinite D i = false) :
    (infIndex D i).toNat = i.toNat - (2 ^ 64 - 2 ^ D) ∧ (infIndex D i).toNat < 2 ^ D ∧
      (nINF D).toNat = 2 ^ D := by
  have hle := (C34_isFinite D h i).mp hi
  have hp : 2 ^ D < 2 ^ 64 := Nat.pow_lt_pow_right (by omega) (by omega)
  have hpos : 0 < 2 ^ D := Nat.two_pow_pos D
  have hlt := i.isLt
  rw [infIndex_toNat (by omega)]
  refine ⟨?_, Nat.mod_lt _ hpos, nINF_toNat (by omega)⟩
  have hpow : 2 ^ 64 = 2 ^ (64 - D) * 2 ^ D := by rw [← Nat.pow_add]; congr 1; omega
  have e1 : i.toNat = (i.toNat - (2 ^ 64 - 2 ^ D)) + 2 ^ D * (2 ^ (64 - D) - 1) := by
    rw [Nat.mul_sub, Nat.mul_one, Nat.mul_comm, ← hpow]; omega
  conv_lhs => rw [e1]
  rw [Nat.add_mul_mod_self_left, Nat.mod_eq_of_lt]
  omega

/-- **C34** (bijection): every index below `2^D` belongs to exactly one infinite id. -/
theorem C34_infIndex_bijective (D : Nat) (h : D < 31) (k : Nat) (hk : k < 2 ^ D) :
    ∃ i, (isFinite D i = false ∧ (infIndex D i).toNat = k) ∧
      ∀ j, isFinite D j = false → (infIndex D j).toNat = k → j = i := by
  have hp : 2 ^ D < 2 ^ 64 := Nat.pow_lt_pow_right (by omega) (by omega)
  have hn : (BitVec.ofNat 64 (2 ^ 64 - 2 ^ D + k)).toNat = 2 ^ 64 - 2 ^ D + k := by
    rw [BitVec.toNat_ofNat, Nat.mod_eq_of_lt]; omega
  have hf : isFinite D (BitVec.ofNat 64 (2 ^ 64 - 2 ^ D + k)) = false := by
    rw [C34_isFinite D h, hn]; omega
  refine ⟨_, ⟨hf, ?_⟩, fun j hj hjk => ?_⟩
  · rw [(C34_infIndex D h _ hf).1, hn]; omega
  · apply BitVec.eq_of_toNat_eq
    rw [hn]
    have := (C34_infIndex D h j hj).1
    have := (C34_isFinite D h j).mp hj
    omega

/-- **C34** (access): if the container says it has an id, the element access is in bounds, and
different ids are different elements. -/
theorem C34_contains_access (D : Nat) (h : D < 31) (p : Points) (i : BitVec 64)
    (hc : contains D p i = true) : ∃ c, cell D p i = some c ∧
      ∀ j, contains D p j = true → cell D p j = some c → j = i := by
  unfold contains at hc
  by_cases hf : isFinite D i = true
  · rw [if_pos hf] at hc
    simp only [Bool.and_eq_true, decide_eq_true_eq, BitVec.lt_def] at hc
    refine ⟨.inl (i - p.offset).toNat, by rw [cell, if_pos hf, if_pos hc.2], ?_⟩
    intro j hj hcell
    unfold cell at hcell
    split at hcell
    · split at hcell
      · injection hcell with hcell
        injection hcell with hcell
        have := BitVec.eq_of_toNat_eq hcell
        have h2 := congrArg (· + p.offset) this
        simpa [BitVec.sub_add_cancel] using h2
      · cases hcell
    · split at hcell
      · injection hcell with hcell; cases hcell
      · cases hcell
  · rw [if_neg hf] at hc
    have hf' : isFinite D i = false := by simpa using hf
    simp only [decide_eq_true_eq, BitVec.lt_def] at hc
    refine ⟨.inr (infIndex D i).toNat, by rw [cell, if_neg hf, if_pos hc], ?_⟩
    intro j hj hcell
    unfold cell at hcell
    split at hcell
    · split at hcell
      · injection hcell with hcell; cases hcell
      · cases hcell
    · rename_i hjf
      have hjf' : isFinite D j = false := by simpa using hjf
      split at hcell
      · injection hcell with hcell
        injection hcell with hcell
        obtain ⟨k, hk, huniq⟩ := C34_infIndex_bijective D h _ (C34_infIndex D h i hf').2.1
        rw [huniq j hjf' hcell, huniq i hf' rfl]
      · cases hcell

/-- **C34** (reserved element): the element at position 0 is never contained, and the finite ids
contained are exactly `offset + 1, ..., offset + finite_size - 1`. -/
theorem C34_contains_finite (D : Nat) (p : Points) (i : BitVec 64) (hf : isFinite D i = true) :
    contains D p i = true ↔
      p.offset.toNat < i.toNat ∧ i.toNat < p.offset.toNat + p.finiteSize.toNat := by
  unfold contains
  rw [if_pos hf]
  simp only [Bool.and_eq_true, decide_eq_true_eq, BitVec.lt_def]
  constructor
  · rintro ⟨h1, h2⟩
    rw [BitVec.toNat_sub_of_le (by rw [BitVec.le_def]; omega)] at h2
    omega
  · rintro ⟨h1, h2⟩
    refine ⟨h1, ?_⟩
    rw [BitVec.toNat_sub_of_le (by rw [BitVec.le_def]; omega)]
    omega

/-- **C34**: every infinite id is contained. -/
theorem C34_contains_infinite (D : Nat) (h : D < 31) (p : Points) (i : BitVec 64)
    (hf : isFinite D i = false) : contains D p i = true := by
  unfold contains
  rw [hf]
  have := C34_infIndex D h i hf
  simp only [Bool.false_eq_true, if_false, decide_eq_true_eq, BitVec.lt_def]
  omega

/-- **C34** (`VectorAdapter2`): the adapter contains the finite ids from `offset` on, that is one more than `dPoints`, and every infinite id;
what it contains has a cell. -/
theorem C34_base (D : Nat) (h : D < 31) (p : Points) (i : BitVec 64) :
    (containsBase D p i = true ↔
      (isFinite D i = true → p.offset.toNat ≤ i.toNat ∧ i.toNat < p.offset.toNat + p.finiteSize.toNat)) ∧
    (containsBase D p i = true ↔ contains D p i = true ∨ (i = p.offset ∧ 0 < p.finiteSize.toNat)) ∧
    (containsBase D p i = true → (cell D p i).isSome) := by
  have h1 : isFinite D i = true → (containsBase D p i = true ↔ p.offset.toNat ≤ i.toNat ∧ i.toNat < p.offset.toNat + p.finiteSize.toNat) := by
    intro hf
    unfold containsBase
    rw [if_pos hf]
    simp only [Bool.and_eq_true, decide_eq_true_eq, BitVec.lt_def, BitVec.le_def]
    refine and_congr_right fun h1 => ?_
    rw [BitVec.toNat_sub_of_le (by rw [BitVec.le_def]; omega)]
    omega
  have h2 : isFinite D i = false → containsBase D p i = true := by
    intro hf
    have := C34_infIndex D h i hf
    unfold containsBase
    simp only [hf, Bool.false_eq_true, if_false, decide_eq_true_eq, BitVec.lt_def]
    omega
  by_cases hf : isFinite D i = true
  · refine ⟨by rw [h1 hf]; simp [hf], ?_, fun hc => ?_⟩
    · rw [h1 hf, C34_contains_finite D p i hf, ← BitVec.toNat_inj]; omega
    · have := (h1 hf).mp hc
      rw [cell, if_pos hf, if_pos (by rw [BitVec.toNat_sub_of_le (by rw [BitVec.le_def]; omega)]; omega)]; rfl
  · have hf' : isFinite D i = false := by simpa using hf
    refine ⟨by simp [h2 hf', hf'], by simp [h2 hf', C34_contains_infinite D h p i hf'], fun _ => ?_⟩
    obtain ⟨c, hc, _⟩ := C34_contains_access D h p i (C34_contains_infinite D h p i hf')
    rw [hc]; rfl

example : containsBase 3 ⟨10#64, 5#64⟩ 10#64 = true ∧ containsBase 3 ⟨10#64, 5#64⟩ 15#64 = false ∧
    containsBase 3 ⟨10#64, 5#64⟩ (BitVec.ofNat 64 (2 ^ 64 - 7)) = true := by
  decide +kernel

example : isFinite 3 (BitVec.ofNat 64 (2 ^ 64 - 9)) = true ∧
    isFinite 3 (BitVec.ofNat 64 (2 ^ 64 - 8)) = false ∧
    infIndex 3 (BitVec.ofNat 64 (2 ^ 64 - 7)) = 1#64 ∧
    contains 3 ⟨10#64, 5#64⟩ 10#64 = false ∧ contains 3 ⟨10#64, 5#64⟩ 14#64 = true := by
  decide +kernel

end PointId

namespace Simplex

/-- **C34** (simplices): a simplex is finite iff none of its vertices is one of the `2^D` infinite points. -/
theorem C34_simplex_isFinite (D : Nat) (h : D < 31) (s : Simplex) (hv : ∀ v ∈ s.vs, v < 2 ^ 64) :
    isFinite D s = true ↔ ∀ v ∈ s.vs, v < 2 ^ 64 - 2 ^ D := by
  unfold isFinite
  rw [List.all_eq_true]
  refine forall₂_congr fun v hm => ?_
  rw [← not_iff_not, Bool.not_eq_true, PointId.C34_isFinite D h, BitVec.toNat_ofNat, Nat.mod_eq_of_lt (hv v hm), not_lt]

example : isFinite 2 ⟨1, [3, 5, 2 ^ 64 - 5], [], 0#32, 0⟩ = true ∧ isFinite 2 ⟨1, [3, 5, 2 ^ 64 - 4], [], 0#32, 0⟩ = false ∧
    isFinite 2 ⟨1, [2 ^ 64 - 1, 5, 6], [], 0#32, 0⟩ = false := by
  decide +kernel

/-! ### C31 -/

/-- **C31** (`contains`). -/
theorem C31_contains (s : Simplex) (p : Nat) (hs : s.vs.Pairwise (· ≤ ·)) :
    s.contains p = true ↔ p ∈ s.vs := by
  unfold Simplex.contains
  generalize s.vs = l at hs
  induction l with
  | nil => simp [containsVs]
  | cons v vs ih =>
    rw [List.pairwise_cons] at hs
    unfold containsVs
    by_cases h1 : v ≤ p
    · rw [if_pos h1]
      by_cases h2 : p = v
      · simp [h2]
      · rw [if_neg h2, ih hs.2, List.mem_cons]
        simp [h2]
    · rw [if_neg h1]
      simp only [Bool.false_eq_true, false_iff]
      intro hp
      rcases List.mem_cons.mp hp with h | h
      · omega
      · have := hs.1 p h; omega

theorem shared_eq : ∀ (l m : List Nat), l.Pairwise (· < ·) → m.Pairwise (· < ·) →
    shared l m = (l.toFinset ∩ m.toFinset).card := by
  intro l m
  induction hn : l.length + m.length using Nat.strong_induction_on generalizing l m with
  | _ n ih =>
    intro hl hm
    match l, m with
    | [], m => simp [shared]
    | v :: vs, [] => simp [shared]
    | v :: vs, a :: as =>
      rw [List.pairwise_cons] at hl hm
      have hlv : v ∉ vs := fun h => by have := hl.1 v h; omega
      have hma : a ∉ as := fun h => by have := hm.1 a h; omega
      rw [shared]
      rcases Nat.lt_trichotomy v a with h | h | h
      · rw [if_pos (by omega), if_neg (by omega)]
        rw [ih _ (by subst hn; simp) vs (a :: as) rfl hl.2 (List.pairwise_cons.mpr hm)]
        have hne : (v == a) = false := by simp; omega
        rw [hne]
        have : v ∉ (a :: as).toFinset := by
          simp only [List.mem_toFinset, List.mem_cons, not_or]
          exact ⟨by omega, fun hh => by have := hm.1 v hh; omega⟩
        rw [List.toFinset_cons (l := vs), Finset.insert_inter_of_notMem this]
        simp
      · subst h
        rw [if_pos (Nat.le_refl _), if_pos (Nat.le_refl _)]
        rw [ih _ (by subst hn; simp; omega) vs as rfl hl.2 hm.2]
        rw [List.toFinset_cons, List.toFinset_cons, ← Finset.insert_inter_distrib,
          Finset.card_insert_of_notMem]
        · simp [Nat.add_comm]
        · simp [hlv]
      · rw [if_neg (by omega)]
        rw [ih _ (by subst hn; simp) (v :: vs) as rfl (List.pairwise_cons.mpr hl) hm.2]
        have hne : (v == a) = false := by simp; omega
        rw [hne]
        have : a ∉ (v :: vs).toFinset := by
          simp only [List.mem_toFinset, List.mem_cons, not_or]
          exact ⟨by omega, fun hh => by have := hl.1 a hh; omega⟩
        rw [List.toFinset_cons (l := as), Finset.inter_insert_of_notMem this]
        simp

/-- **C31** (`countSharedVertices`): the size of the intersection of the vertex sets. -/
theorem C31_countSharedVertices (s a : Simplex) (hs : s.vs.Pairwise (· < ·))
    (ha : a.vs.Pairwise (· < ·)) :
    countSharedVertices s a = (s.vs.toFinset ∩ a.vs.toFinset).card := shared_eq _ _ hs ha

/-- **C31** (`isNeighbor`). -/
theorem C31_isNeighbor (D : Nat) (s a : Simplex) (hs : s.vs.Pairwise (· < ·))
    (ha : a.vs.Pairwise (· < ·)) :
    isNeighbor D s a = true ↔ (s.vs.toFinset ∩ a.vs.toFinset).card = D := by
  unfold isNeighbor
  rw [beq_iff_eq, C31_countSharedVertices s a hs ha]

/-- **C31** (`containsAll`, `containsAny`). -/
theorem C31_containsAllAny (s : Simplex) (ps : List Nat) (hs : s.vs.Pairwise (· ≤ ·)) :
    (s.containsAll ps = true ↔ ∀ p ∈ ps, p ∈ s.vs) ∧
    (s.containsAny ps = true ↔ ∃ p ∈ ps, p ∈ s.vs) := by
  simp [containsAll, containsAny, List.all_eq_true, List.any_eq_true, C31_contains s _ hs]

example : let s : Simplex := ⟨1, [3, 5, 9], [], 0#32, 0⟩; let a : Simplex := ⟨2, [2, 5, 9], [], 0#32, 0⟩
    s.vs.Pairwise (· < ·) ∧ a.vs.Pairwise (· < ·) ∧ countSharedVertices s a = 2 ∧
    isNeighbor 2 s a = true ∧ s.contains 5 = true ∧ s.contains 4 = false := by decide +kernel

/-! ### C32 -/

/-- Specification of the fingerprint: xor of the rotated vertex ids. -/
def xorAll (l : List (BitVec 32)) : BitVec 32 := l.foldr (· ^^^ ·) 0#32

theorem rol_some {x : BitVec 32} (h : x.toNat % 32 ≠ 0) : (rol x).isSome := by
  have : (x &&& 31#32).toNat = x.toNat % 32 := by
    rw [BitVec.toNat_and]
    exact Nat.and_two_pow_sub_one_eq_mod x.toNat 5
  unfold rol
  simp only [this, if_neg h, Option.isSome_some]

theorem rol_none {x : BitVec 32} (h : x.toNat % 32 = 0) : rol x = none := by
  have : (x &&& 31#32).toNat = x.toNat % 32 := by
    rw [BitVec.toNat_and]
    exact Nat.and_two_pow_sub_one_eq_mod x.toNat 5
  unfold rol
  simp only [this, h, if_true]

/-- **C32** (rotation): where it is defined, the hash of a vertex is its lower word rotated left by its last
five bits: bit `i` moves to position `i + x mod 32`, cyclically. -/
theorem C32_rol_rotation (x y : BitVec 32) (h : rol x = some y) (i : Nat) (hi : i < 32) :
    y.getLsbD ((i + x.toNat % 32) % 32) = x.getLsbD i := by
  have hr : (x &&& 31#32).toNat = x.toNat % 32 := by
    rw [BitVec.toNat_and]
    exact Nat.and_two_pow_sub_one_eq_mod x.toNat 5
  unfold rol at h
  simp only [hr] at h
  split_ifs at h with h0
  cases h
  have hlt : x.toNat % 32 < 32 := Nat.mod_lt _ (by decide)
  generalize x.toNat % 32 = r at *
  rw [BitVec.getLsbD_or, BitVec.getLsbD_shiftLeft, BitVec.getLsbD_ushiftRight]
  by_cases hw : i + r < 32
  · rw [Nat.mod_eq_of_lt hw]
    have e2 : x.getLsbD (32 - r + (i + r)) = false := BitVec.getLsbD_of_ge _ _ (by omega)
    simp [hw, e2, show ¬ i + r < r by omega]
  · have e : (i + r) % 32 = i + r - 32 := by omega
    rw [e]
    simp [show i + r - 32 < 32 by omega, show i + r - 32 < r by omega, show 32 - r + (i + r - 32) = i by omega]

example : rol 5#32 = some 160#32 := by decide

theorem toHash_mod (v : Nat) : (toHash v).toNat % 32 = v % 32 := by
  unfold toHash
  rw [BitVec.toNat_ofNat]
  exact Nat.mod_mod_of_dvd v (by decide)

theorem xorRol_some : ∀ (l : List Nat) (acc : BitVec 32), (∀ v ∈ l, v % 32 ≠ 0) →
    xorRol acc l = some (acc ^^^ xorAll (l.map fun v => (rol (toHash v)).getD 0#32)) := by
  intro l
  induction l with
  | nil => intro acc _; simp [xorRol, xorAll]
  | cons v vs ih =>
    intro acc h
    have hv := rol_some (x := toHash v) (by rw [toHash_mod]; exact h v List.mem_cons_self)
    obtain ⟨r, hr⟩ := Option.isSome_iff_exists.mp hv
    rw [xorRol, hr, Option.bind_some, ih _ fun w hw => h w (List.mem_cons_of_mem _ hw)]
    simp only [List.map_cons, hr, Option.getD_some, xorAll, List.foldr_cons]
    rw [BitVec.xor_assoc]

theorem xorAll_perm {l m : List (BitVec 32)} (h : l.Perm m) : xorAll l = xorAll m := by
  unfold xorAll
  induction h with
  | nil => rfl
  | cons x _ ih => simp [ih]
  | swap x y l =>
    simp only [List.foldr_cons]
    rw [← BitVec.xor_assoc, ← BitVec.xor_assoc, BitVec.xor_comm x y]
  | trans _ _ h1 h2 => rw [h1, h2]

/-- **C32** (order): if no vertex id is divisible by 32 the fingerprint is defined and does not depend
on the order of the vertices. Missing: ids divisible by 32, see `C32_shift_violated`. -/
theorem C32_fingerprint_order_partial (s t : Simplex) (h : ∀ v ∈ s.vs, v % 32 ≠ 0)
    (hp : s.vs.Perm t.vs) : ∃ f, s.genFingerprint = some { s with fp := f } ∧
      t.genFingerprint = some { t with fp := f } := by
  have ht : ∀ v ∈ t.vs, v % 32 ≠ 0 := fun v hv => h v (hp.mem_iff.mpr hv)
  refine ⟨xorAll (s.vs.map fun v => (rol (toHash v)).getD 0#32), ?_, ?_⟩
  · simp [genFingerprint, xorRol_some _ _ h]
  · rw [xorAll_perm (hp.map _)]
    simp [genFingerprint, xorRol_some _ _ ht]

/-- **C32** (equality): for simplices of the same dimension with generated fingerprints,
`equalVertices` holds iff the vertex arrays are equal. -/
theorem C32_equalVertices (s t s' t' : Simplex) (hl : s.vs.length = t.vs.length)
    (hs : s.genFingerprint = some s') (ht : t.genFingerprint = some t') :
    equalVertices s' t' = true ↔ s'.vs = t'.vs := by
  have e1 : s'.vs = s.vs ∧ xorRol 0#32 s.vs = some s'.fp := by
    unfold genFingerprint at hs
    rw [Option.map_eq_some_iff] at hs
    obtain ⟨f, hf, rfl⟩ := hs
    exact ⟨rfl, hf⟩
  have e2 : t'.vs = t.vs ∧ xorRol 0#32 t.vs = some t'.fp := by
    unfold genFingerprint at ht
    rw [Option.map_eq_some_iff] at ht
    obtain ⟨f, hf, rfl⟩ := ht
    exact ⟨rfl, hf⟩
  unfold equalVertices
  have hl' : s'.vs.length = t'.vs.length := by rw [e1.1, e2.1, hl]
  constructor
  · intro h
    split at h
    · cases h
    · rw [List.all_eq_true] at h
      apply List.ext_getElem hl'
      intro i h1 h2
      have hi : i < (s'.vs.zip t'.vs).length := by rw [List.length_zip]; omega
      have := h _ (List.getElem_mem hi)
      rw [List.getElem_zip] at this
      simpa using this
  · intro h
    have hfp : s'.fp = t'.fp := by
      have h1 := e1.2
      have h2 := e2.2
      rw [← e1.1, h, e2.1, h2] at h1
      exact (Option.some.inj h1).symm
    rw [if_neg (by simpa using hfp), List.all_eq_true]
    intro p hp
    rw [h] at hp
    obtain ⟨i, hi, rfl⟩ := List.getElem_of_mem hp
    simp [List.getElem_zip]

theorem xorAll_erase {l : List (BitVec 32)} {i : Nat} (h : i < l.length) :
    xorAll l ^^^ l[i] = xorAll (l.eraseIdx i) := by
  have hp : l.Perm (l[i] :: l.eraseIdx i) := (List.getElem_cons_eraseIdx_perm h).symm
  rw [xorAll_perm hp]
  change (l[i] ^^^ xorAll (l.eraseIdx i)) ^^^ l[i] = _
  rw [BitVec.xor_comm l[i], BitVec.xor_assoc, BitVec.xor_self, BitVec.xor_zero]

theorem faceFingerprint_eq {s s' : Simplex} (h : ∀ v ∈ s.vs, v % 32 ≠ 0)
    (hs : s.genFingerprint = some s') {i : Nat} (hi : i < s.vs.length) :
    s'.faceFingerprint i =
      some (xorAll ((s.vs.eraseIdx i).map fun v => (rol (toHash v)).getD 0#32) ||| 1#32) := by
  have hfp : s'.vs = s.vs ∧ s'.fp = xorAll (s.vs.map fun v => (rol (toHash v)).getD 0#32) := by
    unfold genFingerprint at hs
    rw [xorRol_some _ _ h] at hs
    simp only [Option.map_some, Option.some.injEq, BitVec.zero_xor] at hs
    subst hs
    exact ⟨rfl, rfl⟩
  have hv := rol_some (x := toHash s.vs[i]) (by rw [toHash_mod]; exact h _ (List.getElem_mem hi))
  obtain ⟨r, hr⟩ := Option.isSome_iff_exists.mp hv
  unfold faceFingerprint
  rw [hfp.1, List.getElem?_eq_getElem hi, Option.bind_some, hr, Option.map_some, hfp.2]
  congr 2
  have := xorAll_erase (l := s.vs.map fun v => (rol (toHash v)).getD 0#32) (i := i) (by simpa using hi)
  rw [List.getElem_map, hr, Option.getD_some, List.eraseIdx_map] at this
  exact this

/-- **C32** (faces): two simplices that have the same vertices except vertex `i` of the first and `j`
of the second have the same fingerprint of these faces. Missing: ids divisible by 32. -/
theorem C32_faceFingerprint_partial (s t s' t' : Simplex) (i j : Nat)
    (h : ∀ v ∈ s.vs, v % 32 ≠ 0) (h' : ∀ v ∈ t.vs, v % 32 ≠ 0)
    (hs : s.genFingerprint = some s') (ht : t.genFingerprint = some t')
    (hi : i < s.vs.length) (hj : j < t.vs.length)
    (hface : (s.vs.eraseIdx i).Perm (t.vs.eraseIdx j)) :
    ∃ f, s'.faceFingerprint i = some f ∧ t'.faceFingerprint j = some f ∧ f ≠ 0#32 := by
  refine ⟨_, faceFingerprint_eq h hs hi, ?_, ?_⟩
  · rw [faceFingerprint_eq h' ht hj, xorAll_perm (hface.map _)]
  · intro h0
    have := congrArg (fun b => b.getLsbD 0) h0
    simp at this

/-- **C32** (not zero): a face fingerprint is never 0, the reserved hash key. -/
theorem C32_faceFingerprint_nonzero (s : Simplex) (i : Nat) (f : BitVec 32)
    (h : s.faceFingerprint i = some f) : f ≠ 0#32 := by
  unfold faceFingerprint at h
  simp only [Option.bind_eq_some_iff, Option.map_eq_some_iff] at h
  obtain ⟨v, _, r, _, rfl⟩ := h
  intro h0
  have := congrArg (fun b => b.getLsbD 0) h0
  simp at this

/-- **C32** fails for vertex ids divisible by 32: the fingerprint then shifts a 32-bit value by 32,
which is undefined. -/
theorem C32_shift_violated (s : Simplex) (v : Nat) (hv : v ∈ s.vs) (h : v % 32 = 0) :
    s.genFingerprint = none := by
  have hn : rol (toHash v) = none := rol_none (by rw [toHash_mod, h])
  have : ∀ (l : List Nat) (acc : BitVec 32), v ∈ l → xorRol acc l = none := by
    intro l
    induction l with
    | nil => intro _ h; cases h
    | cons w ws ih =>
      intro acc hm
      rw [xorRol]
      rcases List.mem_cons.mp hm with rfl | hm
      · rw [hn]; rfl
      · cases hr : rol (toHash w) with
        | none => rfl
        | some r => rw [Option.bind_some]; exact ih _ hm
  unfold genFingerprint
  rw [this _ _ hv]
  rfl

example : (⟨1, [1, 2, 64], [], 0#32, 0⟩ : Simplex).genFingerprint = none :=
  C32_shift_violated _ 64 (by decide) (by decide)

example : let s : Simplex := ⟨1, [1, 2, 35], [], 0#32, 0⟩; let t : Simplex := ⟨1, [2, 35, 50], [], 0#32, 0⟩
    (s.genFingerprint.bind fun s => s.faceFingerprint 0) =
      (t.genFingerprint.bind fun t => t.faceFingerprint 2) ∧
    (s.genFingerprint.bind fun s => s.faceFingerprint 0).isSome := by decide +kernel

/-! ### C33 -/

/-- **C33** (`operator==`): reflexive and symmetric for all simplices; transitive if all three have
valid ids. Missing: transitivity with invalid ids, see `C33_transitive_violated`. -/
theorem C33_eqOp_partial (a b c : Simplex) :
    eqOp a a = true ∧ (eqOp a b = true → eqOp b a = true) ∧
    (idFinite a.id = true → idFinite b.id = true → idFinite c.id = true →
      eqOp a b = true → eqOp b c = true → eqOp a c = true) := by
  have hev : ∀ s t : Simplex, equalVertices s t = true → equalVertices t s = true := by
    intro s t h
    unfold equalVertices at h ⊢
    split at h
    · cases h
    · rename_i hf
      rw [if_neg (by intro hc; exact hf (fun h => hc h.symm))]
      rw [List.all_eq_true] at h ⊢
      intro p hp
      obtain ⟨x, y⟩ := p
      have hp' : (y, x) ∈ s.vs.zip t.vs := by
        obtain ⟨i, hi, he⟩ := List.getElem_of_mem hp
        rw [List.getElem_zip, Prod.mk.injEq] at he
        rw [List.length_zip] at hi
        have hi' : i < (s.vs.zip t.vs).length := by rw [List.length_zip]; omega
        have hm := List.getElem_mem hi'
        rw [List.getElem_zip, he.1, he.2] at hm
        exact hm
      have := h _ hp'
      simp only [beq_iff_eq] at this ⊢
      exact this.symm
  refine ⟨by simp [eqOp], ?_, ?_⟩
  · unfold eqOp
    intro h
    cases h1 : (a.id == cINF) <;> cases h2 : (b.id == cINF) <;> simp only [h1, h2] at h ⊢
    · exact beq_iff_eq.mpr (beq_iff_eq.mp h).symm
    · exact hev _ _ h
    · exact hev _ _ h
    · exact beq_iff_eq.mpr (beq_iff_eq.mp h).symm
  · intro h1 h2 h3
    simp only [idFinite, bne_iff_ne, ne_eq] at h1 h2 h3
    have e1 : (a.id == cINF) = false := by simpa using h1
    have e2 : (b.id == cINF) = false := by simpa using h2
    have e3 : (c.id == cINF) = false := by simpa using h3
    simp only [eqOp, e1, e2, e3]
    simp
    exact Eq.trans

/-- **C33** fails: with a simplex without id in between, equality is not transitive; and two simplices
without id are equal whatever their vertices. -/
theorem C33_transitive_violated :
    (∃ a b c, eqOp a b = true ∧ eqOp b c = true ∧ eqOp a c = false) ∧
    (∃ a b : Simplex, eqOp a b = true ∧ a.vs ≠ b.vs) := by
  refine ⟨⟨⟨1, [1, 2, 3], [], 7#32, 0⟩, ⟨cINF, [1, 2, 3], [], 7#32, 0⟩, ⟨2, [1, 2, 3], [], 7#32, 0⟩,
    by decide +kernel⟩, ⟨cINF, [1, 2, 3], [], 7#32, 0⟩, ⟨cINF, [4, 5, 6], [], 7#32, 0⟩, by decide +kernel⟩

/-- **C33** (`equalNeighbors`) fails: it holds exactly if the neighbour arrays differ. -/
theorem C33_equalNeighbors_violated (s a : Simplex) :
    equalNeighbors s a = true ↔ ¬ s.ns = a.ns := by
  simp [equalNeighbors]

example : equalNeighbors ⟨1, [], [5, 6, 7], 0#32, 0⟩ ⟨1, [], [5, 6, 7], 0#32, 0⟩ = false := by decide

end Simplex
end Verif
